import Verif.LoweringPlain
import Verif.PipelineProps

/-!
# C73 with all passes

The pipeline of `C73_source_to_machine_partial` leaves out the scalar replacement of aggregates, which comes first in the
standard pipeline. Here it is put back; lowered functions of the scalar language build no aggregates, so that it changes nothing.
-/

namespace CairoM
namespace Pipeline

open Mir Lang Codegen Source Lower Abi

/-- Lowering and all passes on one function (`mir/src/pipeline.rs:57-77`). -/
def toFunctionAll (k : Config) (S : Sem) (f : Name × Fn) : Option Function :=
  (lowerFn k.lower S f.1 f.2).bind (Mir.Sroa.allPasses k)

/-- Lowering and all passes on a program. -/
def toMirAll (k : Config) (p : Program) : Option Module := p.fns.mapM (toFunctionAll k p.sem)

theorem toFunctionAll_eq (k : Config) (S : Sem) (f : Name × Fn) : toFunctionAll k S f = toFunction k S f := by
  unfold toFunctionAll toFunction
  cases h : lowerFn k.lower S f.1 f.2 with
  | none => rfl
  | some F => exact Mir.Sroa.C87_pipeline_unchanged k (lowerFn_plain k.lower S f.1 f.2 F h)

theorem toFunctions_mapM (k : Config) (S : Sem) : ∀ fs : List (Name × Fn), toFunctions k S fs = fs.mapM (toFunctionAll k S)
  | [] => by simp [toFunctions]
  | f :: fs => by
    rw [toFunctions, toFunctions_mapM k S fs, List.mapM_cons, toFunctionAll_eq]
    cases toFunction k S f with
    | none => rfl
    | some F => cases fs.mapM (toFunctionAll k S) <;> rfl

theorem toMirAll_eq (k : Config) (p : Program) : toMirAll k p = toMir k p := (toFunctions_mapM k p.sem p.fns).symm

/-- **C73 (partial).** `C73_source_to_machine_partial` for the compiler with all passes, including the scalar replacement of
aggregates. -/
theorem C73_all_passes_partial (k : Config) (hk : k.Ok) (p : Program) (hcheck : checkProgram k p = true)
    (md : Module) (hmd : toMirAll k p = some md) (S N : ℕ) (hfits : fitsCheck md S N = true) :
    ∃ exe, compileModule md = .ok exe ∧
      ∀ (c : ℕ) (name : Name) (f : Fn), p.fns[c]? = some (name, f) → ∀ (n d : ℕ) (args vs : List Val),
        p.table false n d c args = some vs →
        ∀ inputs, denoteZip inputs ((f.params.map p.varTy).map fun t => abiType (mirTy t)) = some (args.map shown) →
        N + widths args + widths vs + 2 ≤ 2 ^ 27 → N + widths args + widths vs + 2 + d * S ≤ 2 ^ 28 →
        p.table true n d c args = some vs ∧
        ∃ pc, exe.entries.lookup name = some pc ∧ ∀ maxSteps, 1 ≤ maxSteps → ∃ fuel out,
          runCairoProgram fuel maxSteps exe.program
            ⟨pc, (f.params.map p.varTy).map fun t => abiType (mirTy t), f.rets.map fun t => abiType (mirTy t)⟩ inputs =
              some (.ok out) ∧
          out.returnValues = vs.map shown :=
  C73_source_to_machine_partial k hk p hcheck md ((toMirAll_eq k p).symm.trans hmd) S N hfits

end Pipeline
end CairoM
