import Verif.PipelineLemmas

/-!
# C73: running a compiled source program gives what the source program means
-/

namespace CairoM
namespace Pipeline

open Mir Lang Codegen Source Lower Abi

theorem table_lazy (p : Program) (n : ℕ) : ∀ d : ℕ, Below (p.table false n d) (p.table true n d)
  | 0 => fun _ _ _ h => by cases h
  | d + 1 => fun c xs ys h => by
    simp only [Program.table] at h ⊢
    split at h
    · cases h
    rename_i f hf
    split_ifs at h with ht
    split at h
    · rename_i vs hr
      rw [if_pos ht, run_lazy (table_lazy p n d) hr]
      exact h
    · cases h

/-- **C73 (partial).** A source program that is lowered, run through the passes (`k.optimise` or not), translated
to machine code and linked computes what the source program means: when calling function number `c` on some arguments
gives `vs` in the source language (with at most `d` nested calls), running the compiled program from the entry point
of that function on these arguments ends and returns `vs`. `checkProgram` and `fitsCheck` can be evaluated for the
program; the two inequalities say that the program, its arguments and `d` frames fit into the memory. Partial: the
scalar fragment; the conditions in `checkProgram` exclude the programs for which the single stages are wrong; both
operands of `&&` and `||` are evaluated in the assumption. -/
theorem C73_source_to_machine_partial (k : Config) (hk : k.Ok) (p : Program) (hcheck : checkProgram k p = true)
    (md : Module) (hmd : toMir k p = some md) (S N : ℕ) (hfits : fitsCheck md S N = true) :
    ∃ exe, compileModule md = .ok exe ∧
      ∀ (c : ℕ) (name : Name) (f : Fn), p.fns[c]? = some (name, f) → ∀ (n d : ℕ) (args vs : List Val),
        p.table false n d c args = some vs →
        ∀ inputs, denoteZip inputs ((f.params.map p.varTy).map fun t => abiType (mirTy t)) = some (args.map shown) →
        N + widths args + widths vs + 2 ≤ 2 ^ 27 → N + widths args + widths vs + 2 + d * S ≤ 2 ^ 28 →
        p.table true n d c args = some vs ∧
        ∃ pc, exe.entries.lookup name = some pc ∧ ∀ maxSteps, 1 ≤ maxSteps → ∃ fuel out,
          runCairoProgram fuel maxSteps exe.program
            ⟨pc, (f.params.map p.varTy).map fun t => abiType (mirTy t), f.rets.map fun t => abiType (mirTy t)⟩ inputs =
              some (.ok out) ∧
          out.returnValues = vs.map shown := by
  obtain ⟨g, exe, hg, hc, hd, hS, hN⟩ := fitsCheck_spec hfits
  refine ⟨exe, hc, fun c name f hf n d args vs hmean inputs hin hroom hdeep => ⟨table_lazy p n d _ _ _ hmean, ?_⟩⟩
  have htab := table_lemma hk hcheck hmd n d
  simp only [checkProgram, Bool.and_eq_true, List.all_eq_true, hmd] at hcheck
  obtain ⟨hfn, hmod⟩ := hcheck
  obtain ⟨hok, hnum, hpar⟩ := moduleB_sound hmod
  obtain ⟨-, hget⟩ := toFunctions_get hmd
  obtain ⟨G, hG, htf⟩ := hget c (name, f) hf
  obtain ⟨sp, sr, hname⟩ := checkFn_sig (hfn _ (List.mem_of_getElem? hf)) htf
  obtain ⟨n0, hn0⟩ := htab.2 c args vs hmean
  have hargs : List.Forall₂ Val.HasTy args (f.params.map p.varTy) := by
    cases d with
    | zero => cases hmean
    | succ d =>
      simp only [Program.table, hf] at hmean
      split_ifs at hmean with ht
      exact areOf_iff.1 ht
  have := C67_program_partial md exe hc g hg hd hok hnum hpar c G hG args vs n0 d (hn0 n0 le_rfl)
    (forall₂_types sp (forall₂_mirTy.2 hargs)) _ _ sp sr inputs (by simpa [List.map_map, Function.comp_def, Program.sem] using hin) S hS
    (by omega) (by omega)
  rw [hname] at this
  simpa [List.map_map, Function.comp_def, Program.sem] using this

/-! ### A program that meets the hypotheses -/

/-- `fn fact(n: felt) -> felt { if (n == 0) { return 1; } return n * fact(n - 1); }` -/
def factS : Fn :=
  { params := [0], rets := [.felt]
    body := [
      .ifThen (.bin .Eq (.var 0) (.int 0 .felt)) (.block [.retE (.int 1 .felt)]),
      .retE (.bin .Mul (.var 0) (.call 0 [.bin .Sub (.var 0) (.int 1 .felt)]))] }

/-- `fn main(a: u32, b: u32) -> felt { let i = 0; let s = 0; while (i < a) { i = i + 1; if (i == b) { s = s + fact(5); }
else { s = s + 2; } } return s; }` -/
def mainS : Fn :=
  { params := [10, 11], rets := [.felt]
    body := [
      .letS 12 (.int 0 .u32),
      .letS 1 (.int 0 .felt),
      .while (.bin .Less (.var 12) (.var 10)) (.block [
        .assign 12 (.bin .Add (.var 12) (.int 1 .u32)),
        .ifElse (.bin .Eq (.var 12) (.var 11)) (.block [.assign 1 (.bin .Add (.var 1) (.call 0 [.int 5 .felt]))])
          (.block [.assign 1 (.bin .Add (.var 1) (.int 2 .felt))])]),
      .retE (.var 1)] }

/-- Variables 0 to 9 are felts, the others `u32`. -/
def exProgram : Program :=
  ⟨fun x => if x < 10 then .felt else .u32, [(['f', 'a', 'c', 't'], factS), (['m', 'a', 'i', 'n'], mainS)]⟩

def exConfig (optimise : Bool) : Config := ⟨⟨20, id⟩, optimise, id, id⟩

theorem exConfig_ok (b : Bool) : (exConfig b).Ok :=
  ⟨fun _ => .refl _, fun _ => .refl _, fun _ => .refl _⟩

theorem exProgram_check : checkProgram (exConfig true) exProgram = true ∧ checkProgram (exConfig false) exProgram = true := by
  constructor <;> decide +kernel

theorem exProgram_fits (b : Bool) :
    ((toMir (exConfig b) exProgram).map fun md => fitsCheck md 40 2000) = some true := by
  cases b <;> decide +kernel

theorem exProgram_mean : exProgram.table false 30 8 1 [.u32 5, .u32 3] = some [.felt 128] := by decide +kernel

/-- The example program, compiled with and without optimisation, returns 128 on 5 and 3. -/
theorem example_compiled (b : Bool) : ∃ md exe pc, toMir (exConfig b) exProgram = some md ∧ compileModule md = .ok exe ∧
    exe.entries.lookup ['m', 'a', 'i', 'n'] = some pc ∧ ∀ maxSteps, 1 ≤ maxSteps → ∃ fuel out,
      runCairoProgram fuel maxSteps exe.program ⟨pc, [.u32, .u32], [.felt]⟩ [.number 5, .number 3] = some (.ok out) ∧
      out.returnValues = [.felt 128] := by
  have hf := exProgram_fits b
  simp only [Option.map_eq_some_iff] at hf
  obtain ⟨md, hmd, hfits⟩ := hf
  have hch : checkProgram (exConfig b) exProgram = true := by
    cases b
    · exact exProgram_check.2
    · exact exProgram_check.1
  obtain ⟨exe, hexe, h⟩ := C73_source_to_machine_partial (exConfig b) (exConfig_ok b) exProgram hch md hmd 40 2000 hfits
  obtain ⟨-, pc, hpc, hrun⟩ := h 1 ['m', 'a', 'i', 'n'] mainS rfl 30 8 [.u32 5, .u32 3] [.felt 128] exProgram_mean
    [.number 5, .number 3] rfl (by decide +kernel) (by decide +kernel)
  exact ⟨md, exe, pc, hmd, hexe, hpc, hrun⟩

end Pipeline
end CairoM
