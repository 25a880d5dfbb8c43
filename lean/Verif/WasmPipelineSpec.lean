import Verif.PipelineSpec
import Verif.WasmProps

/-!
# From WebAssembly to machine: what a module means, and the compiler as a whole

`Prog` is a WebAssembly module with its functions in the flat data-flow form and `Prog.table` its meaning, an interpreter that
knows nothing of the compiler. `Prog.toMir` is the front end followed by one of the pass pipelines. `Prog.check` collects
the conditions of the theorems on the single stages; it can be evaluated for a given module.
-/

namespace CairoM
namespace Wasm

open Mir Codegen

/-- A module: its functions, in the order of their indices. -/
structure Prog where
  fns : List Func

/-- Meaning of the functions of a module, with at most `d` nested calls and `n` steps in each. -/
def Prog.table (p : Prog) (n : ℕ) : ℕ → Calls
  | 0 => fun _ _ => none
  | d + 1 => fun c args =>
    match p.fns[c]? with
    | none => none
    | some f => f.run (p.table n d) n args

/-- The function types of a module (`get_func_type`, used at `lowering/mod.rs:106`, `lowering/ops.rs:283`). -/
def Prog.types (p : Prog) : FuncTypes := fun c => (p.fns[c]?).map fun f => (f.params, f.results)

/-- The function types of a module as the pipeline sees them. -/
def Prog.sem (p : Prog) : Source.Sem :=
  { varTy := fun _ => .u32
    sig := fun c => (p.fns[c]?).map fun f => (List.replicate f.params.length .u32, List.replicate f.results.length .u32) }

/-- Lowering and passes on one function, the body of the loop in `lower_program_to_mir` (`lowering/mod.rs:60-72`). -/
def toFunction (k : Pipeline.Config) (m : FuncTypes) (f : Func) : Option Function :=
  match lowerFunc m f with
  | .ok F => Pipeline.passes k F
  | .error _ => none

def toFunctions (k : Pipeline.Config) (m : FuncTypes) : List Func → Option Module
  | [] => some []
  | f :: fs => (toFunction k m f).bind fun g => (toFunctions k m fs).map fun gs => g :: gs

/-- `lower_program_to_mir` (`lowering/mod.rs:60-72`); `none` is an error or a panic. -/
def Prog.toMir (k : Pipeline.Config) (p : Prog) : Option Module := toFunctions k p.types p.fns

/-- Conditions of the stages on one function. -/
def Prog.checkFn (k : Pipeline.Config) (p : Prog) (f : Func) : Bool :=
  f.supported p.types &&
  match lowerFunc p.types f with
  | .error _ => false
  | .ok F =>
    (if k.optimise then
      Pipeline.standardB k p.sem (List.replicate f.params.length .u32) (List.replicate f.results.length .u32) F
    else Lang.phiB F) &&
    match Pipeline.passes k F with
    | none => false
    | some G =>
      Pipeline.signatureB (List.replicate f.params.length .u32) (List.replicate f.results.length .u32) G &&
        decide (G.name = f.name)

/-- Conditions of the stages on a module. -/
def Prog.check (k : Pipeline.Config) (p : Prog) : Bool :=
  p.fns.all (p.checkFn k) &&
  match p.toMir k with
  | none => false
  | some md => Codegen.moduleB md

end Wasm
end CairoM
