import Verif.CodegenGen
import Verif.Abi

/-!
# Compiling a module and running one of its functions

Composition of the compiler back end (`compile_module`) with the runner (`run_cairo_program`), used to state
end-to-end facts about concrete modules.
-/

namespace CairoM
namespace Codegen

open Mir Abi

/-- `compile_module` (`codegen/src/backend.rs:43-54`) followed by `run_cairo_program`
(`runner/src/lib.rs:384-481`) with a bound on the number of steps: the returned values, if everything succeeds. -/
def compileRun (steps : ℕ) (m : Module) (name : Name) (params returns : List AbiType) (args : List InputValue) :
    Option (List CairoMValue) :=
  match compileModule m with
  | .error _ => none
  | .ok c =>
    match c.entries.lookup name with
    | none => none
    | some pc =>
      match runCairoProgram 1 steps c.program ⟨pc, params, returns⟩ args with
      | some (.ok out) => some out.returnValues
      | _ => none

end Codegen
end CairoM
