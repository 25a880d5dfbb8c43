import Verif.CodegenRun
import Verif.CodegenProps

/-!
# Compiled programs run on the VM: cases where the result is wrong

Each theorem compiles a small module with the model of the code generator, runs it with the model of the runner
and compares the returned value with what the program means.
-/

namespace CairoM
namespace Codegen

open Mir Lang Abi

/-- Field elements returned by a run. -/
def feltsOf : Option (List CairoMValue) → Option (List M31)
  | none => none
  | some vs => vs.mapM fun
    | .felt x => some x
    | .bool b => some (if b then 1 else 0)
    | .u32 n => some (n : M31)
    | _ => none

/-- Types of the values of a function. -/
def types (l : List (ValueId × MirType)) : ValueId → Option MirType := fun v => l.lookup v

/-- `fn m(x: felt) -> felt { return x + 2147483648; }` -/
def addLarge : Function :=
  ⟨['m'], [⟨[.BinaryOp .Add 1 (.Operand 0) (.Literal (.Integer 2147483648))], .Return [.Operand 1]⟩], [0], [1], 2,
    types [(0, .Felt), (1, .Felt)]⟩

/-- **C48 violated** for literals from `2^31` on: the literal is encoded as a signed 32-bit number, so `0 + 2^31`
is `-1` instead of `1`. -/
theorem C48_violated_literal :
    feltsOf (compileRun 100 [addLarge] ['m'] [.felt] [.felt] [.number 0]) = some [-1] ∧
      binary .Add (.felt 0) (.felt ((2147483648 : ℕ) : M31)) = some (.felt 1) ∧ (-1 : M31) ≠ 1 := by
  refine ⟨by decide +kernel, by decide +kernel, by decide +kernel⟩

/-- `fn m(x: felt) -> felt { return x + 5; }` -/
def addSmall : Function :=
  ⟨['m'], [⟨[.BinaryOp .Add 1 (.Operand 0) (.Literal (.Integer 5))], .Return [.Operand 1]⟩], [0], [1], 2,
    types [(0, .Felt), (1, .Felt)]⟩

/-- With a small literal the same program is right. -/
example : feltsOf (compileRun 100 [addSmall] ['m'] [.felt] [.felt] [.number 37]) = some [42] := by decide +kernel

end Codegen
end CairoM
