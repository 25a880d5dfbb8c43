import Verif.ProgramProps

/-!
# Property C67 without its conditions: programs that are compiled to something else

In each case the interpreter (`callTable`) and the run of the compiled program give different results.
-/

namespace CairoM
namespace Codegen

open Mir Lang Abi

/-- `fn note(x: felt) {}` -/
def noteFn : Function := ⟨['n', 'o', 't', 'e'], [⟨[], .Return []⟩], [0], [], 1, types [(0, .Felt)]⟩

/-- `fn id(x: felt) -> felt { return x; }` -/
def idFn : Function := ⟨['i', 'd'], [⟨[], .Return [.Operand 0]⟩], [0], [0], 1, types [(0, .Felt)]⟩

/-- `fn f(x: felt) -> felt { let y = x + 1; note(y); let z = x * x; assert x == 10; note(z); return y; }`, where the
return is in a block of its own. -/
def clobberFn : Function :=
  ⟨['f'],
    [⟨[.BinaryOp .Add 1 (.Operand 0) (.Literal (.Integer 1)), .Call [] 0 [.Operand 1] ⟨[.Felt], []⟩,
       .BinaryOp .Mul 2 (.Operand 0) (.Operand 0), .AssertEq (.Operand 0) (.Literal (.Integer 10)),
       .Call [] 0 [.Operand 2] ⟨[.Felt], []⟩], .Jump 1⟩,
     ⟨[], .Return [.Operand 1]⟩],
    [0], [1], 3, types [(0, .Felt), (1, .Felt), (2, .Felt)]⟩

/-- **C67 violated** by calls without results: `y` is computed directly in the argument area above the frame, and
such a call does not record that this area is in use; the second call finds its argument at the recorded end of the
frame, leaves it in place, and the saved frame pointer of the callee overwrites `y`. `f(10)` should be 11, and the
program returns 13, a frame pointer. -/
theorem C67_violated_void :
    callTable [noteFn, clobberFn] 5 5 1 [.felt 10] = some [.felt 11] ∧
    feltsOf (compileRun 100 [noteFn, clobberFn] ['f'] [.felt] [.felt] [.number 10]) = some [13] := by
  constructor <;> decide +kernel

/-- Block 0 jumps to block 2, which calls `id` on the parameter and jumps to block 1, which returns the result. -/
def orderFn : Function :=
  ⟨['f'],
    [⟨[], .Jump 2⟩,
     ⟨[.BinaryOp .Add 2 (.Operand 1) (.Literal (.Integer 0))], .Return [.Operand 2]⟩,
     ⟨[.Call [1] 0 [.Operand 0] ⟨[.Felt], [.Felt]⟩], .Jump 1⟩],
    [0], [2], 3, types [(0, .Felt), (1, .Felt), (2, .Felt)]⟩

/-- **C67 violated** when a value is used in a block with a smaller number than the block that computes it: the place
of the result of a call is decided when the call is generated, after the code that reads it. `f(10)` should be 10,
and the program returns 0. -/
theorem C67_violated_order :
    callTable [idFn, orderFn] 5 5 1 [.felt 10] = some [.felt 10] ∧
    feltsOf (compileRun 100 [idFn, orderFn] ['f'] [.felt] [.felt] [.number 10]) = some [0] := by
  constructor <;> decide +kernel

/-- `fn f(x: u32) -> felt { if x { return 1; } else { return 2; } }` -/
def condFn : Function :=
  ⟨['f'],
    [⟨[], .If (.Operand 0) 1 2⟩, ⟨[.Assign 1 (.Literal (.Integer 1)) .Felt], .Return [.Operand 1]⟩,
     ⟨[.Assign 2 (.Literal (.Integer 2)) .Felt], .Return [.Operand 2]⟩],
    [0], [1], 3, types [(0, .U32), (1, .Felt), (2, .Felt)]⟩

/-- **C67 violated** for u32 conditions: only the low half is tested, so `65536` counts as zero. -/
theorem C67_violated_condition :
    callTable [condFn] 5 5 0 [.u32 65536] = some [.felt 1] ∧
    feltsOf (compileRun 100 [condFn] ['f'] [.u32] [.felt] [.number 65536]) = some [2] := by
  constructor <;> decide +kernel

end Codegen
end CairoM
