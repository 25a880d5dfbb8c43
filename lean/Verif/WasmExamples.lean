import Verif.WasmProps

/-!
# C84: functions that meet the hypotheses, and functions that are translated wrongly
-/

namespace CairoM
namespace Wasm
namespace Examples

open Mir Lang

/-- No functions to call. -/
def noTypes : FuncTypes := fun _ => none

/-- The body of the inner loop of `tests/test_cases/nested_loop.wat`. -/
def innerBody : List Node :=
  [.inputs [.i32, .i32, .i32], .op (.bin .ltU) [⟨0, 1⟩, ⟨0, 0⟩], .brIfZero (.label 4) [⟨1, 0⟩],
   .op (.bin .add) [⟨0, 2⟩, ⟨0, 0⟩], .op (.const 1) [], .op (.bin .add) [⟨0, 1⟩, ⟨4, 0⟩],
   .br (.outer 0) [⟨0, 0⟩, ⟨5, 0⟩, ⟨3, 0⟩], .label 4 [], .br (.label 2) [⟨0, 1⟩, ⟨0, 2⟩]]

/-- The body of its outer loop. -/
def outerBody : List Node :=
  [.inputs [.i32, .i32, .i32, .i32], .op (.bin .ltU) [⟨0, 1⟩, ⟨0, 0⟩], .brIfZero (.label 3) [⟨1, 0⟩],
   .op (.const 0) [], .loop [⟨0, 1⟩, ⟨3, 0⟩, ⟨0, 3⟩] innerBody, .label 2 [.i32, .i32], .op (.const 1) [],
   .op (.bin .add) [⟨0, 1⟩, ⟨6, 0⟩], .br (.outer 0) [⟨0, 0⟩, ⟨7, 0⟩, ⟨5, 0⟩, ⟨5, 1⟩], .label 3 [],
   .br (.label 1) [⟨0, 3⟩]]

/-- `nested_loop.wat`, reconstructed from the snapshot of its translation
(`tests/snapshots/wasm_to_mir_tests__convert_nested_loop_wasm.snap`). -/
def nestedLoop : Func :=
  ⟨"nested_loop".toList, [.i32], [.i32],
    [.inputs [.i32], .op (.const 0) [], .loop [⟨0, 0⟩, ⟨1, 0⟩, ⟨1, 0⟩, ⟨1, 0⟩] outerBody, .label 1 [.i32],
     .br (.outer 0) [⟨3, 0⟩]]⟩

/-- A phi node and its operands. -/
def phiOf : Instr → Option (ℕ × List (ℕ × Value))
  | .Phi d _ vs => some (d, vs)
  | _ => none

/-- A call: its destinations and the number of results in its signature. -/
def callOf : Instr → Option (List ℕ × ℕ)
  | .Call ds _ _ sig => some (ds, sig.returns.length)
  | _ => none

/-- The terminators and the phi nodes of the translation agree with the snapshot (where phi nodes are copies in the
predecessors). -/
example : (match lowerFunc noTypes nestedLoop with
    | .ok F => F.blocks.map (·.term)
    | .error _ => []) =
      [.Jump 2, .Jump 11, .Jump 3, .If (.Operand 9) 6 5, .Jump 2, .Jump 1, .Jump 7, .Jump 8, .If (.Operand 14) 10 9, .Jump 4,
        .Jump 7, .Return [.Operand 1]] := by decide +kernel
example : (match lowerFunc noTypes nestedLoop with
    | .ok F => F.blocks.map fun b => b.instrs.filterMap phiOf
    | .error _ => []) =
      [[], [(1, [(5, .Operand 6)])],
       [(3, [(0, .Operand 0), (4, .Operand 3)]), (4, [(0, .Operand 2), (4, .Operand 19)]),
        (5, [(0, .Operand 2), (4, .Operand 7)]), (6, [(0, .Operand 2), (4, .Operand 8)])], [],
       [(7, [(9, .Operand 12)]), (8, [(9, .Operand 13)])], [], [],
       [(11, [(6, .Operand 4), (10, .Operand 11)]), (12, [(6, .Operand 10), (10, .Operand 17)]),
        (13, [(6, .Operand 6), (10, .Operand 15)])], [], [], [], []] := by decide +kernel

/-- The hypotheses hold: the function is supported and returns `0 + 1 + 4 + 9` on `4`. -/
example : nestedLoop.supported noTypes = true ∧ nestedLoop.run (fun _ _ => none) 40 [4] = some [14] := by decide +kernel

/-- The translation exists, so the theorem gives its result for every number of iterations. -/
example (calls : Calls) (n : ℕ) (x y : I32) (h : nestedLoop.run calls n [x] = some [y]) :
    ∃ F k, lowerFunc noTypes nestedLoop = .ok F ∧
      Lang.run (fun _ _ => none) F k [.u32 x.toNat] = .returned [.u32 y.toNat] := by
  cases hF : lowerFunc noTypes nestedLoop with
  | error e =>
    have : (match lowerFunc noTypes nestedLoop with | .ok _ => true | .error _ => false) = true := by decide +kernel
    rw [hF] at this
    cases this
  | ok F =>
    obtain ⟨k, hk⟩ := C84_lowering_partial (m := noTypes) (mcalls := fun _ _ => none) (fun f _ _ _ _ h => by simp [noTypes] at h) hF
      (by decide +kernel) h
    exact ⟨F, k, rfl, hk⟩

/-- `if_statement.wat`: labels with and without values, signed comparison instead of the first equality. -/
def ifStatement : Func :=
  ⟨"if_statement".toList, [.i32], [.i32],
    [.inputs [.i32], .op (.const 3) [], .op (.bin .ltS) [⟨0, 0⟩, ⟨1, 0⟩], .brIf (.label 3) [⟨2, 0⟩],
     .op (.const 2) [], .op (.bin .ne) [⟨0, 0⟩, ⟨4, 0⟩], .brIf (.label 1) [⟨5, 0⟩], .op (.const 5) [],
     .br (.label 2) [⟨7, 0⟩], .label 1 [], .op (.const 1) [], .op (.bin .add) [⟨0, 0⟩, ⟨10, 0⟩],
     .br (.label 2) [⟨11, 0⟩], .label 2 [.i32], .br (.label 4) [⟨13, 0⟩], .label 3 [], .op (.const 1) [],
     .br (.label 4) [⟨16, 0⟩], .label 4 [.i32], .br (.outer 0) [⟨18, 0⟩]]⟩

example : ifStatement.supported noTypes = true ∧ ifStatement.run (fun _ _ => none) 40 [7] = some [8] ∧
    ifStatement.run (fun _ _ => none) 40 [0xffffffff] = some [1] := by decide +kernel

/-- A call. -/
def caller : Func :=
  ⟨"func_call".toList, [], [.i32],
    [.inputs [], .op (.const 15) [], .op (.const 25) [], .op (.call 0) [⟨1, 0⟩, ⟨2, 0⟩], .br (.outer 0) [⟨3, 0⟩]]⟩
/-- The type of the called function. -/
def addType : FuncTypes := fun f => if f = 0 then some ([.i32, .i32], [.i32]) else none

example : caller.supported addType = true ∧
    caller.run (fun _ xs => match xs with | [a, b] => some [a + b] | _ => none) 10 [] = some [40] := by decide +kernel

/-! ### Functions that are not translated correctly -/

/-- What a translated function returns (`none`: it faults, does not finish or is rejected). -/
def translated (m : FuncTypes) (mcalls : Lang.Calls) (f : Func) (n : ℕ) (args : List I32) : Option (List Val) :=
  match lowerFunc m f with
  | .ok F => match Lang.run mcalls F n (args.map word) with
    | .returned vs => some vs
    | _ => none
  | .error _ => none

/-- `(i32.eq a b)` as the result. -/
def equal : Func :=
  ⟨"equal".toList, [.i32, .i32], [.i32], [.inputs [.i32, .i32], .op (.bin .eq) [⟨0, 0⟩, ⟨0, 1⟩], .br (.outer 0) [⟨1, 0⟩]]⟩

/-- **C84** is violated for comparisons used as integers: `(i32.eq 5 5)` is the integer `1`, but the translation returns a boolean
where the function is declared to return a u32. -/
theorem C84_violated_comparison_result :
    equal.run (fun _ _ => none) 5 [5, 5] = some [1] ∧
      translated noTypes (fun _ _ => none) equal 5 [5, 5] = some [.bool true] := by decide +kernel

/-- `(i32.add (i32.lt_u a b) a)`. -/
def addFlag : Func :=
  ⟨"add_flag".toList, [.i32, .i32], [.i32],
    [.inputs [.i32, .i32], .op (.bin .ltU) [⟨0, 0⟩, ⟨0, 1⟩], .op (.bin .add) [⟨1, 0⟩, ⟨0, 0⟩], .br (.outer 0) [⟨2, 0⟩]]⟩

/-- **C84** is violated for arithmetic on comparison results: the addition is applied to a boolean, which has no meaning. -/
theorem C84_violated_comparison_operand :
    addFlag.run (fun _ _ => none) 5 [5, 6] = some [6] ∧
      translated noTypes (fun _ _ => none) addFlag 5 [5, 6] = none := by decide +kernel

/-- `br_if` to the end of the function with a value. -/
def earlyReturn : Func :=
  ⟨"early_return".toList, [.i32], [.i32],
    [.inputs [.i32], .op (.const 7) [], .brIf (.outer 0) [⟨1, 0⟩, ⟨0, 0⟩], .op (.const 9) [], .br (.outer 0) [⟨3, 0⟩]]⟩

/-- **C84** is violated for conditional returns: the block that returns also returns the condition, so that it returns two values
from a function with one result. -/
theorem C84_violated_conditional_return :
    earlyReturn.run (fun _ _ => none) 5 [1] = some [7] ∧
      (match lowerFunc noTypes earlyReturn with
        | .ok F => F.blocks[1]?.map (·.term)
        | .error _ => none) = some (.Return [.Operand 1, .Operand 0]) ∧
      translated noTypes (fun _ _ => none) earlyReturn 5 [1] = none ∧
      translated noTypes (fun _ _ => none) earlyReturn 5 [0] = some [.u32 9] := by decide +kernel

/-- A call of a function without results. -/
def callVoid : Func :=
  ⟨"call_void".toList, [.i32], [.i32], [.inputs [.i32], .op (.call 0) [⟨0, 0⟩], .br (.outer 0) [⟨0, 0⟩]]⟩
/-- Its type. -/
def voidType : FuncTypes := fun f => if f = 0 then some ([.i32], []) else none

/-- **C84** is violated for calls of functions without results: the call is given one destination. -/
theorem C84_violated_void_call :
    callVoid.run (fun _ _ => some []) 5 [3] = some [3] ∧
      (match lowerFunc voidType callVoid with
        | .ok F => F.blocks.map fun b => b.instrs.filterMap callOf
        | .error _ => []) = [[([1], 0)], []] ∧
      translated voidType (fun _ _ => some []) callVoid 5 [3] = none := by decide +kernel

/-- A function that returns from inside a loop. -/
def loopReturn : Func :=
  ⟨"loop_return".toList, [.i32], [.i32],
    [.inputs [.i32], .loop [⟨0, 0⟩] [.inputs [.i32], .br (.outer 1) [⟨0, 0⟩]]]⟩

/-- **C84** does not cover functions that return from inside a loop: they are rejected. -/
theorem C84_violated_return_from_loop :
    loopReturn.run (fun _ _ => none) 9 [3] = some [3] ∧
      (match lowerFunc noTypes loopReturn with
        | .ok _ => none
        | .error e => some e) = some .loopDepth := by decide +kernel

/-- A multi-way branch is not translated: the front end panics. -/
theorem C84_violated_table :
    (match lowerFunc noTypes ⟨[], [.i32], [], [.inputs [.i32], .brTable [⟨0, 0⟩]]⟩ with
        | .ok _ => none
        | .error e => some e) = some .panic := by decide +kernel

end Examples
end Wasm
end CairoM
