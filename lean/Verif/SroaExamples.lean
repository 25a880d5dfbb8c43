import Verif.SroaProps
import Verif.PipelineProps

/-!
# C87: examples and functions that the pass breaks
-/

namespace CairoM
namespace Mir
namespace Sroa

open Agg Lang Codegen

private def pair : MirType := .Tuple [.Felt, .Felt]

private def point : MirType := .Struct "P".toList [("x".toList, .Felt), ("y".toList, .Felt)]

private def lit (n : BitVec 32) : Value := .Literal (.Integer n)

mutual
/-- Equality of values, decided. -/
def sameB : AVal → AVal → Bool
  | .scalar a, .scalar b => decide (a = b)
  | .agg xs, .agg ys => allSameB xs ys
  | _, _ => false
/-- Equality of lists of values, decided. -/
def allSameB : List AVal → List AVal → Bool
  | [], [] => true
  | x :: xs, y :: ys => sameB x y && allSameB xs ys
  | _, _ => false
end

mutual
theorem sameB_eq : ∀ {a b : AVal}, sameB a b = true → a = b
  | .scalar a, .scalar b, h => by rw [sameB, decide_eq_true_eq] at h; rw [h]
  | .agg xs, .agg ys, h => by rw [sameB] at h; rw [allSameB_eq h]
  | .scalar _, .agg _, h => by simp [sameB] at h
  | .agg _, .scalar _, h => by simp [sameB] at h
theorem allSameB_eq : ∀ {xs ys : List AVal}, allSameB xs ys = true → xs = ys
  | [], [], _ => rfl
  | x :: xs, y :: ys, h => by
    rw [allSameB, Bool.and_eq_true] at h
    rw [sameB_eq h.1, allSameB_eq h.2]
  | [], _ :: _, h => by simp [allSameB] at h
  | _ :: _, [], h => by simp [allSameB] at h
end

/-- The result is the given list of values. -/
def returnsB' (vs : List AVal) : AResult → Bool
  | .returned ws => allSameB ws vs
  | _ => false

theorem returnsB'_eq {vs : List AVal} {r : AResult} (h : returnsB' vs r = true) : r = .returned vs := by
  cases r with
  | returned ws => rw [allSameB_eq h]
  | fault => simp [returnsB'] at h
  | unfinished => simp [returnsB'] at h

/-- The function faults. -/
def faultsB : AResult → Bool
  | .fault => true
  | _ => false

/-! ### Functions that meet the conditions -/

/-- `t = (v, 7); u = t with t.0 = 3; return g(P { y: u.1, x: u.0 }), t` with a branch between building and returning a second
tuple. -/
def sample : Function :=
  { name := "f".toList, params := [0], returns := [9, 10], nextValue := 11,
    types := fun
      | 1 | 2 | 7 | 8 | 10 => some pair
      | 5 => some point
      | 0 | 3 | 4 | 6 | 9 => some .Felt
      | _ => none,
    blocks := [
      ⟨[.MakeTuple 1 [.Operand 0, lit 7], .InsertTuple 2 (.Operand 1) 0 (lit 3) pair,
        .ExtractTupleElement 3 (.Operand 2) 0 .Felt, .ExtractTupleElement 4 (.Operand 2) 1 .Felt,
        .MakeStruct 5 [("y".toList, .Operand 4), ("x".toList, .Operand 3)] point,
        .Call [6] 0 [.Operand 5] ⟨[point], [.Felt]⟩, .MakeTuple 7 [.Operand 6, .Operand 0]], .Jump 1⟩,
      ⟨[.MakeTuple 8 [.Operand 0, .Operand 6], .InsertTuple 10 (.Operand 8) 1 (lit 9) pair],
        .Return [.Operand 6, .Operand 10]⟩] }

/-- The function meets the conditions of `C87_flat_partial`. -/
example : sourceOk sample = true ∧ flatOk sample = true := by decide +kernel

/-- The pass removes three tuples and replaces them; the struct, which is passed to a function, is kept. -/
example : removed sample = [7, 2, 1, 10, 8] ∧ ((sroa sample).map fun g => g.blocks.map fun b => b.instrs.map fun i =>
    (i.destinations, i.uses)) =
    some [[([3], []), ([4], []), ([5], [4, 3]), ([6], [5])], [([11], [0])]] := by decide +kernel

/-- The function returns what its callee makes of the struct, and the argument with `9`. -/
example : runA (fun _ xs => match xs with | [.agg [x, _]] => some [x] | _ => none) sample 5 [.scalar (.felt 4)] =
    .returned [.scalar (.felt 3), .agg [.scalar (.felt 4), .scalar (.felt 9)]] := returnsB'_eq (by decide +kernel)

/-- A tuple returned after an update, in a function with a nested tuple that is only read; this is outside
`C87_flat_partial` and meets the conditions of `C87_sroa_partial`. -/
def nestedRead : Function :=
  { name := "f".toList, params := [0], returns := [5], nextValue := 6,
    types := fun
      | 1 | 3 => some pair
      | 2 => some (.Tuple [pair, .Felt])
      | 0 | 4 | 5 => some .Felt
      | _ => none,
    blocks := [⟨[.MakeTuple 1 [.Operand 0, lit 7], .MakeTuple 2 [.Operand 1, lit 8],
      .ExtractTupleElement 3 (.Operand 2) 0 pair, .ExtractTupleElement 4 (.Operand 3) 1 .Felt], .Return [.Operand 4]⟩] }

example : sourceOk nestedRead = true ∧ flatOk nestedRead = false ∧
    (sroa nestedRead).map (resultOk (removed nestedRead)) = some true := by decide +kernel

/-! ### Functions that the pass breaks -/

/-- Machine code of functions after all passes, or the error of the code generator. -/
private def codeOf (optimise : Bool) (fs : List Function) : Option (Except Codegen.Err (List Instruction)) :=
  (fs.mapM (allPasses (Pipeline.exConfig optimise))).bind fun gs =>
    match compileModule gs with
    | .ok ⟨code, [], [], _⟩ => some (.ok code)
    | .ok _ => none
    | .error e => some (.error e)

/-- The error, or `none` if the functions are compiled. -/
private def errorOf (optimise : Bool) (fs : List Function) : Option (Option Codegen.Err) :=
  (codeOf optimise fs).map fun
    | .ok _ => none
    | .error e => some e

/-- The machine code. -/
private def okCode (optimise : Bool) (fs : List Function) : Option (List Instruction) :=
  (codeOf optimise fs).bind fun
    | .ok c => some c
    | .error _ => none

/-- The field elements a program returns. -/
private def returnedFelts (code : List Instruction) (results : List AbiType) : Option (List ℕ) :=
  match Abi.runCairoProgram 1 100 (code.map .instruction) ⟨0, [], results⟩ [] with
  | some (.ok out) => out.returnValues.mapM fun
    | .felt n => some n.val
    | _ => none
  | _ => none

/-- `t = (1, 2); a = [t, t]; a[0].0 = 5; return a[1].0` -/
def sharedElement : Function :=
  { name := "f".toList, params := [], returns := [3], nextValue := 4,
    types := fun | 0 => some pair | 1 => some (.FixedArray pair 2) | 2 => some .Felt | 3 => some .Felt | _ => none,
    blocks := [⟨[.MakeTuple 0 [lit 1, lit 2], .MakeFixedArray 1 [.Operand 0, .Operand 0] pair false,
      .Store ⟨1, [.Index (lit 0), .Tuple 0]⟩ (lit 5) .Felt, .Load 2 ⟨1, [.Index (lit 1), .Tuple 0]⟩ .Felt],
      .Return [.Operand 2]⟩] }

private def sharedPlain : List Instruction :=
  [.StoreImm 1 0, .StoreImm 2 1, .StoreAddFpImm 0 0 4, .StoreAddFpImm 1 0 5, .StoreAddFpImm 0 0 6, .StoreAddFpImm 1 0 7,
   .StoreFramePointer 4 2, .StoreImm 5 8, .StoreToDoubleDerefFpImm 2 0 8, .StoreDoubleDerefFp 2 2 3, .StoreAddFpImm 3 0 (-3),
   .Ret]

private def sharedOptimised : List Instruction := [.StoreImm 5 (-3), .Ret]

/-- **C87 (violated)** by a store into an element of an array: elements that were built from one tuple share its state, so the
store changes all of them. Compiled without optimisation `a[1].0` is `1`, compiled with optimisation it is `5`. -/
theorem C87_violated_store : okCode false [sharedElement] = some sharedPlain ∧ returnedFelts sharedPlain [.felt] = some [1] ∧
    okCode true [sharedElement] = some sharedOptimised ∧ returnedFelts sharedOptimised [.felt] = some [5] := by
  refine ⟨by decide +kernel, by decide +kernel, by decide +kernel, by decide +kernel⟩

private def inner : MirType := .Struct "Q".toList [("x".toList, .Felt)]

private def outer : MirType := .Struct "P".toList [("a".toList, inner), ("b".toList, .Felt)]

/-- `return P { a: Q { x: 1 }, b: 2 }` -/
def nested : Function :=
  { name := "f".toList, params := [], returns := [2], nextValue := 3,
    types := fun | 0 => some inner | 1 => some outer | 2 => some outer | _ => none,
    blocks := [⟨[.MakeStruct 0 [("x".toList, lit 1)] inner,
      .MakeStruct 1 [("a".toList, .Operand 0), ("b".toList, lit 2)] outer], .Return [.Operand 1]⟩] }

private def nestedCode : List Instruction :=
  [.StoreImm 1 0, .StoreAddFpImm 0 0 1, .StoreImm 2 2, .StoreAddFpImm 1 0 (-4), .StoreAddFpImm 2 0 (-3), .Ret]

/-- **C87 (violated)** by a struct inside a struct that is returned: the outer struct is rebuilt from the inner one, whose
definition was removed. The function meets the conditions on the source and returns `(1, 2)` when compiled without
optimisation; with optimisation the code generator fails. -/
theorem C87_violated_nested : sourceOk nested = true ∧
    runA (fun _ _ => none) nested 1 [] = .returned [.agg [.agg [.scalar (.felt 1)], .scalar (.felt 2)]] ∧
    okCode false [nested] = some nestedCode ∧ returnedFelts nestedCode [.felt, .felt] = some [1, 2] ∧
    (sroa nested).map (fun g => faultsB (runA (fun _ _ => none) g 1 [])) = some true ∧
    errorOf true [nested] = some (some .layout) := by
  refine ⟨by decide +kernel, returnsB'_eq (by decide +kernel), by decide +kernel, by decide +kernel, by decide +kernel,
    by decide +kernel⟩

private def holder : MirType := .Struct "S".toList [("a".toList, pair), ("b".toList, .Felt)]

/-- `g(S { a: (1, 2), b: 3 })` -/
def tupleField : Function :=
  { name := "f".toList, params := [], returns := [3], nextValue := 4,
    types := fun | 0 => some pair | 1 => some holder | 2 => some .Felt | 3 => some .Felt | _ => none,
    blocks := [⟨[.MakeTuple 0 [lit 1, lit 2], .MakeStruct 1 [("a".toList, .Operand 0), ("b".toList, lit 3)] holder,
      .Call [2] 1 [.Operand 1] ⟨[holder], [.Felt]⟩], .Return [.Operand 2]⟩] }

/-- `fn g(s: S) -> felt { return s.b; }` -/
def readField : Function :=
  { name := "g".toList, params := [0], returns := [2], nextValue := 3,
    types := fun | 0 => some holder | 1 => some .Felt | 2 => some .Felt | _ => none,
    blocks := [⟨[.ExtractStructField 1 (.Operand 0) "b".toList .Felt], .Return [.Operand 1]⟩] }

private def tupleFieldCode : List Instruction :=
  [.StoreImm 1 0, .StoreImm 2 1, .StoreAddFpImm 0 0 2, .StoreAddFpImm 1 0 3, .StoreImm 3 4, .StoreAddFpImm 2 0 6,
   .StoreAddFpImm 3 0 7, .StoreAddFpImm 4 0 8, .CallAbsImm 10 11, .StoreAddFpImm 9 0 (-3), .Ret, .StoreAddFpImm (-4) 0 (-3), .Ret]

/-- **C87 (violated)** by a tuple in a field of a struct that is passed to a function: the struct is kept, the tuple in it is
removed. -/
theorem C87_violated_tuple_field : sourceOk tupleField = true ∧ okCode false [tupleField, readField] = some tupleFieldCode ∧
    returnedFelts tupleFieldCode [.felt] = some [3] ∧
    (sroa tupleField).map (fun g => faultsB (runA (fun _ _ => some [.scalar (.felt 3)]) g 1 [])) = some true ∧
    errorOf true [tupleField, readField] = some (some .layout) := by
  refine ⟨by decide +kernel, by decide +kernel, by decide +kernel, by decide +kernel, by decide +kernel⟩

end Sroa
end Mir
end CairoM
