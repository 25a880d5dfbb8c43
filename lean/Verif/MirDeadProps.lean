import Verif.MirDeadLemmas
import Verif.MirBranchProps

/-!
# C60, C61: removal of dead instructions and of unreachable blocks
-/

namespace CairoM
namespace Lang

open Mir Abi Codegen

/-- **C60.** Removing instructions whose result is not used does not change what a function returns, on any
arguments, as long as the function does not fault. -/
theorem C60_dead_instructions (calls : Calls) (f : Function) (n : ℕ) (args : List Val)
    (hf : run calls f n args ≠ .fault) :
    run calls { f with blocks := dropDead (instrCount f.blocks) f.blocks } n args = run calls f n args :=
  dropDead_run _ n hf

/-- `fn m(x: felt) -> felt { let a = x + 1; let b = a * 2; return x; }`: `b`, then `a` are removed. -/
def deadExample : Function :=
  ⟨['m'], [⟨[.BinaryOp .Add 1 (.Operand 0) (.Literal (.Integer 1)),
      .BinaryOp .Mul 2 (.Operand 1) (.Literal (.Integer 2))], .Return [.Operand 0]⟩], [0], [3], 4,
    types [(0, .Felt), (1, .Felt), (2, .Felt), (3, .Felt)]⟩

example : (dropDead (instrCount deadExample.blocks) deadExample.blocks).map (fun b => b.instrs.length) = [0] ∧
    run (fun _ _ => none) deadExample 1 [.felt 5] = .returned [.felt 5] := by
  refine ⟨by decide +kernel, by decide +kernel⟩

/-- `fn m(x: felt) -> felt { let a = 1 / x; return x; }` -/
def deadDiv : Function :=
  ⟨['m'], [⟨[.Assign 1 (.Literal (.Integer 1)) .Felt, .BinaryOp .Div 2 (.Operand 1) (.Operand 0)],
    .Return [.Operand 0]⟩], [0], [3], 4, types [(0, .Felt), (1, .Felt), (2, .Felt), (3, .Felt)]⟩

/-- **C60 violated** for functions that fault: the unused division `1 / x` is removed, so that the optimised
program returns 0 where the unoptimised one stops with a division by zero. -/
theorem C60_violated_fault :
    run (fun _ _ => none) deadDiv 1 [.felt 0] = .fault ∧
    run (fun _ _ => none) { deadDiv with blocks := dropDead (instrCount deadDiv.blocks) deadDiv.blocks } 1 [.felt 0] =
      .returned [.felt 0] ∧
    optRun deadDiv [.felt] [.felt] [.number 0] = some [0] ∧
    feltsOf (compileRun 1000 [noOptPipeline id deadDiv] ['m'] [.felt] [.felt] [.number 0]) = none := by
  refine ⟨by decide +kernel, by decide +kernel, by decide +kernel, by decide +kernel⟩

/-- **C61 (partial).** Removing the unreachable blocks of a function and renumbering the others does not change
its result (values, fault or no end) on any arguments, if the reachable blocks contain no phi instruction. What is
missing: functions with phi instructions, for which the statement is false (`C61_violated`). -/
theorem C61_unreachable_partial (calls : Calls) (f : Function)
    (hn : ∀ i ∈ reachable f, ∀ b, f.blocks[i]? = some b → ∀ j ∈ b.instrs, ∀ d ty ss, j ≠ .Phi d ty ss)
    (n : ℕ) (args : List Val) : run calls (dropUnreachable f) n args = run calls f n args := by
  unfold run
  show (match bind (fun _ => none) f.params args with | none => _ | some env => _) = _
  cases bind (fun _ => none) f.params args with
  | none => rfl
  | some env =>
    simp only
    have := exec_dropUnreachable (calls := calls) (p := none) (p' := none) hn n (reachable_closed f).1 env
    rw [newIndex_zero] at this
    exact this

/-- **C61 (partial).** The pass changes nothing in a function all of whose blocks are reachable (with phi
instructions or not). -/
theorem C61_all_reachable_partial (f : Function) (hr : ∀ i, i < f.blocks.length → i ∈ reachable f)
    (ht : ∀ b ∈ f.blocks, ∀ t ∈ b.term.targets, t < f.blocks.length) : dropUnreachable f = f := by
  have hk : keptBlocks f = List.range f.blocks.length := by
    unfold keptBlocks
    rw [List.filter_eq_self]
    intro i hi
    simpa using hr i (List.mem_range.1 hi)
  have hidx : ∀ t, t < f.blocks.length → newIndex (keptBlocks f) t = t := by
    intro t h
    rw [hk]
    unfold newIndex
    have := List.Nodup.idxOf_getElem (List.nodup_range (n := f.blocks.length)) t (by simpa using h)
    simpa using this
  have hb : (dropUnreachable f).blocks = f.blocks := by
    refine List.ext_getElem? ?_
    intro i
    rw [dropUnreachable_get]
    rcases Nat.lt_or_ge i f.blocks.length with h | h
    · have e1 : (keptBlocks f)[i]? = some i := by rw [hk]; simp [h]
      rw [e1]
      simp only [Option.bind_some]
      cases hbi : f.blocks[i]? with
      | none => rfl
      | some b =>
        have hm := ht b (List.mem_of_getElem? hbi)
        simp only [Option.map_some, Option.some.injEq]
        have e2 : remapTerm (newIndex (keptBlocks f)) b.term = b.term := by
          revert hm
          cases b.term <;> simp [Terminator.targets, remapTerm] <;> intros <;> simp_all
        rw [e2]
    · have e1 : (keptBlocks f)[i]? = none := by rw [hk]; simp [h]
      rw [e1, List.getElem?_eq_none_iff.2 h]
      rfl
  unfold dropUnreachable at hb ⊢
  simp only at hb
  rw [hb]

/-- A function with an unreachable block in the middle and no phi instruction. -/
def skipExample : Function :=
  ⟨['m'], [⟨[], .Jump 2⟩, ⟨[], .Return [.Literal (.Integer 1)]⟩, ⟨[], .Return [.Operand 0]⟩], [0], [1], 2,
    types [(0, .Felt), (1, .Felt)]⟩

example : reachable skipExample = [2, 0] ∧ (dropUnreachable skipExample).blocks.length = 2 ∧
    run (fun _ _ => none) (dropUnreachable skipExample) 2 [.felt 5] = .returned [.felt 5] := by
  refine ⟨by decide +kernel, by decide +kernel, by decide +kernel⟩

/-- `fn m() -> felt { let r = 1; if b { r = 2; } else { r = 3; } return r; }` for a literal `b`. -/
def constIf (b : Bool) : Function :=
  ⟨['m'], [⟨[.Assign 0 (.Literal (.Integer 1)) .Felt], .If (.Literal (.Boolean b)) 1 2⟩,
    ⟨[.Assign 1 (.Literal (.Integer 2)) .Felt], .Jump 3⟩,
    ⟨[.Assign 2 (.Literal (.Integer 3)) .Felt], .Jump 3⟩,
    ⟨[.Phi 3 .Felt [(1, .Operand 1), (2, .Operand 2)]], .Return [.Operand 3]⟩], [], [4], 5,
    types [(0, .Felt), (1, .Felt), (2, .Felt), (3, .Felt), (4, .Felt)]⟩

/-- The function after propagation of the constants and simplification of the branch. -/
def constIf' (b : Bool) : Function :=
  match constProp (constIf b) with
  | .error _ => constIf b
  | .ok g => match simplifyBranches g with
    | .error _ => constIf b
    | .ok g => g

/-- **C61 violated**: the removal of an unreachable branch renumbers the blocks but not the sources of the phi
instructions. With `if false` the function returns 3, and 2 after the pass. With `if true` it returns 2, and the
optimised and compiled program returns 3; compiled without optimisation it returns 2. -/
theorem C61_violated :
    run (fun _ _ => none) (constIf false) 5 [] = .returned [.felt 3] ∧
    run (fun _ _ => none) (constIf' false) 5 [] = .returned [.felt 3] ∧
    run (fun _ _ => none) (dropUnreachable (constIf' false)) 5 [] = .returned [.felt 2] ∧
    run (fun _ _ => none) (constIf true) 5 [] = .returned [.felt 2] ∧
    optRun (constIf true) [] [.felt] [] = some [3] ∧
    feltsOf (compileRun 1000 [noOptPipeline id (constIf true)] ['m'] [] [.felt] []) = some [2] := by
  refine ⟨by decide +kernel, by decide +kernel, by decide +kernel, by decide +kernel, by decide +kernel,
    by decide +kernel⟩

end Lang
end CairoM
