import Verif.MirBranchLemmas
import Verif.CodegenWitness

/-!
# C46: branches
-/

namespace CairoM
namespace Lang

open Mir Codegen Abi

/-- **C46 (partial).** Fusing a comparison (or a negation) with the conditional branch that tests it: a function
that does not fault returns the same values, after the same number of blocks, on all arguments. What is missing:
comparisons of two u32 literals (`C46_violated_fuse_literals`), which constant folding removes before. -/
theorem C46_fuse_partial (calls : Calls) (f : Function) (n : ℕ) (args : List Val)
    (hn : ∀ b ∈ f.blocks, ∀ i ∈ b.instrs, ∀ op d l r, i = .BinaryOp op d l r →
      ¬ ((op = .U32Eq ∨ op = .U32Neq) ∧ (∃ a, l = .Literal a) ∧ ∃ a, r = .Literal a))
    (hf : run calls f n args ≠ .fault) :
    run calls (fuseBranches f) n args = run calls f n args := by
  unfold run at hf ⊢
  show (match bind (fun _ => none) f.params args with | none => _ | some env => _) = _
  cases hb : bind (fun _ => none) f.params args with
  | none => rfl
  | some env =>
    rw [hb] at hf
    simp only at hf ⊢
    refine (exec_fwd (R := Agree (Kept f.blocks)) ?_ n none 0 Agree.refl hf).symm
    intro id
    show OptFwd _ f.blocks[id]? (f.blocks.map (fuseBlock (useCount f.blocks)))[id]?
    rw [List.getElem?_map]
    cases hb : f.blocks[id]? with
    | none => trivial
    | some b =>
      intro p e e' he
      have hmem : b ∈ f.blocks := List.mem_of_getElem? hb
      exact evalBlock_fuse hmem (fun i hi op d l r h => hn b hmem i hi op d l r h) he

/-- **C46 (partial).** Replacing branches on literals by jumps: a function that does not fault returns the same
values on all arguments. What is missing: conditions that are felt literals not below `P`
(`C46_violated_literal`). -/
theorem C46_simplify_partial (calls : Calls) (f g : Function) (n : ℕ) (args : List Val)
    (h : simplifyBranches f = .ok g) (hc : ∀ b ∈ f.blocks, TermCanon b.term)
    (hf : run calls f n args ≠ .fault) : run calls g n args = run calls f n args := by
  unfold simplifyBranches at h
  split at h
  · cases h
  · rename_i bs hbs
    injection h with h
    subst h
    unfold run at hf ⊢
    show (match bind (fun _ => none) f.params args with | none => _ | some env => _) = _
    cases hb : bind (fun _ => none) f.params args with
    | none => rfl
    | some env =>
      rw [hb] at hf
      simp only at hf ⊢
      refine (exec_fwd (R := Eq) ?_ n none 0 rfl hf).symm
      intro id
      have hid := mapExcept_get hbs id
      show OptFwd _ f.blocks[id]? bs[id]?
      cases hb : f.blocks[id]? with
      | none => trivial
      | some b =>
        rw [hb] at hid
        cases hb' : bs[id]? with
        | none => rw [hb'] at hid; exact hid.elim
        | some b' =>
          rw [hb'] at hid
          rintro p e _ rfl
          have hmem : b ∈ f.blocks := List.mem_of_getElem? hb
          have hid : (match simplifyTerm b.term with
            | .error e => .error e
            | .ok t => Except.ok { b with term := t }) = Except.ok b' := hid
          split at hid
          · cases hid
          · rename_i t ht
            injection hid with hid
            subst hid
            show OptFwd _ (evalBlock calls (returnTys f) b p e)
              (evalBlock calls (returnTys f) { b with term := t } p e)
            unfold evalBlock
            simp only [Option.bind_eq_bind]
            refine OptFwd.bind OptFwd.same ?_
            rintro ⟨e1, is⟩ _ rfl
            refine OptFwd.bind OptFwd.same ?_
            rintro e2 _ rfl
            cases hx : evalTerm (returnTys f) e2 b.term with
            | none => trivial
            | some x =>
              rw [simplifyTerm_sound ht (hc b hmem) hx]
              exact ⟨rfl, rfl⟩

/-- `fn m(x: felt) -> felt { if (x != 0) { return 1; } return 2; }` -/
def testFelt : Function :=
  ⟨['m'], [⟨[.BinaryOp .Neq 1 (.Operand 0) (.Literal (.Integer 0))], .If (.Operand 1) 1 2⟩,
    ⟨[], .Return [.Literal (.Integer 1)]⟩, ⟨[], .Return [.Literal (.Integer 2)]⟩], [0], [2], 3,
    types [(0, .Felt), (1, .Bool), (2, .Felt)]⟩

example : (fuseBranches testFelt).blocks.map (fun b => (b.instrs.length, b.term)) =
      [(0, .If (.Operand 0) 1 2), (0, .Return [.Literal (.Integer 1)]), (0, .Return [.Literal (.Integer 2)])] ∧
    run (fun _ _ => none) testFelt 2 [.felt 7] = .returned [.felt 1] ∧
    run (fun _ _ => none) (fuseBranches testFelt) 2 [.felt 7] = .returned [.felt 1] ∧
    run (fun _ _ => none) (fuseBranches testFelt) 2 [.felt 0] = .returned [.felt 2] := by
  refine ⟨by decide +kernel, by decide +kernel, by decide +kernel, by decide +kernel⟩

/-- `if true` becomes a jump. -/
example : (∃ g, simplifyBranches ⟨['m'], [⟨[], .If (.Literal (.Boolean true)) 1 0⟩, ⟨[], .Return []⟩], [], [], 0,
      fun _ => none⟩ = .ok g ∧ g.blocks.map Block.term = [.Jump 1, .Return []]) ∧
    TermCanon (.If (.Literal (.Boolean true)) 1 0) := ⟨⟨_, rfl, rfl⟩, trivial⟩

/-- **C46 violated** by literals not below `P`: the felt literal `2147483647` is zero, but the branch on it is
decided as if it were not. -/
theorem C46_violated_literal :
    simplifyTerm (.If (.Literal (.Integer 2147483647)) 1 2) = .ok (.Jump 1) ∧
    evalTerm [] (fun _ => none) (.If (.Literal (.Integer 2147483647)) 1 2) = some (.goto 2) := by
  decide +kernel

/-- **C46 violated** for a comparison of two u32 literals: `0 == 2147483647` is false, the fused branch tests
`2147483647` as a felt, which is zero. -/
theorem C46_violated_fuse_literals :
    fuseCmp .U32Eq (.Literal (.Integer 0)) (.Literal (.Integer 2147483647)) 1 2 =
      some (.If (.Literal (.Integer 2147483647)) 2 1) ∧
    evalTerm [] (fun _ => none) (.BranchCmp .U32Eq (.Literal (.Integer 0)) (.Literal (.Integer 2147483647)) 1 2) =
      some (.goto 2) ∧
    evalTerm [] (fun _ => none) (.If (.Literal (.Integer 2147483647)) 2 1) = some (.goto 1) := by
  decide +kernel

/-- `fn m(x: u32) -> felt { if (x == 0) { return 1; } return 2; }` -/
def testU32 : Function :=
  ⟨['m'], [⟨[.BinaryOp .U32Eq 1 (.Operand 0) (.Literal (.Integer 0))], .If (.Operand 1) 1 2⟩,
    ⟨[], .Return [.Literal (.Integer 1)]⟩, ⟨[], .Return [.Literal (.Integer 2)]⟩], [0], [2], 3,
    types [(0, .U32), (1, .Bool), (2, .Felt)]⟩

/-- Optimising one function with the standard pipeline, compiling it and running it. -/
def optRun (f : Function) (params returns : List AbiType) (args : List InputValue) : Option (List M31) :=
  match standardPipeline id id f with
  | .ok g => feltsOf (compileRun 1000 [g] f.name params returns args)
  | .error _ => none

/-- **C46 violated** at code generation: the branch that replaces `x == 0` for a u32 tests only the low limb of
`x`. For `x = 65536` the function returns 2, the compiled program returns 1; without the optimisation it
returns 2. -/
theorem C46_violated_u32 :
    run (fun _ _ => none) testU32 2 [.u32 65536] = .returned [.felt 2] ∧
    optRun testU32 [.u32] [.felt] [.number 65536] = some [1] ∧
    feltsOf (compileRun 1000 [noOptPipeline id testU32] ['m'] [.u32] [.felt] [.number 65536]) = some [2] := by
  decide +kernel

end Lang
end CairoM
