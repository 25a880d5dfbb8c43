import Verif.LegalizeLemmas

/-!
# C47: legalisation of u32 comparisons
-/

namespace CairoM
namespace Lang

open Mir Codegen

/-- Every value mentioned in a function has a number below `nextValue`, the next number to be given out (an
invariant of `MirFunction::new_value_id`, `mir/src/function.rs`). -/
structure Numbered (f : Function) : Prop where
  instrs : ∀ b ∈ f.blocks, ∀ i ∈ b.instrs, (∀ v ∈ i.uses, v < f.nextValue) ∧ ∀ v ∈ i.destinations, v < f.nextValue
  terms : ∀ b ∈ f.blocks, ∀ v ∈ b.term.uses, v < f.nextValue
  returns : ∀ v ∈ f.returns, v < f.nextValue

/-- **C47.** Rewriting `!=`, `>`, `>=`, `<=` on u32 in terms of `==`, `<` and negation does not change what a
function does: on all arguments it returns the same values, faults in the same cases and runs for the same number
of blocks. -/
theorem C47_legalize (calls : Calls) (f : Function) (h : Numbered f) (n : ℕ) (args : List Val) :
    run calls (legalFunction f) n args = run calls f n args := by
  obtain ⟨h1, h2, h3⟩ := legalBlocks_spec f.blocks f.nextValue f.types
  have hr : returnTys (legalFunction f) = returnTys f := by
    simp only [returnTys, legalFunction]
    exact List.map_congr_left fun v hv => h2 v (h.returns v hv)
  unfold run
  show (match bind (fun _ => none) f.params args with | none => _ | some env => _) = _
  cases hb : bind (fun _ => none) f.params args with
  | none => rfl
  | some env =>
    simp only
    refine (exec_rel (R := Agree (· < f.nextValue)) ?_ n none 0 Agree.refl).symm
    intro id
    have h4 := h3 id
    show OptRel _ f.blocks[id]? (legalBlocks f.blocks f.nextValue f.types).1[id]?
    cases hf : f.blocks[id]? with
    | none => rw [hf] at h4; cases hg : (legalBlocks f.blocks f.nextValue f.types).1[id]? with
      | none => trivial
      | some b' => rw [hg] at h4; exact h4.elim
    | some b => rw [hf] at h4; cases hg : (legalBlocks f.blocks f.nextValue f.types).1[id]? with
      | none => rw [hg] at h4; exact h4.elim
      | some b' =>
        rw [hg] at h4
        obtain ⟨next', types', hn', rfl⟩ := h4
        intro p e e' he
        have hmem : b ∈ f.blocks := List.mem_of_getElem? hf
        rw [hr]
        exact evalBlock_legal calls hn' (fun i hi => h.instrs b hmem i hi) (h.terms b hmem) he

/-- **C47**, for the values: each rewriting computes the same boolean on all u32 values. -/
theorem C47_comparisons (m n : ℕ) :
    (binary .U32Neq (.u32 m) (.u32 n) = (binary .U32Eq (.u32 m) (.u32 n)).bind (unary .Not)) ∧
    (binary .U32Greater (.u32 m) (.u32 n) = binary .U32Less (.u32 n) (.u32 m)) ∧
    (binary .U32GreaterEqual (.u32 m) (.u32 n) = (binary .U32Less (.u32 m) (.u32 n)).bind (unary .Not)) ∧
    (binary .U32LessEqual (.u32 m) (.u32 n) = (binary .U32Less (.u32 n) (.u32 m)).bind (unary .Not)) :=
  ⟨neq_as_eq _ _, gt_as_lt _ _, ge_as_lt _ _, le_as_lt _ _⟩

/-- **C47.** After the rewriting only `==` and `<` remain among the comparisons of u32 values. -/
theorem C47_legal (f : Function) :
    ∀ b ∈ (legalFunction f).blocks, ∀ i ∈ b.instrs, ∀ op d l r, i = .BinaryOp op d l r →
      op ≠ .U32Neq ∧ op ≠ .U32Greater ∧ op ≠ .U32GreaterEqual ∧ op ≠ .U32LessEqual := by
  have h1 : ∀ i next types, ∀ j ∈ (legalInstr i next types).1, ∀ op d l r, j = .BinaryOp op d l r →
      op ≠ .U32Neq ∧ op ≠ .U32Greater ∧ op ≠ .U32GreaterEqual ∧ op ≠ .U32LessEqual := by
    intro i next types j hj op d l r hjop
    unfold legalInstr at hj
    split at hj <;> simp only [List.mem_cons, List.not_mem_nil, or_false] at hj
    · rcases hj with rfl | rfl <;> simp at hjop; rw [← hjop.1]; decide
    · subst hj; simp at hjop; rw [← hjop.1]; decide
    · rcases hj with rfl | rfl <;> simp at hjop; rw [← hjop.1]; decide
    · rcases hj with rfl | rfl <;> simp at hjop; rw [← hjop.1]; decide
    · subst hj hjop
      rename_i a b c e
      refine ⟨?_, ?_, ?_, ?_⟩ <;> rintro rfl
      · exact a _ _ _ rfl
      · exact b _ _ _ rfl
      · exact c _ _ _ rfl
      · exact e _ _ _ rfl
  have h2 : ∀ is next types, ∀ j ∈ (legalInstrs is next types).1, ∀ op d l r, j = .BinaryOp op d l r →
      op ≠ .U32Neq ∧ op ≠ .U32Greater ∧ op ≠ .U32GreaterEqual ∧ op ≠ .U32LessEqual := by
    intro is
    induction is with
    | nil => intro _ _ j hj; simp [legalInstrs] at hj
    | cons i is ih =>
      intro next types j hj
      simp only [legalInstrs, List.mem_append] at hj
      rcases hj with hj | hj
      · exact h1 _ _ _ j hj
      · exact ih _ _ j hj
  have h3 : ∀ bs next types, ∀ b ∈ (legalBlocks bs next types).1, ∀ i ∈ b.instrs, ∀ op d l r,
      i = .BinaryOp op d l r →
      op ≠ .U32Neq ∧ op ≠ .U32Greater ∧ op ≠ .U32GreaterEqual ∧ op ≠ .U32LessEqual := by
    intro bs
    induction bs with
    | nil => intro _ _ b hb; simp [legalBlocks] at hb
    | cons b bs ih =>
      intro next types c hc
      simp only [legalBlocks, List.mem_cons] at hc
      rcases hc with rfl | hc
      · intro i hi; exact h2 _ _ _ i hi
      · exact ih _ _ c hc
  exact h3 f.blocks f.nextValue f.types

/-- `fn m(x: u32, y: u32) -> bool { return x >= y; }` -/
def geExample : Function :=
  ⟨['m'], [⟨[.BinaryOp .U32GreaterEqual 2 (.Operand 0) (.Operand 1)], .Return [.Operand 2]⟩], [0, 1], [3], 4,
    fun v => if v < 2 then some .U32 else some .Bool⟩

example : Numbered geExample ∧
    (legalFunction geExample).blocks.map (fun b => b.instrs.length) = [2] ∧
    run (fun _ _ => none) (legalFunction geExample) 1 [.u32 7, .u32 5] = .returned [.bool true] ∧
    run (fun _ _ => none) (legalFunction geExample) 1 [.u32 5, .u32 7] = .returned [.bool false] := by
  refine ⟨⟨by decide, by decide, by decide⟩, by decide, by decide, by decide⟩

end Lang
end CairoM
