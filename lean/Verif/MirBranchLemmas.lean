import Verif.MirSim
import Verif.MirOpsProps
import Mathlib.Algebra.BigOperators.Group.List.Basic
import Mathlib.Algebra.Order.BigOperators.Group.List

/-!
# Fusion and simplification of branches: helper lemmas
-/

namespace CairoM
namespace Lang

open Mir

/-! ### Lists on which an operation succeeds -/

theorem mapExcept_get {α β : Type} {g : α → Except Panic β} {l : List α} {m : List β} (h : mapExcept g l = .ok m)
    (id : ℕ) : OptRel (fun a b => g a = .ok b) l[id]? m[id]? := by
  induction l generalizing m id with
  | nil => simp only [mapExcept, Except.ok.injEq] at h; subst h; simp [OptRel]
  | cons a l ih =>
    simp only [mapExcept] at h
    cases hg : g a with
    | error e => simp [hg] at h
    | ok b =>
      simp only [hg] at h
      cases hm : mapExcept g l with
      | error e => simp [hm] at h
      | ok bs =>
        simp only [hm, Except.ok.injEq] at h
        subst h
        cases id with
        | zero => exact hg
        | succ id => exact ih hm id

theorem mapExcept_mem {α β : Type} {g : α → Except Panic β} {l : List α} {m : List β} (h : mapExcept g l = .ok m)
    {b : β} (hb : b ∈ m) : ∃ a ∈ l, g a = .ok b := by
  obtain ⟨i, hi⟩ := List.getElem?_of_mem hb
  have := mapExcept_get h i
  rw [hi] at this
  cases hl : l[i]? with
  | none => rw [hl] at this; exact this.elim
  | some a => rw [hl] at this; exact ⟨a, List.mem_of_getElem? hl, this⟩

/-! ### Use counts -/

/-- Uses by the instructions of a block. -/
def instrUses (v : ValueId) (b : Block) : ℕ := b.instrs.countP (fun i => decide (v ∈ i.uses))

/-- Uses by the terminator of a block. -/
def termUses (v : ValueId) (b : Block) : ℕ := if v ∈ b.term.uses then 1 else 0

theorem useCount_eq (bs : List Block) (v : ValueId) :
    useCount bs v = (bs.map (instrUses v)).sum + (bs.map (termUses v)).sum := by
  induction bs with
  | nil => rfl
  | cons b bs ih =>
    simp only [useCount, List.map_cons, List.sum_cons] at ih ⊢
    rw [ih]
    simp only [Block.useCount, instrUses, termUses]
    omega

theorem le_sum_of_mem {α : Type} (g : α → ℕ) {l : List α} {a : α} (h : a ∈ l) : g a ≤ (l.map g).sum :=
  List.single_le_sum (by simp) _ (List.mem_map_of_mem h)

theorem two_le_sum {α : Type} (g : α → ℕ) {l : List α} {a b : α} (ha : a ∈ l) (hb : b ∈ l) (hab : a ≠ b) :
    g a + g b ≤ (l.map g).sum := by
  induction l with
  | nil => simp at ha
  | cons c l ih =>
    simp only [List.map_cons, List.sum_cons]
    rcases List.mem_cons.1 ha with rfl | ha'
    · rcases List.mem_cons.1 hb with rfl | hb'
      · exact absurd rfl hab
      · have := le_sum_of_mem g hb'; omega
    · rcases List.mem_cons.1 hb with rfl | hb'
      · have := le_sum_of_mem g ha'; omega
      · have := ih ha' hb'; omega

theorem useCount_instr {bs : List Block} {b : Block} {i : Instr} {v : ValueId} (hb : b ∈ bs) (hi : i ∈ b.instrs)
    (hv : v ∈ i.uses) : 1 ≤ (bs.map (instrUses v)).sum := by
  refine le_trans ?_ (le_sum_of_mem (instrUses v) hb)
  unfold instrUses
  exact List.countP_pos_iff.2 ⟨i, hi, by simpa using hv⟩

theorem useCount_term {bs : List Block} {b : Block} {v : ValueId} (hb : b ∈ bs) (hv : v ∈ b.term.uses) :
    1 ≤ (bs.map (termUses v)).sum := by
  refine le_trans ?_ (le_sum_of_mem (termUses v) hb)
  simp [termUses, hv]

theorem useCount_pos_instr {bs : List Block} {b : Block} {i : Instr} {v : ValueId} (hb : b ∈ bs) (hi : i ∈ b.instrs)
    (hv : v ∈ i.uses) : 0 < useCount bs v := by
  have := useCount_instr hb hi hv; rw [useCount_eq]; omega

theorem useCount_pos_term {bs : List Block} {b : Block} {v : ValueId} (hb : b ∈ bs) (hv : v ∈ b.term.uses) :
    0 < useCount bs v := by
  have := useCount_term hb hv; rw [useCount_eq]; omega

/-! ### Fusion -/

/-- The comparison in block `b` on which `c` branches is fused. -/
def Fuses (b : Block) (c : ValueId) (i : Instr) (term : Terminator) : Prop :=
  ∃ t e, b.term = .If (.Operand c) t e ∧ b.instrs.getLast? = some i ∧ fuseLast i c t e = some term

/-- The values that are still needed after fusion. -/
def Kept (bs : List Block) (v : ValueId) : Prop :=
  ¬ (useCount bs v = 1 ∧ ∃ b ∈ bs, ∃ i term, Fuses b v i term)

theorem kept_instr {bs : List Block} {b : Block} {i : Instr} {v : ValueId} (hb : b ∈ bs) (hi : i ∈ b.instrs)
    (hv : v ∈ i.uses) : Kept bs v := by
  rintro ⟨h1, b', hb', j, term, t, e, ht, -, -⟩
  have h2 := useCount_instr hb hi hv
  have h3 := useCount_term (v := v) hb' (by rw [ht]; simp [Terminator.uses, Value.ids])
  rw [useCount_eq] at h1; omega

theorem kept_term {bs : List Block} {b : Block} {v : ValueId} (hb : b ∈ bs) (hv : v ∈ b.term.uses)
    (hn : ¬ (useCount bs v = 1 ∧ ∃ i term, Fuses b v i term)) : Kept bs v := by
  rintro ⟨h1, b', hb', j, term, hf⟩
  by_cases hbb : b = b'
  · subst hbb; exact hn ⟨h1, j, term, hf⟩
  · obtain ⟨t, e, ht, -, -⟩ := hf
    have := two_le_sum (termUses v) hb hb' hbb
    have h2 : termUses v b = 1 := by simp [termUses, hv]
    have h3 : termUses v b' = 1 := by simp [termUses, ht, Terminator.uses, Value.ids]
    rw [useCount_eq] at h1; omega

theorem evalPhis_snoc {env acc : Env} {p : Option BlockId} {is : List Instr} {i : Instr}
    (hi : ∀ d ty ss, i ≠ .Phi d ty ss) :
    evalPhis env p (is ++ [i]) acc = (evalPhis env p is acc).map fun r => (r.1, r.2 ++ [i]) := by
  induction is generalizing acc with
  | nil => cases i <;> first | rfl | exact absurd rfl (hi _ _ _)
  | cons j is ih =>
    cases j with
    | Phi d ty ss =>
      simp only [List.cons_append, evalPhis, Option.bind_eq_bind]
      cases p with
      | none => rfl
      | some p =>
        simp only [Option.bind_some]
        cases phiValue env p ty ss with
        | none => rfl
        | some x => simp only [Option.bind_some]; exact ih
    | _ => rfl

theorem isZero_cases {v : Value} (h : isZero v = true) :
    v = .Literal (.Integer 0) ∨ v = .Literal (.Boolean false) := by
  cases v with
  | Literal l =>
    cases l with
    | Integer n =>
      left
      have h : (n == 0) = true := h
      rw [eq_of_beq h]
    | Boolean b =>
      cases b with
      | false => exact Or.inr rfl
      | true => exact absurd (show false = true from h) (by decide)
    | Unit => exact absurd (show false = true from h) (by decide)
  | Operand v => exact absurd (show false = true from h) (by decide)
  | Error => exact absurd (show false = true from h) (by decide)

theorem readPlain_eq_operand {env : Env} {op : BinaryOp} (ho : op = .Eq ∨ op = .Neq) {v : Value} {x : Val}
    (h : operand env op v = some x) : readPlain env v = some x := by
  cases v with
  | Operand v => exact h
  | Error => exact h
  | Literal l =>
    rcases ho with rfl | rfl
    · cases l with
      | Integer n => exact h
      | Boolean b => exact h
      | Unit => exact absurd h (by simp [operand, literalTy, denote])
    · cases l with
      | Integer n => exact h
      | Boolean b => exact h
      | Unit => exact absurd h (by simp [operand, literalTy, denote])

theorem readPlain_eq_operand_u32 {env : Env} {op : BinaryOp} {v : Value} {x : Val} (hv : ∀ l, v ≠ .Literal l)
    (h : operand env op v = some x) : readPlain env v = some x := by
  cases v with
  | Operand v => exact h
  | Error => exact h
  | Literal l => exact absurd rfl (hv l)

theorem operand_zero_eq {env : Env} {v : Value} (h : isZero v = true) :
    operand env .Eq v = some (.felt 0) ∨ operand env .Eq v = some (.bool false) := by
  rcases isZero_cases h with rfl | rfl
  · left; simp [operand, literalTy, denote]
  · right; rfl

theorem operand_zero_u32 {env : Env} {v : Value} {x : Val} (h : isZero v = true)
    (hx : operand env .U32Eq v = some x) : x = .u32 0 := by
  rcases isZero_cases h with rfl | rfl
  · simp [operand, literalTy, denote] at hx; exact hx.symm
  · simp [operand, literalTy, denote] at hx

theorem isZero_lit {v : Value} (h : isZero v = true) : ∃ l, v = .Literal l := by
  rcases isZero_cases h with rfl | rfl <;> exact ⟨_, rfl⟩

/-- Comparing with zero is a test of the other operand. -/
theorem truthy_eq_zero {x y z : Val} {b : Bool} (hx : x = .felt 0 ∨ x = .bool false)
    (hz : binary .Eq x y = some z) (hb : truthy z = some b) : truthy y = some (!b) := by
  rcases hx with rfl | rfl <;> cases y <;> simp only [binary, Option.some.injEq, reduceCtorEq] at hz <;> subst hz <;>
    simp only [truthy, Option.some.injEq] at hb <;> subst hb
  · simp only [truthy, ← decide_not, Option.some.injEq, decide_eq_decide]
    exact not_congr ⟨fun h => h.symm, fun h => h.symm⟩
  · rename_i c; cases c <;> rfl

theorem binary_eq_comm (x y : Val) : binary .Eq x y = binary .Eq y x := by
  cases x <;> cases y <;> simp [binary, Eq.comm]

theorem binary_neq_not (x y : Val) {z : Val} {b : Bool} (hz : binary .Neq x y = some z) (hb : truthy z = some b) :
    ∃ z', binary .Eq x y = some z' ∧ truthy z' = some (!b) := by
  cases x <;> cases y <;> simp only [binary, Option.some.injEq, reduceCtorEq] at hz <;> subst hz <;>
    simp only [truthy, Option.some.injEq] at hb <;> subst hb <;> exact ⟨_, rfl, by simp [truthy]⟩

theorem binary_u32neq_not (x y : Val) {z : Val} {b : Bool} (hz : binary .U32Neq x y = some z)
    (hb : truthy z = some b) : ∃ z', binary .U32Eq x y = some z' ∧ truthy z' = some (!b) := by
  cases x <;> cases y <;> simp only [binary, Option.some.injEq, reduceCtorEq] at hz <;> subst hz <;>
    simp only [truthy, Option.some.injEq] at hb <;> subst hb <;> exact ⟨_, rfl, by simp [truthy]⟩

theorem truthy_u32_zero {y z : Val} {b : Bool} (hz : binary .U32Eq (.u32 0) y = some z) (hb : truthy z = some b) :
    truthy y = some (!b) := by
  cases y <;> simp only [binary, Option.some.injEq, reduceCtorEq] at hz <;> subst hz <;>
    simp only [truthy, Option.some.injEq] at hb <;> subst hb
  simp only [truthy, ← decide_not, Option.some.injEq, decide_eq_decide]
  exact not_congr ⟨fun h => h.symm, fun h => h.symm⟩

theorem u32eq_comm (x y : Val) : binary .U32Eq x y = binary .U32Eq y x := by
  cases x <;> cases y <;> simp [binary, Eq.comm]

theorem choose_not (b : Bool) (t e : BlockId) : choose (!b) e t = choose b t e := by cases b <;> rfl

theorem evalTerm_if {env : Env} {ts : List (Option MirType)} {c : Value} {t e : BlockId} {x : Val} {b : Bool}
    (h : readPlain env c = some x) (hb : truthy x = some b) : evalTerm ts env (.If c t e) = some (choose b t e) := by
  simp [evalTerm, h, hb]

/-- The comparisons of u32 values that have two literal operands; constant folding removes them. -/
def U32Literals (op : BinaryOp) (l r : Value) : Prop :=
  (op = .U32Eq ∨ op = .U32Neq) ∧ (∃ a, l = .Literal a) ∧ ∃ a, r = .Literal a

set_option maxHeartbeats 1000000 in
/-- The fused terminator goes where the comparison and the branch go. -/
theorem fuseCmp_sound {env : Env} {ts : List (Option MirType)} {op : BinaryOp} {l r : Value} {t e : BlockId}
    {term : Terminator} {x y z : Val} {b : Bool} (hf : fuseCmp op l r t e = some term)
    (hx : operand env op l = some x) (hy : operand env op r = some y) (hz : binary op x y = some z)
    (hb : truthy z = some b) (hn : ¬ U32Literals op l r) :
    evalTerm ts env term = some (choose b t e) := by
  have hcmp : evalTerm ts env (.BranchCmp op l r t e) = some (choose b t e) := by
    simp [evalTerm, hx, hy, hz, hb]
  have hlit : ∀ v w : Value, isZero v = true → (v = l ∧ w = r ∨ v = r ∧ w = l) → (op = .U32Eq ∨ op = .U32Neq) →
      ∀ a, w ≠ .Literal a := by
    intro v w hv hvw ho a hw
    obtain ⟨a', ha'⟩ := isZero_lit hv
    rcases hvw with ⟨rfl, rfl⟩ | ⟨rfl, rfl⟩
    · exact hn ⟨ho, ⟨_, ha'⟩, ⟨_, hw⟩⟩
    · exact hn ⟨ho, ⟨_, hw⟩, ⟨_, ha'⟩⟩
  have eqn : ∀ v, operand env .Neq v = operand env .Eq v := fun v => by
    cases v with
    | Literal l => cases l <;> rfl
    | _ => rfl
  have equ : ∀ v, operand env .U32Neq v = operand env .U32Eq v := fun v => by
    cases v with
    | Literal l => cases l <;> rfl
    | _ => rfl
  unfold fuseCmp at hf
  split at hf
  · -- Eq
    injection hf with hf
    split at hf <;> subst hf
    · rename_i h1 h2
      have h0 := operand_zero_eq (env := env) h1
      rw [hx, Option.some.injEq, Option.some.injEq] at h0
      rw [← choose_not]
      exact evalTerm_if (readPlain_eq_operand (Or.inl rfl) hy) (truthy_eq_zero h0 hz hb)
    · rename_i h1 h2
      have h0 := operand_zero_eq (env := env) h2
      rw [hy, Option.some.injEq, Option.some.injEq] at h0
      rw [← choose_not]
      exact evalTerm_if (readPlain_eq_operand (Or.inl rfl) hx) (truthy_eq_zero h0 (binary_eq_comm x y ▸ hz) hb)
    · exact hcmp
  · -- U32Eq
    injection hf with hf
    split at hf <;> subst hf
    · rename_i h1 h2
      obtain rfl := operand_zero_u32 h1 hx
      rw [← choose_not]
      exact evalTerm_if (readPlain_eq_operand_u32 (hlit l r h1 (Or.inl ⟨rfl, rfl⟩) (Or.inl rfl)) hy)
        (truthy_u32_zero hz hb)
    · rename_i h1 h2
      obtain rfl := operand_zero_u32 h2 hy
      rw [← choose_not]
      exact evalTerm_if (readPlain_eq_operand_u32 (hlit r l h2 (Or.inr ⟨rfl, rfl⟩) (Or.inl rfl)) hx)
        (truthy_u32_zero (u32eq_comm x _ ▸ hz) hb)
    · exact hcmp
  · -- Neq
    injection hf with hf
    obtain ⟨z', hz', hb'⟩ : ∃ z', binary .Eq x y = some z' ∧ truthy z' = some (!b) := binary_neq_not x y hz hb
    split at hf <;> subst hf
    · rename_i h1 h2
      have h0 := operand_zero_eq (env := env) h1
      rw [← eqn, hx, Option.some.injEq, Option.some.injEq] at h0
      have := truthy_eq_zero h0 hz' hb'
      rw [Bool.not_not] at this
      exact evalTerm_if (readPlain_eq_operand (Or.inr rfl) hy) this
    · rename_i h1 h2
      have h0 := operand_zero_eq (env := env) h2
      rw [← eqn, hy, Option.some.injEq, Option.some.injEq] at h0
      have := truthy_eq_zero h0 (binary_eq_comm x y ▸ hz') hb'
      rw [Bool.not_not] at this
      exact evalTerm_if (readPlain_eq_operand (Or.inr rfl) hx) this
    · exact hcmp
  · -- U32Neq
    injection hf with hf
    obtain ⟨z', hz', hb'⟩ : ∃ z', binary .U32Eq x y = some z' ∧ truthy z' = some (!b) := binary_u32neq_not x y hz hb
    split at hf <;> subst hf
    · rename_i h1 h2
      obtain rfl := operand_zero_u32 h1 ((equ l).symm.trans hx)
      have := truthy_u32_zero hz' hb'
      rw [Bool.not_not] at this
      exact evalTerm_if (readPlain_eq_operand_u32 (hlit l r h1 (Or.inl ⟨rfl, rfl⟩) (Or.inr rfl)) hy) this
    · rename_i h1 h2
      obtain rfl := operand_zero_u32 h2 ((equ r).symm.trans hy)
      have := truthy_u32_zero (u32eq_comm x _ ▸ hz') hb'
      rw [Bool.not_not] at this
      exact evalTerm_if (readPlain_eq_operand_u32 (hlit r l h2 (Or.inr ⟨rfl, rfl⟩) (Or.inr rfl)) hx) this
    · exact hcmp
  · cases hf

/-- The last instruction and the branch are equivalent to the fused terminator. -/
theorem fuseLast_sound {calls : Calls} {env env1 : Env} {ts : List (Option MirType)} {i : Instr} {c : ValueId}
    {t e : BlockId} {term : Terminator} {x : Exit} (hf : fuseLast i c t e = some term)
    (he : evalInstr calls i env = some env1) (ht : evalTerm ts env1 (.If (.Operand c) t e) = some x)
    (hn : ∀ op d l r, i = .BinaryOp op d l r → ¬ U32Literals op l r) :
    evalTerm ts env term = some x ∧ ∃ y, env1 = Function.update env c (some y) := by
  unfold fuseLast at hf
  split at hf
  · rename_i op d l r
    split_ifs at hf with hd
    subst hd
    simp only [evalInstr, Option.bind_eq_bind, Option.bind_eq_some_iff, Option.some.injEq] at he
    obtain ⟨a, ha, b, hb, z, hz, rfl⟩ := he
    simp only [evalTerm, readPlain, Function.update_self, Option.bind_eq_bind, Option.bind_some,
      Option.bind_eq_some_iff, Option.some.injEq] at ht
    obtain ⟨w, hw, rfl⟩ := ht
    exact ⟨fuseCmp_sound hf ha hb hz hw (hn _ _ _ _ rfl), z, rfl⟩
  · rename_i d v
    split_ifs at hf with hd
    subst hd
    injection hf with hf
    subst hf
    simp only [evalInstr, Option.bind_eq_bind, Option.bind_eq_some_iff, Option.some.injEq] at he
    obtain ⟨a, ha, z, hz, rfl⟩ := he
    simp only [evalTerm, readPlain, Function.update_self, Option.bind_eq_bind, Option.bind_some,
      Option.bind_eq_some_iff, Option.some.injEq] at ht
    obtain ⟨w, hw, rfl⟩ := ht
    refine ⟨?_, z, rfl⟩
    cases a <;> simp [unary] at hz
    subst hz
    simp only [truthy, Option.some.injEq] at hw
    subst hw
    rw [← choose_not, Bool.not_not]
    exact evalTerm_if ha rfl
  · cases hf

theorem fuseLast_uses {i : Instr} {c : ValueId} {t e : BlockId} {term : Terminator}
    (hf : fuseLast i c t e = some term) : (∀ v ∈ term.uses, v ∈ i.uses) ∧ (∀ d ty ss, i ≠ .Phi d ty ss) := by
  unfold fuseLast at hf
  split at hf
  · rename_i op d l r
    split_ifs at hf
    refine ⟨?_, by simp⟩
    unfold fuseCmp at hf
    split at hf
    all_goals try (cases hf; done)
    all_goals (
      injection hf with hf
      split at hf <;> subst hf <;> simp only [Terminator.uses, Instr.uses, List.mem_append] <;> intro v hv
      all_goals first | exact hv | exact Or.inl hv | exact Or.inr hv)
  · split_ifs at hf
    injection hf with hf
    subst hf
    exact ⟨fun v hv => hv, by simp⟩
  · cases hf

theorem evalBlock_fuse {calls : Calls} {bs : List Block} {b : Block} (hb : b ∈ bs)
    (hn : ∀ i ∈ b.instrs, ∀ op d l r, i = .BinaryOp op d l r → ¬ U32Literals op l r) {ts : List (Option MirType)}
    {p : Option BlockId} {e e' : Env} (h : Agree (Kept bs) e e') :
    OptFwd (ExitRel (Agree (Kept bs))) (evalBlock calls ts b p e)
      (evalBlock calls ts (fuseBlock (useCount bs) b) p e') := by
  have same : (∀ c, ¬ (useCount bs c = 1 ∧ ∃ i term, Fuses b c i term)) →
      OptFwd (ExitRel (Agree (Kept bs))) (evalBlock calls ts b p e) (evalBlock calls ts b p e') := fun hno =>
    (evalBlock_agree h (fun i hi v hv => kept_instr hb hi hv) (fun v hv => kept_term hb hv (hno v))).fwd
  by_cases hfu : ∃ c, useCount bs c = 1 ∧ ∃ i term, Fuses b c i term
  swap
  · have hno : ∀ c, ¬ (useCount bs c = 1 ∧ ∃ i term, Fuses b c i term) := fun c hc => hfu ⟨c, hc⟩
    have hid : fuseBlock (useCount bs) b = b := by
      unfold fuseBlock
      split
      · rename_i c t el ht
        split_ifs with h1
        · split
          · rename_i i hi
            split
            · rename_i term hterm
              exact absurd ⟨h1, i, term, t, el, ht, hi, hterm⟩ (hno c)
            · rfl
          · rfl
        · rfl
      · rfl
    rw [hid]; exact same hno
  · obtain ⟨c, h1, i, term, t, el, ht, hi, hterm⟩ := hfu
    have hid : fuseBlock (useCount bs) b = { instrs := b.instrs.dropLast, term := term } := by
      unfold fuseBlock; rw [ht]; simp only; rw [if_pos h1, hi]; simp only; rw [hterm]
    rw [hid]
    have hsplit : b.instrs = b.instrs.dropLast ++ [i] := by
      have hne : b.instrs ≠ [] := by intro h0; rw [h0] at hi; simp at hi
      have := List.dropLast_append_getLast hne
      rw [List.getLast?_eq_getLast_of_ne_nil hne, Option.some.injEq] at hi
      rw [hi] at this; exact this.symm
    have hmem : i ∈ b.instrs := by rw [hsplit]; simp
    obtain ⟨hu, hphi⟩ := fuseLast_uses hterm
    have hdrop : ∀ j ∈ b.instrs.dropLast, j ∈ b.instrs := fun j hj => List.dropLast_subset _ hj
    unfold evalBlock
    simp only [Option.bind_eq_bind]
    conv => arg 2; rw [hsplit]
    rw [evalPhis_snoc hphi]
    have hph := evalPhis_agree (p := p) h h (is := b.instrs.dropLast)
      (fun j hj v hv => kept_instr hb (hdrop j hj) hv)
    cases h2 : evalPhis e p b.instrs.dropLast e with
    | none => trivial
    | some r =>
      cases h3 : evalPhis e' p b.instrs.dropLast e' with
      | none => rw [h2, h3] at hph; exact hph.elim
      | some r' =>
        rw [h2, h3] at hph
        obtain ⟨r1, r2⟩ := r
        obtain ⟨r1', r2'⟩ := r'
        obtain ⟨ha, hr, hin⟩ := hph
        simp only at ha hr hin
        subst hr
        simp only [Option.map_some, Option.bind_some, evalInstrs_append]
        have hev := evalInstrs_agree (calls := calls) ha (is := r2)
          (fun j hj v hv => kept_instr hb (hdrop j (hin j hj)) hv)
        cases h4 : evalInstrs calls r2 r1 with
        | none => trivial
        | some s =>
          cases h5 : evalInstrs calls r2 r1' with
          | none => rw [h4, h5] at hev; exact hev.elim
          | some s' =>
            rw [h4, h5] at hev
            simp only [Option.bind_some, evalInstrs, Option.bind_eq_bind]
            cases h6 : evalInstr calls i s with
            | none => trivial
            | some s1 =>
              simp only [Option.bind_some]
              rw [ht]
              cases h7 : evalTerm ts s1 (.If (.Operand c) t el) with
              | none => trivial
              | some x =>
                obtain ⟨h8, y, h9⟩ := fuseLast_sound hterm h6 h7 (hn i hmem)
                have h10 : evalTerm ts s' term = some x := by
                  rw [← h8]; exact (evalTerm_agree hev (fun v hv => kept_instr hb hmem (hu v hv))).symm
                simp only [Option.bind_some, h10]
                refine ⟨rfl, ?_⟩
                simp only
                rw [h9]
                refine Agree.update_left hev ?_ _
                intro hk
                exact hk ⟨h1, b, hb, i, term, t, el, ht, hi, hterm⟩

/-! ### Simplification of branches on literals -/

/-- The literals on which a branch is decided at compile time are canonical. -/
def TermCanon : Terminator → Prop
  | .If (.Literal l) _ _ => Canon l
  | .BranchCmp op (.Literal a) (.Literal b) _ _ => op = .Eq ∨ op = .Neq → Canon a ∧ Canon b
  | _ => True

theorem literalTy_operand {op : BinaryOp} {a b : Literal} {x y z : Val} (hx : denote (literalTy op a) a = some x)
    (hy : denote (literalTy op b) b = some y) (hz : binary op x y = some z) :
    ∃ t, operandTy op t ∧ denote t a = some x ∧ denote t b = some y := by
  by_cases ho : op = .Eq ∨ op = .Neq
  · rcases ho with rfl | rfl <;> cases a <;> cases b <;> simp only [literalTy, denote, Option.some.injEq, reduceCtorEq] at hx hy <;>
      subst hx hy <;> simp [binary] at hz
    · exact ⟨.felt, Or.inl rfl, rfl, rfl⟩
    · exact ⟨.bool, Or.inr rfl, rfl, rfl⟩
    · exact ⟨.felt, Or.inl rfl, rfl, rfl⟩
    · exact ⟨.bool, Or.inr rfl, rfl, rfl⟩
  · have h : ∀ l, literalTy op l = literalTy op (.Boolean true) := by
      intro l
      cases op <;> first | rfl | (simp at ho)
    refine ⟨literalTy op (.Boolean true), ?_, by rw [← h a]; exact hx, by rw [← h b]; exact hy⟩
    cases op <;> first | rfl | (simp at ho)

theorem simplifyTerm_sound {env : Env} {ts : List (Option MirType)} {t t' : Terminator} {x : Exit}
    (h : simplifyTerm t = .ok t') (hc : TermCanon t) (hx : evalTerm ts env t = some x) :
    evalTerm ts env t' = some x := by
  unfold simplifyTerm at h
  split at h
  · rename_i l a b
    simp only [TermCanon] at hc
    cases l with
    | Integer n =>
      simp only [asBool] at h
      simp only [evalTerm, readPlain, plainTy, denote, Option.bind_eq_bind, Option.bind_some, truthy,
        Option.some.injEq] at hx
      have hn : (residue n.toNat ≠ 0) ↔ (n != 0) = true := by
        rw [residue_eq]
        simp only [bne_iff_ne, ne_eq]
        have h0 : toM31 0 = 0 := by simp [toM31]
        rw [← h0, toM31_eq hc (by decide)]
      cases hb : (n != 0) with
      | true => rw [hb] at h; simp only [Except.ok.injEq] at h; subst h; subst hx; simp [evalTerm, choose, hn.2 hb]
      | false =>
        rw [hb] at h; simp only [Except.ok.injEq] at h; subst h; subst hx
        have : residue n.toNat = 0 := by
          by_contra hne; rw [hn.1 hne] at hb; cases hb
        simp [evalTerm, choose, this]
    | Boolean c =>
      cases c <;> simp only [asBool, Except.ok.injEq] at h <;> subst h <;>
        simpa [evalTerm, readPlain, plainTy, denote, truthy, choose] using hx
    | Unit => simp only [asBool, Except.ok.injEq] at h; subst h; exact hx
  · rename_i op a b u v
    simp only [TermCanon] at hc
    simp only [evalTerm, operand, Option.bind_eq_bind, Option.bind_eq_some_iff, Option.some.injEq] at hx
    obtain ⟨p, hp, q, hq, z, hz, w, hw, rfl⟩ := hx
    obtain ⟨ty, hty, hp', hq'⟩ := literalTy_operand hp hq hz
    have key : ∀ c, evalBinary op a b = .ok (some (.Boolean c)) → w = c := by
      intro c hcc
      obtain ⟨z', h1, h2⟩ := evalBinary_sound hcc hty hp' hq' hc
      rw [hz, Option.some.injEq] at h2
      subst h2
      cases hr : resultTy op <;> rw [hr] at h1 <;> simp [denote] at h1
      subst h1
      simp [truthy] at hw
      exact hw.symm
    split at h
    · cases h
    · rename_i he
      injection h with h; subst h
      rw [key true he]; rfl
    · rename_i he
      injection h with h; subst h
      rw [key false he]; rfl
    · injection h with h; subst h
      simp [evalTerm, operand, hp, hq, hz, hw]
  · injection h with h; subst h; exact hx

end Lang
end CairoM
