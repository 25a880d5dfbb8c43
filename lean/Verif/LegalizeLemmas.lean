import Verif.MirSim
import Verif.CodegenGen

/-!
# Legalisation of comparisons: helper lemmas
-/

namespace CairoM
namespace Lang

open Mir Codegen

/-- All values mentioned by an instruction are numbered below `n`. -/
def Below (n : ℕ) (i : Instr) : Prop := (∀ v ∈ i.uses, v < n) ∧ ∀ v ∈ i.destinations, v < n

theorem operand_u32 {env : Env} {op op' : BinaryOp} {v : Value} (h : ∀ l, literalTy op l = literalTy op' l) :
    operand env op v = operand env op' v := by
  cases v <;> simp [operand, h]

theorem neq_as_eq (x y : Val) : binary .U32Neq x y = (binary .U32Eq x y).bind (unary .Not) := by
  cases x <;> cases y <;> simp [binary, unary]

theorem eq_comm (x y : Val) : binary .U32Eq x y = binary .U32Eq y x := by
  cases x <;> cases y <;> simp [binary, Eq.comm]

theorem gt_as_lt (x y : Val) : binary .U32Greater x y = binary .U32Less y x := by
  cases x <;> cases y <;> simp [binary]

theorem ge_as_lt (x y : Val) : binary .U32GreaterEqual x y = (binary .U32Less x y).bind (unary .Not) := by
  cases x <;> cases y <;> simp [binary, unary, ← decide_not]

theorem le_as_lt (x y : Val) : binary .U32LessEqual x y = (binary .U32Less y x).bind (unary .Not) := by
  cases x <;> cases y <;> simp [binary, unary, ← decide_not]

/-- A comparison followed by a negation. -/
theorem eval_notted (calls : Calls) {n next : ℕ} (hn : n ≤ next) {op : BinaryOp} {d : ValueId} {l r : Value}
    {a b : Env} (h : Agree (· < n) a b) (hd : d < n) (x y z : Option Val)
    (hx : operand b op l = x) (hy : operand b op r = y)
    (hz : z = x.bind fun x => y.bind fun y => (binary op x y).bind (unary .Not)) :
    OptRel (Agree (· < n)) (z.bind fun z => some (Function.update a d (some z)))
      (evalInstrs calls [.BinaryOp op next l r, .UnaryOp .Not d (.Operand next)] b) := by
  subst hz
  simp only [evalInstrs, evalInstr, Option.bind_eq_bind, hx, hy]
  cases x with
  | none => trivial
  | some x =>
    cases y with
    | none => trivial
    | some y =>
      simp only [Option.bind_some]
      cases hb : binary op x y with
      | none => trivial
      | some w =>
        simp only [Option.bind_some, readPlain, Function.update_self]
        cases unary .Not w with
        | none => trivial
        | some z =>
          simp only [Option.bind_some, OptRel]
          intro v hv
          by_cases hvd : v = d
          · subst hvd; simp
          · have : v ≠ next := Nat.ne_of_lt (lt_of_lt_of_le (show v < n from hv) hn)
            simp [Function.update_of_ne hvd, Function.update_of_ne this, h v hv]

theorem eval_legalInstr (calls : Calls) {n next : ℕ} (hn : n ≤ next) {types : ValueId → Option MirType} {i : Instr}
    (hi : Below n i) {a b : Env} (h : Agree (· < n) a b) :
    OptRel (Agree (· < n)) (evalInstr calls i a) (evalInstrs calls (legalInstr i next types).1 b) := by
  have single : ∀ j : Instr, Below n j → OptRel (Agree (· < n)) (evalInstr calls j a) (evalInstrs calls [j] b) := by
    intro j hj
    have := evalInstr_agree (calls := calls) h hj.1
    simpa [evalInstrs] using this
  unfold legalInstr
  split
  · rename_i d l r
    have hl : ∀ v ∈ l.ids, v < n := fun v hv => hi.1 v (by simp [Instr.uses, hv])
    have hr : ∀ v ∈ r.ids, v < n := fun v hv => hi.1 v (by simp [Instr.uses, hv])
    have hd : d < n := hi.2 d (by simp [Instr.destinations])
    simp only [evalInstr, Option.bind_eq_bind]
    rw [operand_agree h hl, operand_agree h hr]
    have hc : legalCanon .U32Neq l r = (l, r) ∨ legalCanon .U32Neq l r = (r, l) := by
      unfold legalCanon; split
      · split <;> simp
      · simp
    have e : ∀ v, operand b .U32Eq v = operand b .U32Neq v := fun v => operand_u32 fun _ => rfl
    simp only [← Option.bind_assoc]
    rcases hc with hc | hc <;> rw [hc] <;> simp only
    · refine eval_notted calls hn h hd _ _ _ (e _) (e _) ?_
      cases operand b .U32Neq l <;> cases operand b .U32Neq r <;> simp [neq_as_eq]
    · refine eval_notted calls hn h hd _ _ _ (e _) (e _) ?_
      cases operand b .U32Neq l <;> cases operand b .U32Neq r <;> simp [neq_as_eq]
      rw [eq_comm]
  · rename_i d l r
    have hl : ∀ v ∈ l.ids, v < n := fun v hv => hi.1 v (by simp [Instr.uses, hv])
    have hr : ∀ v ∈ r.ids, v < n := fun v hv => hi.1 v (by simp [Instr.uses, hv])
    simp only [evalInstrs, evalInstr, Option.bind_eq_bind]
    rw [operand_agree h hl, operand_agree h hr]
    have e : ∀ v, operand b .U32Less v = operand b .U32Greater v := fun v => operand_u32 fun _ => rfl
    rw [e, e]
    cases operand b .U32Greater l with
    | none => cases operand b .U32Greater r <;> trivial
    | some x =>
      cases operand b .U32Greater r with
      | none => trivial
      | some y =>
        simp only [Option.bind_some, gt_as_lt, Option.bind_some]
        cases binary .U32Less y x with
        | none => trivial
        | some z => exact h.update d (some z)
  · rename_i d l r
    have hl : ∀ v ∈ l.ids, v < n := fun v hv => hi.1 v (by simp [Instr.uses, hv])
    have hr : ∀ v ∈ r.ids, v < n := fun v hv => hi.1 v (by simp [Instr.uses, hv])
    have hd : d < n := hi.2 d (by simp [Instr.destinations])
    simp only [evalInstr, Option.bind_eq_bind]
    rw [operand_agree h hl, operand_agree h hr]
    have e : ∀ v, operand b .U32Less v = operand b .U32GreaterEqual v := fun v => operand_u32 fun _ => rfl
    simp only [← Option.bind_assoc]
    refine eval_notted calls hn h hd _ _ _ (e _) (e _) ?_
    cases operand b .U32GreaterEqual l <;> cases operand b .U32GreaterEqual r <;> simp [ge_as_lt]
  · rename_i d l r
    have hl : ∀ v ∈ l.ids, v < n := fun v hv => hi.1 v (by simp [Instr.uses, hv])
    have hr : ∀ v ∈ r.ids, v < n := fun v hv => hi.1 v (by simp [Instr.uses, hv])
    have hd : d < n := hi.2 d (by simp [Instr.destinations])
    simp only [evalInstr, Option.bind_eq_bind]
    rw [operand_agree h hl, operand_agree h hr]
    have e : ∀ v, operand b .U32Less v = operand b .U32LessEqual v := fun v => operand_u32 fun _ => rfl
    simp only [← Option.bind_assoc]
    refine eval_notted calls hn h hd _ _ _ (e _) (e _) ?_
    cases operand b .U32LessEqual l <;> cases operand b .U32LessEqual r <;> simp [le_as_lt]
  · exact single _ hi

theorem legalInstr_next (i : Instr) (next : ℕ) (types : ValueId → Option MirType) :
    next ≤ (legalInstr i next types).2.1 ∧
      ∀ v, v < next → (legalInstr i next types).2.2 v = types v := by
  unfold legalInstr
  split <;> simp
  all_goals (intro v hv; rw [Function.update_of_ne (Nat.ne_of_lt hv)])

theorem legalInstrs_next (is : List Instr) (next : ℕ) (types : ValueId → Option MirType) :
    next ≤ (legalInstrs is next types).2.1 ∧
      ∀ v, v < next → (legalInstrs is next types).2.2 v = types v := by
  induction is generalizing next types with
  | nil => simp [legalInstrs]
  | cons i is ih =>
    simp only [legalInstrs]
    have h1 := legalInstr_next i next types
    have h2 := ih (legalInstr i next types).2.1 (legalInstr i next types).2.2
    exact ⟨h1.1.trans h2.1, fun v hv => (h2.2 v (lt_of_lt_of_le hv h1.1)).trans (h1.2 v hv)⟩

theorem eval_legalInstrs (calls : Calls) {n next : ℕ} (hn : n ≤ next) {types : ValueId → Option MirType}
    {is : List Instr} (hi : ∀ i ∈ is, Below n i) {a b : Env} (h : Agree (· < n) a b) :
    OptRel (Agree (· < n)) (evalInstrs calls is a) (evalInstrs calls (legalInstrs is next types).1 b) := by
  induction is generalizing next types a b with
  | nil => exact h
  | cons i is ih =>
    simp only [legalInstrs, evalInstrs_append]
    refine (eval_legalInstr calls hn (hi i (by simp)) h).bind fun x y hxy => ?_
    exact ih (hn.trans (legalInstr_next i next types).1) (fun j hj => hi j (by simp [hj])) hxy

/-- The remaining instructions after the phi nodes are legalised too. -/
def LegalRel (n : ℕ) (is : List Instr) (x y : Env × List Instr) : Prop :=
  Agree (· < n) x.1 y.1 ∧ (∀ i ∈ x.2, i ∈ is) ∧
    ∃ next types, n ≤ next ∧ y.2 = (legalInstrs x.2 next types).1

theorem evalPhis_legal {n next : ℕ} (hn : n ≤ next) {types : ValueId → Option MirType} {is : List Instr}
    (hi : ∀ i ∈ is, Below n i) {a b a' b' : Env} (h : Agree (· < n) a b) (h' : Agree (· < n) a' b')
    {p : Option BlockId} :
    OptRel (LegalRel n is) (evalPhis a p is a') (evalPhis b p (legalInstrs is next types).1 b') := by
  induction is generalizing a' b' with
  | nil => exact ⟨h', by simp, next, types, hn, rfl⟩
  | cons i is ih =>
    by_cases hp : isPhi i = true
    · cases i <;> simp [isPhi] at hp
      rename_i d ty ss
      simp only [legalInstrs, legalInstr, List.cons_append, List.nil_append, evalPhis, Option.bind_eq_bind]
      cases p with
      | none => trivial
      | some p =>
        simp only [Option.bind_some]
        rw [phiValue_agree h (ss := ss) ((hi (.Phi d ty ss) (by simp)).1)]
        cases phiValue b p ty ss with
        | none => trivial
        | some x =>
          simp only [Option.bind_some]
          refine (ih (fun j hj => hi j (by simp [hj])) (h'.update d (some x))).mono ?_
          rintro x y ⟨h1, h2, h3⟩
          exact ⟨h1, fun i hi => List.mem_cons_of_mem _ (h2 i hi), h3⟩
    · have e1 : evalPhis a p (i :: is) a' = some (a', i :: is) := by
        cases i <;> first | rfl | (simp [isPhi] at hp)
      have e2 : ∃ j js, (legalInstrs (i :: is) next types).1 = j :: js ∧ isPhi j = false := by
        simp only [legalInstrs]
        unfold legalInstr
        split <;> simp only [List.cons_append, List.nil_append, List.cons.injEq]
        all_goals first
          | exact ⟨_, _, ⟨rfl, rfl⟩, rfl⟩
          | exact ⟨_, _, ⟨rfl, rfl⟩, by simpa using hp⟩
      obtain ⟨j, js, hj, hjp⟩ := e2
      have e3 : evalPhis b p (legalInstrs (i :: is) next types).1 b' =
          some (b', (legalInstrs (i :: is) next types).1) := by
        rw [hj]; cases j <;> first | rfl | (simp [isPhi] at hjp)
      rw [e1, e3]
      exact ⟨h', fun i hi => hi, next, types, hn, rfl⟩

theorem evalBlock_legal (calls : Calls) {n next : ℕ} (hn : n ≤ next) {types : ValueId → Option MirType} {blk : Block}
    (hi : ∀ i ∈ blk.instrs, Below n i) (ht : ∀ v ∈ blk.term.uses, v < n) {a b : Env} (h : Agree (· < n) a b)
    {p : Option BlockId} {ts : List (Option MirType)} :
    OptRel (ExitRel (Agree (· < n))) (evalBlock calls ts blk p a)
      (evalBlock calls ts { blk with instrs := (legalInstrs blk.instrs next types).1 } p b) := by
  refine (evalPhis_legal hn hi h h).bind ?_
  rintro ⟨e, is⟩ ⟨e', is'⟩ ⟨h1, h2, next', types', hn', h3⟩
  simp only at h1 h2 h3
  subst h3
  refine (eval_legalInstrs calls hn' (fun i hj => hi i (h2 i hj)) h1).bind ?_
  intro x y hxy
  rw [evalTerm_agree hxy ht]
  cases evalTerm ts y blk.term with
  | none => trivial
  | some z => exact ⟨rfl, hxy⟩

theorem legalBlocks_spec (bs : List Block) (next : ℕ) (types : ValueId → Option MirType) :
    next ≤ (legalBlocks bs next types).2.1 ∧
    (∀ v, v < next → (legalBlocks bs next types).2.2 v = types v) ∧
    ∀ id : ℕ, OptRel (fun b b' => ∃ next' types', next ≤ next' ∧
      b' = { b with instrs := (legalInstrs b.instrs next' types').1 }) bs[id]? (legalBlocks bs next types).1[id]? := by
  induction bs generalizing next types with
  | nil => simp [legalBlocks, OptRel]
  | cons b bs ih =>
    simp only [legalBlocks]
    have h1 := legalInstrs_next b.instrs next types
    obtain ⟨h2, h3, h4⟩ := ih (legalInstrs b.instrs next types).2.1 (legalInstrs b.instrs next types).2.2
    refine ⟨h1.1.trans h2, fun v hv => (h3 v (lt_of_lt_of_le hv h1.1)).trans (h1.2 v hv), ?_⟩
    intro id
    cases id with
    | zero => exact ⟨next, types, le_refl _, rfl⟩
    | succ id =>
      simp only [List.getElem?_cons_succ]
      refine (h4 id).mono ?_
      rintro x y ⟨n', t', hn', rfl⟩
      exact ⟨n', t', h1.1.trans hn', rfl⟩

end Lang
end CairoM
