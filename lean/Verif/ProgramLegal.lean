import Verif.ProgramLink
import Verif.LegalizeProps

/-!
# Helper lemmas: rewriting of comparisons keeps the conditions on modules
-/

namespace CairoM
namespace Codegen

open Mir Lang

variable {n next : ℕ} {types T : ValueId → Option MirType} {i : Instr} {is : List Instr} {term : Terminator}
  {f : Function} {live : BlockId → ValueId → Prop}

/-- What one instruction is rewritten to: one instruction or a comparison and a negation. -/
theorem legalInstr_shape (i : Instr) (next : ℕ) (types : ValueId → Option MirType) :
    (∃ j, legalInstr i next types = ([j], next, types) ∧
      (j = i ∨ ∃ d l r, i = .BinaryOp .U32Greater d l r ∧ j = .BinaryOp .U32Less d r l)) ∨
    ∃ d op l r op' l' r', i = .BinaryOp op' d l' r' ∧ (op = .U32Eq ∨ op = .U32Less) ∧
      (op' = .U32Neq ∨ op' = .U32GreaterEqual ∨ op' = .U32LessEqual) ∧
      (l = l' ∧ r = r' ∨ l = r' ∧ r = l') ∧
      legalInstr i next types = ([.BinaryOp op next l r, .UnaryOp .Not d (.Operand next)], next + 1,
        Function.update types next (some .Bool)) := by
  cases i with
  | BinaryOp op d l r =>
    cases op
    case U32Neq =>
      refine .inr ⟨d, .U32Eq, _, _, _, l, r, rfl, .inl rfl, .inl rfl, ?_, rfl⟩
      cases l <;> cases r <;> simp [legalCanon, Builder.commU32]
    case U32Greater => exact .inl ⟨_, rfl, .inr ⟨d, l, r, rfl, rfl⟩⟩
    case U32GreaterEqual => exact .inr ⟨d, .U32Less, _, _, _, l, r, rfl, .inr rfl, .inr (.inl rfl), .inl ⟨rfl, rfl⟩, rfl⟩
    case U32LessEqual => exact .inr ⟨d, .U32Less, _, _, _, l, r, rfl, .inr rfl, .inr (.inr rfl), .inr ⟨rfl, rfl⟩, rfl⟩
    all_goals exact .inl ⟨_, rfl, .inl rfl⟩
  | _ => exact .inl ⟨_, rfl, .inl rfl⟩

theorem legalInstrs_cons (i : Instr) (is : List Instr) (next : ℕ) (types : ValueId → Option MirType) :
    legalInstrs (i :: is) next types =
      ((legalInstr i next types).1 ++ (legalInstrs is (legalInstr i next types).2.1 (legalInstr i next types).2.2).1,
       (legalInstrs is (legalInstr i next types).2.1 (legalInstr i next types).2.2).2) := rfl

/-! ### Typing -/

theorem hasType_congr {v : Value} {t : MirType} (h : HasType types v t) (hT : ∀ x ∈ v.ids, T x = types x) :
    HasType T v t := by
  cases v with
  | Operand v => simp only [HasType] at h ⊢; rw [hT v (by simp [Value.ids]), h]
  | Literal l => exact h
  | Error => exact h

theorem OperandTyped.congr {v : Value} {ts : List MirType} (h : OperandTyped types ts v) (hT : ∀ x ∈ v.ids, T x = types x) :
    OperandTyped T ts v := by
  cases v with
  | Operand v => simp only [OperandTyped] at h ⊢; rw [hT v (by simp [Value.ids])]; exact h
  | Literal l => trivial
  | Error => trivial

theorem ids_subset {v : Value} : ∀ {vs : List Value}, v ∈ vs → ∀ x ∈ v.ids, x ∈ valuesIds vs := by
  intro vs hv x hx
  simp only [valuesIds, List.mem_flatMap]
  exact ⟨v, hv, hx⟩

theorem instrTyped_congr (h : InstrTyped types i) (hu : ∀ v ∈ i.uses, T v = types v)
    (hd : ∀ v ∈ i.destinations, T v = types v) : InstrTyped T i := by
  cases i with
  | Assign d v ty => exact ⟨by rw [hd d (by simp [Instr.destinations])]; exact h.1, hasType_congr h.2 hu⟩
  | UnaryOp op d v => exact ⟨by rw [hd d (by simp [Instr.destinations])]; exact h.1, hasType_congr h.2 hu⟩
  | BinaryOp op d l r => exact ⟨by rw [hd d (by simp [Instr.destinations])]; exact h.1, h.2⟩
  | Call ds c args sig =>
    refine ⟨by rw [← h.1]; exact List.map_congr_left fun v hv => hd v hv, ?_⟩
    have h2 := h.2
    rw [List.forall₂_iff_get] at h2 ⊢
    exact ⟨h2.1, fun k h1 h3 => hasType_congr (h2.2 k h1 h3) fun x hx => hu x (ids_subset (List.get_mem _ _) x hx)⟩
  | Cast d v s t => exact ⟨by rw [hd d (by simp [Instr.destinations])]; exact h.1, hasType_congr h.2 hu⟩
  | Phi d ty ss =>
    refine ⟨by rw [hd d (by simp [Instr.destinations])]; exact h.1, fun s hs => hasType_congr (h.2 s hs) fun x hx => hu x ?_⟩
    exact ids_subset (List.mem_map_of_mem hs) x hx
  | _ => trivial

theorem InstrCalls.congr (h : InstrCalls types i) (hu : ∀ v ∈ i.uses, T v = types v) : InstrCalls T i := by
  cases i with
  | BinaryOp op d l r =>
    exact ⟨⟨h.1.1.congr fun x hx => hu x (by simp [Instr.uses, hx]), h.1.2.congr fun x hx => hu x (by simp [Instr.uses, hx])⟩, h.2⟩
  | AssertEq l r =>
    exact ⟨h.1, h.2.1.congr fun x hx => hu x (by simp [Instr.uses, hx]), h.2.2.congr fun x hx => hu x (by simp [Instr.uses, hx])⟩
  | _ => exact h

theorem TermTyped.congr {f' : Function} (h : TermTyped f term) (hr : f'.returns = f.returns)
    (hu : ∀ v ∈ term.uses, f'.types v = f.types v) (hret : ∀ v ∈ f.returns, f'.types v = f.types v) :
    TermTyped f' term := by
  cases term with
  | If c t e => exact OperandTyped.congr h hu
  | BranchCmp op l r t e =>
    exact ⟨h.1, h.2.1.congr fun x hx => hu x (by simp [Terminator.uses, hx]),
      h.2.2.congr fun x hx => hu x (by simp [Terminator.uses, hx])⟩
  | Return vs =>
    simp only [TermTyped] at h ⊢
    rw [hr]
    rw [List.forall₂_iff_get] at h ⊢
    refine ⟨h.1, fun k h1 h2 => ?_⟩
    obtain ⟨t, a, b⟩ := h.2 k h1 h2
    exact ⟨t, by rw [hret _ (List.get_mem _ _)]; exact a, hasType_congr b fun x hx => hu x (ids_subset (List.get_mem _ _) x hx)⟩
  | _ => trivial

theorem typed_legalInstr (hi : Below n i) (ht : InstrTyped types i ∧ InstrCalls types i) {types' : ValueId → Option MirType}
    (hT : ∀ v, v < n → T v = types v)
    (hT' : ∀ v, next ≤ v → v < (legalInstr i next types').2.1 → T v = (legalInstr i next types').2.2 v) :
    ∀ j ∈ (legalInstr i next types').1, InstrTyped T j ∧ InstrCalls T j := by
  rcases legalInstr_shape i next types' with ⟨j, e, hj⟩ | ⟨d, op, l, r, op', l', r', rfl, hop, hop', hlr, e⟩
  · rw [e]
    intro j' hj'
    rw [List.mem_singleton] at hj'
    subst hj'
    rcases hj with rfl | ⟨d, l, r, rfl, rfl⟩
    · exact ⟨instrTyped_congr ht.1 (fun v hv => hT v (hi.1 v hv)) fun v hv => hT v (hi.2 v hv),
        ht.2.congr fun v hv => hT v (hi.1 v hv)⟩
    · obtain ⟨⟨h1, h2, h3⟩, ⟨h4, h5⟩, -⟩ := ht
      refine ⟨⟨by rw [hT d (hi.2 d (by simp [Instr.destinations]))]; exact h1, ?_, ?_⟩, ⟨?_, ?_⟩, by simp⟩
      · cases r <;> first | trivial | (intro hh; cases hh)
      · cases l <;> first | trivial | (intro hh; cases hh)
      · exact h5.congr fun x hx => hT x (hi.1 x (by simp [Instr.uses, hx]))
      · exact h4.congr fun x hx => hT x (hi.1 x (by simp [Instr.uses, hx]))
  · rw [e] at hT' ⊢
    dsimp only at hT'
    have hnext : T next = some .Bool := by rw [hT' next le_rfl (Nat.lt_succ_self _), Function.update_self]
    obtain ⟨⟨h1, -, -⟩, ⟨h4, h5⟩, -⟩ := ht
    have hot : operandTypes op' = [.U32] := by rcases hop' with rfl | rfl | rfl <;> rfl
    rw [hot] at h4 h5
    have h4' : OperandTyped T [.U32] l' := h4.congr fun x hx => hT x (hi.1 x (by simp [Instr.uses, hx]))
    have h5' : OperandTyped T [.U32] r' := h5.congr fun x hx => hT x (hi.1 x (by simp [Instr.uses, hx]))
    intro j hj
    simp only [List.mem_cons, List.not_mem_nil, or_false] at hj
    rcases hj with rfl | rfl
    · refine ⟨⟨by rw [hnext]; rcases hop with rfl | rfl <;> rfl, ?_, ?_⟩, ⟨?_, ?_⟩, by rcases hop with rfl | rfl <;> simp⟩
      · cases l <;> first | trivial | (rcases hop with rfl | rfl <;> intro hh <;> cases hh)
      · cases r <;> first | trivial | (rcases hop with rfl | rfl <;> intro hh <;> cases hh)
      · rw [show operandTypes op = [.U32] by rcases hop with rfl | rfl <;> rfl]
        rcases hlr with ⟨rfl, rfl⟩ | ⟨rfl, rfl⟩ <;> assumption
      · rw [show operandTypes op = [.U32] by rcases hop with rfl | rfl <;> rfl]
        rcases hlr with ⟨rfl, rfl⟩ | ⟨rfl, rfl⟩ <;> assumption
    · refine ⟨⟨?_, hnext⟩, trivial⟩
      rw [hT d (hi.2 d (by simp [Instr.destinations])), h1]
      rcases hop' with rfl | rfl | rfl <;> rfl

theorem typed_legalInstrs (hT : ∀ v, v < n → T v = types v) : ∀ {is : List Instr} {next : ℕ} {types' : ValueId → Option MirType},
    (∀ i ∈ is, Below n i) → (∀ i ∈ is, InstrTyped types i ∧ InstrCalls types i) →
    (∀ v, next ≤ v → v < (legalInstrs is next types').2.1 → T v = (legalInstrs is next types').2.2 v) →
    ∀ j ∈ (legalInstrs is next types').1, InstrTyped T j ∧ InstrCalls T j
  | [], _, _, _, _, _ => by simp [legalInstrs]
  | i :: is, next, types', hi, ht, hT' => by
    rw [legalInstrs_cons] at hT' ⊢
    dsimp only at hT' ⊢
    have h1 := legalInstr_next i next types'
    have h2 := legalInstrs_next is (legalInstr i next types').2.1 (legalInstr i next types').2.2
    intro j hj
    rcases List.mem_append.mp hj with hj | hj
    · refine typed_legalInstr (hi i (by simp)) (ht i (by simp)) hT (fun v hv hv' => ?_) j hj
      rw [hT' v hv (lt_of_lt_of_le hv' h2.1), h2.2 v hv']
    · exact typed_legalInstrs hT (fun i h => hi i (by simp [h])) (fun i h => ht i (by simp [h]))
        (fun v hv hv' => hT' v (h1.1.trans hv) hv') j hj

/-! ### Definitions before uses -/

theorem defined_mono : ∀ {is : List Instr} {A B : ValueId → Prop}, (∀ v, A v → B v) → Defined A is term → Defined B is term
  | [], _, _, h, hd => fun v hv => h v (hd v hv)
  | _ :: _, _, _, h, hd => ⟨fun v hv => h v (hd.1 v hv), defined_mono (fun v hv => hv.imp (h v) id) hd.2⟩

theorem defined_legal : ∀ {is : List Instr} {next : ℕ} {types : ValueId → Option MirType} {A : ValueId → Prop},
    Defined A is term → Defined A (legalInstrs is next types).1 term
  | [], _, _, _, h => h
  | i :: is, next, types, A, h => by
    rw [legalInstrs_cons]
    dsimp only
    obtain ⟨hu, hd⟩ := h
    rcases legalInstr_shape i next types with ⟨j, e, hj⟩ | ⟨d, op, l, r, op', l', r', rfl, hop, hop', hlr, e⟩
    · rw [e]
      have hu' : ∀ v ∈ j.uses, A v := by
        rcases hj with rfl | ⟨d, l, r, rfl, rfl⟩
        · exact hu
        · intro v hv
          exact hu v (by simp only [Instr.uses, List.mem_append] at hv ⊢; tauto)
      have hd' : j.destinations = i.destinations := by
        rcases hj with rfl | ⟨d, l, r, rfl, rfl⟩ <;> rfl
      refine ⟨hu', ?_⟩
      rw [hd']
      exact defined_legal hd
    · rw [e]
      refine ⟨fun v hv => hu v ?_, ?_, ?_⟩
      · simp only [Instr.uses, List.mem_append] at hv ⊢
        rcases hlr with ⟨rfl, rfl⟩ | ⟨rfl, rfl⟩ <;> tauto
      · intro v hv
        simp only [Instr.uses, Value.ids, List.mem_singleton] at hv
        exact .inr (by simp [Instr.destinations, hv])
      · refine defined_legal (defined_mono (fun v hv => ?_) hd)
        rcases hv with hv | hv
        · exact .inl (.inl hv)
        · exact .inr hv

/-! ### Destinations -/

theorem dests_legal {is : List Instr} (hi : ∀ i ∈ is, Below n i) : ∀ {next : ℕ} {types : ValueId → Option MirType}, n ≤ next →
    ((legalInstrs is next types).1.flatMap Instr.destinations).filter (· < n) = is.flatMap Instr.destinations := by
  induction is with
  | nil => intros; rfl
  | cons i is ih =>
    intro next types hn
    have h1 := legalInstr_next i next types
    have hb := hi i (by simp)
    rw [legalInstrs_cons]
    dsimp only
    rw [List.flatMap_append, List.filter_append, List.flatMap_cons, ih (fun i h => hi i (by simp [h])) (hn.trans h1.1)]
    congr 1
    rcases legalInstr_shape i next types with ⟨j, e, hj⟩ | ⟨d, op, l, r, op', l', r', rfl, hop, hop', hlr, e⟩
    · rw [e]
      have hd' : j.destinations = i.destinations := by
        rcases hj with rfl | ⟨d, l, r, rfl, rfl⟩ <;> rfl
      simp only [List.flatMap_cons, List.flatMap_nil, List.append_nil, hd']
      exact List.filter_eq_self.mpr fun v hv => by simpa using hb.2 v hv
    · rw [e]
      have := hb.2 d (by simp [Instr.destinations])
      simp [Instr.destinations, hn, this]

theorem locals_legal (bs : List Block) (hb : ∀ b ∈ bs, ∀ i ∈ b.instrs, Below n i) : ∀ {next : ℕ}
    {types : ValueId → Option MirType}, n ≤ next →
    ((legalBlocks bs next types).1.flatMap fun b => b.instrs.flatMap Instr.destinations).filter (· < n) =
      bs.flatMap fun b => b.instrs.flatMap Instr.destinations := by
  induction bs with
  | nil => intros; rfl
  | cons b bs ih =>
    intro next types hn
    have h1 := legalInstrs_next b.instrs next types
    simp only [legalBlocks, List.flatMap_cons, List.filter_append]
    rw [dests_legal (hb b (by simp)) hn, ih (fun b h => hb b (by simp [h])) (hn.trans h1.1)]

/-! ### Moved values -/

theorem head_legal {is : List Instr} {next : ℕ} {types : ValueId → Option MirType} {ds : List ValueId} {c : ℕ}
    {args : List Value} {sig : Signature} (h : (legalInstrs is next types).1.head? = some (.Call ds c args sig)) :
    is.head? = some (.Call ds c args sig) := by
  cases is with
  | nil => cases h
  | cons i is =>
    rw [legalInstrs_cons] at h
    rcases legalInstr_shape i next types with ⟨j, e, hj⟩ | ⟨d, op, l, r, op', l', r', rfl, hop, hop', hlr, e⟩
    · rw [e] at h
      simp only [List.cons_append, List.head?_cons, Option.some.injEq] at h
      rcases hj with rfl | ⟨d, l, r, rfl, rfl⟩
      · rw [h]; rfl
      · cases h
    · rw [e] at h
      simp at h

theorem not_returns_fresh (ht : ∀ v ∈ term.uses, v < n) (hn : n ≤ next) : ¬ Returns term next := by
  cases term with
  | Return vs =>
    intro h
    have := ht next (ids_subset (v := .Operand next) h next (by simp [Value.ids]))
    exact absurd (lt_of_lt_of_le this hn) (lt_irrefl _)
  | _ => exact id

theorem moved_legal (ht : ∀ v ∈ term.uses, v < n) {d : ValueId} : ∀ {is : List Instr} {next : ℕ}
    {types : ValueId → Option MirType}, n ≤ next → ∀ {pre post : List Instr} {j : Instr},
    (legalInstrs is next types).1 = pre ++ j :: post → Moves term j post.head? d →
    ∃ pre' i post', is = pre' ++ i :: post' ∧ Moves term i post'.head? d
  | [], _, _, _, pre, post, j, h, _ => by simp [legalInstrs] at h
  | i :: is, next, types, hn, pre, post, j, h, hm => by
    have h1 := legalInstr_next i next types
    rw [legalInstrs_cons] at h
    dsimp only at h
    have later : ∀ pre', (legalInstrs is (legalInstr i next types).2.1 (legalInstr i next types).2.2).1 = pre' ++ j :: post →
        ∃ pre' i' post', i :: is = pre' ++ i' :: post' ∧ Moves term i' post'.head? d := by
      intro pre' e
      obtain ⟨p, i', q, e', m⟩ := moved_legal ht (hn.trans h1.1) e hm
      exact ⟨i :: p, i', q, by rw [e']; rfl, m⟩
    rcases legalInstr_shape i next types with ⟨j', e, hj⟩ | ⟨d', op, l, r, op', l', r', rfl, hop, hop', hlr, e⟩
    · rw [e] at h later
      cases pre with
      | nil =>
        simp only [List.cons_append, List.nil_append, List.cons.injEq] at h
        obtain ⟨rfl, h⟩ := h
        refine ⟨[], i, is, rfl, ?_⟩
        obtain ⟨hd, hm⟩ := hm
        refine ⟨?_, ?_⟩
        · rcases hj with rfl | ⟨d, l, r, rfl, rfl⟩ <;> exact hd
        · rcases hm with ⟨ds, c, args, sig, hm⟩ | ⟨ds, c, args, sig, hm, ha⟩ | hm
          · rcases hj with rfl | ⟨d, l, r, rfl, rfl⟩
            · exact .inl ⟨ds, c, args, sig, hm⟩
            · cases hm
          · rw [← h] at hm
            exact .inr (.inl ⟨ds, c, args, sig, head_legal hm, ha⟩)
          · exact .inr (.inr hm)
      | cons p pre =>
        simp only [List.cons_append, List.nil_append, List.cons.injEq] at h
        exact later pre h.2
    · rw [e] at h later
      cases pre with
      | nil =>
        simp only [List.cons_append, List.nil_append, List.cons.injEq] at h
        obtain ⟨rfl, rfl⟩ := h
        obtain ⟨hd, hm⟩ := hm
        simp only [Instr.destinations, List.mem_singleton] at hd
        subst hd
        rcases hm with ⟨ds, c, args, sig, hm⟩ | ⟨ds, c, args, sig, hm, ha⟩ | hm
        · cases hm
        · simp at hm
        · exact absurd hm (not_returns_fresh ht hn)
      | cons p pre =>
        cases pre with
        | nil =>
          simp only [List.cons_append, List.nil_append, List.cons.injEq] at h
          obtain ⟨-, rfl, h⟩ := h
          refine ⟨[], _, is, rfl, ?_⟩
          obtain ⟨hd, hm⟩ := hm
          refine ⟨hd, ?_⟩
          rcases hm with ⟨ds, c, args, sig, hm⟩ | ⟨ds, c, args, sig, hm, ha⟩ | hm
          · cases hm
          · rw [← h] at hm
            exact .inr (.inl ⟨ds, c, args, sig, head_legal hm, ha⟩)
          · exact .inr (.inr hm)
        | cons p' pre =>
          simp only [List.cons_append, List.nil_append, List.cons.injEq] at h
          exact later pre h.2.2

/-! ### Functions -/

theorem legalBlocks_typed (bs : List Block) (next : ℕ) (types : ValueId → Option MirType) :
    ∀ (id : ℕ) (b' : Block), (legalBlocks bs next types).1[id]? = some b' → ∃ (b : Block) (next' : ℕ) (types' : ValueId → Option MirType), bs[id]? = some b ∧ next ≤ next' ∧
      b' = { b with instrs := (legalInstrs b.instrs next' types').1 } ∧
      ∀ v, next' ≤ v → v < (legalInstrs b.instrs next' types').2.1 →
        (legalBlocks bs next types).2.2 v = (legalInstrs b.instrs next' types').2.2 v := by
  induction bs generalizing next types with
  | nil => intro id b' h; simp [legalBlocks] at h
  | cons b bs ih =>
    have h1 := legalInstrs_next b.instrs next types
    have h2 := legalBlocks_spec bs (legalInstrs b.instrs next types).2.1 (legalInstrs b.instrs next types).2.2
    intro id b' h
    simp only [legalBlocks] at h ⊢
    cases id with
    | zero =>
      simp only [List.getElem?_cons_zero, Option.some.injEq] at h
      subst h
      exact ⟨b, next, types, rfl, le_rfl, rfl, fun v _ hv => h2.2.1 v hv⟩
    | succ id =>
      simp only [List.getElem?_cons_succ] at h ⊢
      obtain ⟨b0, n', t', g1, g2, g3, g4⟩ := ih _ _ id b' h
      exact ⟨b0, n', t', g1, h1.1.trans g2, g3, g4⟩

theorem calling_legal (h : Calling f live) (hn : Numbered f) (hp : ∀ v ∈ f.params, v < f.nextValue) :
    Calling (legalFunction f) live := by
  have hT : ∀ v, v < f.nextValue → (legalFunction f).types v = f.types v :=
    (legalBlocks_spec f.blocks f.nextValue f.types).2.1
  have hblk := legalBlocks_typed f.blocks f.nextValue f.types
  have hmem : ∀ b' ∈ (legalFunction f).blocks, ∃ b ∈ f.blocks, ∃ next' types', f.nextValue ≤ next' ∧
      b' = { b with instrs := (legalInstrs b.instrs next' types').1 } ∧
      ∀ v, next' ≤ v → v < (legalInstrs b.instrs next' types').2.1 →
        (legalFunction f).types v = (legalInstrs b.instrs next' types').2.2 v := by
    intro b' hb'
    obtain ⟨id, hid⟩ := List.getElem?_of_mem hb'
    obtain ⟨b, n', t', g1, g2, g3, g4⟩ := hblk id b' hid
    exact ⟨b, List.mem_of_getElem? g1, n', t', g2, g3, g4⟩
  have hloc : (Layout.locals (legalFunction f)).filter (· < f.nextValue) = Layout.locals f :=
    locals_legal f.blocks hn.instrs le_rfl
  have hcount : ∀ d, d < f.nextValue → (Layout.locals (legalFunction f)).count d = (Layout.locals f).count d := by
    intro d hd
    rw [← hloc, List.count_filter (by simpa using hd)]
  have hmoved : ∀ b ∈ f.blocks, ∀ next' types', f.nextValue ≤ next' → ∀ d,
      MovedIn { b with instrs := (legalInstrs b.instrs next' types').1 } d → MovedIn b d ∧ d < f.nextValue := by
    rintro b hb next' types' hn' d ⟨pre, j, post, e, hm⟩
    obtain ⟨p, i, q, e', m⟩ := moved_legal (hn.terms b hb) hn' e hm
    exact ⟨⟨p, i, q, e', m⟩, (hn.instrs b hb i (by rw [e']; simp)).2 d m.1⟩
  refine ⟨fun b' hb' => ?_, fun b' hb' => ?_, ⟨h.ordered.entry, fun k b' hk => ?_, fun k b' hk t ht v hv => ?_, fun d hd hpd => ?_,
    fun b' hb' d hd => ?_, fun j b' hj d hd k hk => ?_⟩⟩
  · obtain ⟨b, hb, n', t', g2, rfl, g4⟩ := hmem b' hb'
    exact typed_legalInstrs hT (hn.instrs b hb) (h.instrs b hb) g4
  · obtain ⟨b, hb, n', t', g2, rfl, g4⟩ := hmem b' hb'
    exact TermTyped.congr (h.terms b hb) rfl (fun v hv => hT v (hn.terms b hb v hv)) fun v hv => hT v (hn.returns v hv)
  · obtain ⟨b, n', t', g1, g2, rfl, g4⟩ := hblk k b' hk
    exact defined_legal (h.ordered.uses k b g1)
  · obtain ⟨b, n', t', g1, g2, rfl, g4⟩ := hblk k b' hk
    rcases h.ordered.succ k b g1 t ht v hv with h' | ⟨i, hi, hv'⟩
    · exact .inl h'
    · right
      have : v ∈ b.instrs.flatMap Instr.destinations := List.mem_flatMap.mpr ⟨i, hi, hv'⟩
      rw [← dests_legal (hn.instrs b (List.mem_of_getElem? g1)) g2] at this
      exact List.mem_flatMap.mp (List.mem_of_mem_filter this)
  · have : d ∈ Layout.locals f := by
      rw [← hloc, List.mem_filter]
      exact ⟨hd, by simpa using hp d hpd⟩
    exact h.ordered.params d this hpd
  · obtain ⟨b, hb, n', t', g2, rfl, g4⟩ := hmem b' hb'
    obtain ⟨h1, h2⟩ := hmoved b hb n' t' g2 d hd
    rw [hcount d h2]
    exact h.ordered.once b hb d h1
  · obtain ⟨b, n', t', g1, g2, rfl, g4⟩ := hblk j b' hj
    obtain ⟨h1, h2⟩ := hmoved b (List.mem_of_getElem? g1) n' t' g2 d hd
    exact h.ordered.order j b g1 d h1 k hk

theorem call_legal {is : List Instr} {next : ℕ} {types : ValueId → Option MirType} {ds : List ValueId} {c : ℕ}
    {args : List Value} {sig : Signature} (h : .Call ds c args sig ∈ (legalInstrs is next types).1) :
    .Call ds c args sig ∈ is := by
  induction is generalizing next types with
  | nil => simp [legalInstrs] at h
  | cons i is ih =>
    rw [legalInstrs_cons] at h
    rcases List.mem_append.mp h with h' | h'
    · rcases legalInstr_shape i next types with ⟨j, e, hj⟩ | ⟨d, op, l, r, op', l', r', rfl, hop, hop', hlr, e⟩
      · rw [e, List.mem_singleton] at h'
        rcases hj with rfl | ⟨d, l, r, rfl, rfl⟩
        · rw [h']; simp
        · cases h'
      · rw [e] at h'
        simp at h'
    · exact List.mem_cons_of_mem _ (ih h')

/-- The conditions on a module carry over to what the code generator works on. -/
theorem moduleOk_legal {md : Module} (h : ModuleOk md) (hn : ∀ f ∈ md, Numbered f)
    (hp : ∀ f ∈ md, ∀ v ∈ f.params, v < f.nextValue) : ModuleOk (md.map legalFunction) := by
  refine ⟨fun f' hf' => ?_, fun f' hf' => ?_, fun f' hf' => ?_⟩
  all_goals obtain ⟨f, hf, rfl⟩ := List.mem_map.mp hf'
  · obtain ⟨live, hl⟩ := h.calling f hf
    exact ⟨live, calling_legal hl (hn f hf) (hp f hf)⟩
  · intro b' hb'
    rw [List.getLast?_eq_getElem?] at hb'
    obtain ⟨b, n', t', g1, g2, rfl, g4⟩ := legalBlocks_typed f.blocks f.nextValue f.types _ b' hb'
    refine h.ends f hf b ?_
    have hlen : (legalFunction f).blocks.length = f.blocks.length := by
      have : ∀ (bs : List Block) next types, (legalBlocks bs next types).1.length = bs.length := by
        intro bs
        induction bs with
        | nil => intros; rfl
        | cons b bs ih => intros; simp [legalBlocks, ih]
      exact this _ _ _
    rw [List.getLast?_eq_getElem?, ← hlen]
    exact g1
  · intro b' hb' ds c args sig hc
    obtain ⟨id, hid⟩ := List.getElem?_of_mem hb'
    obtain ⟨b, n', t', g1, g2, rfl, g4⟩ := legalBlocks_typed f.blocks f.nextValue f.types id b' hid
    obtain ⟨g, h1, h2, h3⟩ := h.calls f hf b (List.mem_of_getElem? g1) ds c args sig (call_legal hc)
    have hg : g ∈ md := List.mem_of_getElem? h1
    have hT : ∀ v, v < g.nextValue → (legalFunction g).types v = g.types v :=
      (legalBlocks_spec g.blocks g.nextValue g.types).2.1
    refine ⟨legalFunction g, by rw [List.getElem?_map, h1]; rfl, ?_, ?_⟩
    · rw [← h2]
      exact List.map_congr_left fun v hv => hT v (hp g hg v hv)
    · rw [← h3]
      exact List.map_congr_left fun v hv => hT v ((hn g hg).returns v hv)

end Codegen
end CairoM
