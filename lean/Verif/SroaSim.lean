import Verif.SroaLemmas

/-! # Replacement of aggregates: simulation of a block -/

namespace CairoM
namespace Mir
namespace Sroa

open Agg Lang

/-! ### Types of values -/

theorem hasTyB_operand {types : ValueId → Option MirType} {t : MirType} {v : ValueId} (h : hasTyB types t (.Operand v) = true) :
    types v = some t := by
  simp only [hasTyB] at h
  split at h
  · rename_i s hs; rw [hs, tyEq_sound _ _ h]
  · simp at h

theorem haveTysB_get {types : ValueId → Option MirType} : ∀ {ts : List MirType} {vs : List Value} {k : ℕ} {t : MirType} {v : Value},
    haveTysB types ts vs = true → ts[k]? = some t → vs[k]? = some v → hasTyB types t v = true
  | [], [], k, _, _, _, h, _ => by simp at h
  | [], _ :: _, _, _, _, h, _, _ => by simp [haveTysB] at h
  | _ :: _, [], _, _, _, h, _, _ => by simp [haveTysB] at h
  | a :: ts, b :: vs, 0, t, v, h, ht, hv => by
    simp only [haveTysB, Bool.and_eq_true] at h
    simp only [List.getElem?_cons_zero, Option.some.injEq] at ht hv
    subst ht hv; exact h.1
  | a :: ts, b :: vs, k + 1, t, v, h, ht, hv => by
    simp only [haveTysB, Bool.and_eq_true] at h
    simp only [List.getElem?_cons_succ] at ht hv
    exact haveTysB_get h.2 ht hv

theorem haveTysB_set {types : ValueId → Option MirType} : ∀ {ts : List MirType} {vs : List Value} {k : ℕ} {t : MirType} {v : Value},
    haveTysB types ts vs = true → ts[k]? = some t → hasTyB types t v = true → haveTysB types ts (vs.set k v) = true
  | [], [], k, _, _, _, h, _ => by simp at h
  | [], _ :: _, _, _, _, h, _, _ => by simp [haveTysB] at h
  | _ :: _, [], _, _, _, h, _, _ => by simp [haveTysB] at h
  | a :: ts, b :: vs, 0, t, v, h, ht, hv => by
    simp only [haveTysB, Bool.and_eq_true, List.set_cons_zero] at h ⊢
    simp only [List.getElem?_cons_zero, Option.some.injEq] at ht
    subst ht; exact ⟨hv, h.2⟩
  | a :: ts, b :: vs, k + 1, t, v, h, ht, hv => by
    simp only [haveTysB, Bool.and_eq_true, List.set_cons_succ] at h ⊢
    simp only [List.getElem?_cons_succ] at ht
    exact ⟨h.1, haveTysB_set h.2 ht hv⟩

theorem readAllA_set {ρ : AEnv} : ∀ {ts : List MirType} {vs : List Value} {xs : List AVal} {k : ℕ} {t : MirType} {v : Value}
    {x : AVal}, readAllA ρ ts vs = some xs → ts[k]? = some t → readA ρ t v = some x →
    readAllA ρ ts (vs.set k v) = some (xs.set k x)
  | [], [], _, k, _, _, _, _, h, _ => by simp at h
  | [], _ :: _, _, _, _, _, _, h, _, _ => by simp [readAllA] at h
  | _ :: _, [], _, _, _, _, _, h, _, _ => by simp [readAllA] at h
  | a :: ts, b :: vs, xs, 0, t, v, x, h, ht, hv => by
    simp only [readAllA, Option.bind_eq_some_iff, Option.map_eq_some_iff, List.set_cons_zero] at h ⊢
    obtain ⟨y, _, ys, h2, rfl⟩ := h
    simp only [List.getElem?_cons_zero, Option.some.injEq] at ht
    subst ht
    exact ⟨x, hv, ys, h2, rfl⟩
  | a :: ts, b :: vs, xs, k + 1, t, v, x, h, ht, hv => by
    simp only [readAllA, Option.bind_eq_some_iff, Option.map_eq_some_iff, List.set_cons_succ] at h ⊢
    obtain ⟨y, h1, ys, h2, rfl⟩ := h
    simp only [List.getElem?_cons_succ] at ht
    exact ⟨y, h1, _, readAllA_set h2 ht hv, rfl⟩

theorem readAllA_get {ρ : AEnv} : ∀ {ts : List MirType} {vs : List Value} {xs : List AVal} {k : ℕ} {t : MirType} {v : Value},
    readAllA ρ ts vs = some xs → ts[k]? = some t → vs[k]? = some v → readA ρ t v = xs[k]?
  | [], [], _, k, _, _, _, h, _ => by simp at h
  | [], _ :: _, _, _, _, _, h, _, _ => by simp [readAllA] at h
  | _ :: _, [], _, _, _, _, h, _, _ => by simp [readAllA] at h
  | a :: ts, b :: vs, xs, 0, t, v, h, ht, hv => by
    simp only [readAllA, Option.bind_eq_some_iff, Option.map_eq_some_iff] at h
    obtain ⟨y, h1, ys, h2, rfl⟩ := h
    simp only [List.getElem?_cons_zero, Option.some.injEq] at ht hv
    subst ht hv
    simpa using h1
  | a :: ts, b :: vs, xs, k + 1, t, v, h, ht, hv => by
    simp only [readAllA, Option.bind_eq_some_iff, Option.map_eq_some_iff] at h
    obtain ⟨y, h1, ys, h2, rfl⟩ := h
    simp only [List.getElem?_cons_succ] at ht hv ⊢
    exact readAllA_get h2 ht hv

theorem readAllA_length {ρ : AEnv} : ∀ {ts : List MirType} {vs : List Value} {xs : List AVal},
    readAllA ρ ts vs = some xs → vs.length = ts.length ∧ xs.length = ts.length
  | [], [], xs, h => by simp only [readAllA, Option.some.injEq] at h; subst h; simp
  | [], _ :: _, _, h => by simp [readAllA] at h
  | _ :: _, [], _, h => by simp [readAllA] at h
  | a :: ts, b :: vs, xs, h => by
    simp only [readAllA, Option.bind_eq_some_iff, Option.map_eq_some_iff] at h
    obtain ⟨y, _, ys, h2, rfl⟩ := h
    have := readAllA_length h2
    simp [this.1, this.2]

theorem fromStructFields_eq (given : List (Name × Value)) : ∀ (fs : List (Name × MirType)),
    fromStructFields given fs = inOrder given fs
  | [] => rfl
  | f :: fs => by
    simp only [fromStructFields, inOrder, fromStructFields_eq given fs]
    cases List.lookup f.1 given <;> rfl

theorem structFieldIndex_eq (ty : MirType) (n : Name) : structFieldIndex ty n = fieldIndex ty n := by cases ty <;> rfl

theorem valuesIds_set {vs : List Value} {k : ℕ} {v : Value} {x : ValueId} (h : x ∈ valuesIds (vs.set k v)) :
    x ∈ valuesIds vs ∨ x ∈ v.ids := by
  simp only [valuesIds, List.mem_flatMap] at h ⊢
  obtain ⟨w, hw, hx⟩ := h
  rcases List.mem_or_eq_of_mem_set hw with h | h
  · exact .inl ⟨w, h, hx⟩
  · subst h; exact .inr hx

theorem valuesIds_get {vs : List Value} {k : ℕ} {v : Value} {x : ValueId} (h : vs[k]? = some v) (hx : x ∈ v.ids) :
    x ∈ valuesIds vs := by
  simp only [valuesIds, List.mem_flatMap]
  exact ⟨v, List.mem_of_getElem? h, hx⟩

/-! ### The invariant -/

/-- A tracked aggregate: its components give its elements. -/
def Good (T : ValueId → Option MirType) (ρ : AEnv) (id : ValueId) (es : List Value) : Prop :=
  ∃ ty ts xs, T id = some ty ∧ elementTys ty = some ts ∧ ρ id = some (.agg xs) ∧ readAllA ρ ts es = some xs ∧
    haveTysB T ts es = true

/-- The invariant within a block; `S` are the names seen so far. -/
structure Inv (N : ℕ) (T : ValueId → Option MirType) (S : List ValueId) (st : St) (ρ : AEnv) : Prop where
  types : ∀ v, v < N → st.types v = T v
  next : N ≤ st.next
  seen : ∀ v ∈ S, v < N
  tracked : ∀ id es, st.states.lookup id = some es → id ∈ S ∧ (∀ v ∈ valuesIds es, v ∈ S) ∧ Good T ρ id es

theorem Good.stable {T : ValueId → Option MirType} {ρ ρ' : AEnv} {id : ValueId} {es : List Value} (h : Good T ρ id es)
    (h1 : ρ' id = ρ id) (h2 : ∀ v ∈ valuesIds es, ρ' v = ρ v) : Good T ρ' id es := by
  obtain ⟨ty, ts, xs, a, b, c, d, e⟩ := h
  exact ⟨ty, ts, xs, a, b, h1 ▸ c, by rw [readAllA_congr h2]; exact d, e⟩

theorem Inv.stable {N : ℕ} {T : ValueId → Option MirType} {S S' : List ValueId} {st : St} {ρ ρ' : AEnv} (h : Inv N T S st ρ)
    (hs : ∀ v ∈ S, v ∈ S') (hS : ∀ v ∈ S', v < N) (hr : ∀ v ∈ S, ρ' v = ρ v) : Inv N T S' st ρ' where
  types := h.types
  next := h.next
  seen := hS
  tracked id es he := by
    obtain ⟨a, b, c⟩ := h.tracked id es he
    exact ⟨hs _ a, fun v hv => hs _ (b v hv), c.stable (hr _ a) fun v hv => hr _ (b v hv)⟩

theorem Inv.track {N : ℕ} {T : ValueId → Option MirType} {S : List ValueId} {st : St} {ρ : AEnv} (h : Inv N T S st ρ)
    {d : ValueId} {es : List Value} (hd : d ∈ S) (he : ∀ v ∈ valuesIds es, v ∈ S) (hg : Good T ρ d es) :
    Inv N T S (st.track d es) ρ where
  types := h.types
  next := h.next
  seen := h.seen
  tracked id es' hl := by
    simp only [St.track, List.lookup_cons] at hl
    by_cases e : id = d
    · subst e
      simp only [beq_self_eq_true, Option.some.injEq] at hl
      subst hl
      exact ⟨hd, he, hg⟩
    · simp only [beq_eq_false_iff_ne.2 e] at hl
      exact h.tracked id es' hl

theorem Inv.fresh {N : ℕ} {T : ValueId → Option MirType} {S : List ValueId} {st : St} {ρ : AEnv} (h : Inv N T S st ρ)
    (ty : MirType) : Inv N T S (st.fresh ty) ρ where
  types v hv := by
    have : v ≠ st.next := Nat.ne_of_lt (Nat.lt_of_lt_of_le hv h.next)
    simp [St.fresh, this, h.types v hv]
  next := Nat.le_succ_of_le h.next
  seen := h.seen
  tracked := h.tracked

theorem Inv.modified {N : ℕ} {T : ValueId → Option MirType} {S : List ValueId} {st : St} {ρ : AEnv} (h : Inv N T S st ρ)
    (b : Bool) : Inv N T S { st with modified := b } ρ where
  types := h.types
  next := h.next
  seen := h.seen
  tracked := h.tracked

/-! ### Growth of the state -/

/-- What later steps keep of a state. -/
def Grows (a b : St) : Prop :=
  a.next ≤ b.next ∧ (∀ v, v < a.next → b.types v = a.types v) ∧ ∀ v ∈ a.states.map Prod.fst, v ∈ b.states.map Prod.fst

theorem Grows.refl (a : St) : Grows a a := ⟨Nat.le_refl _, fun _ _ => rfl, fun _ h => h⟩

theorem Grows.trans {a b c : St} (h : Grows a b) (k : Grows b c) : Grows a c :=
  ⟨Nat.le_trans h.1 k.1, fun v hv => (k.2.1 v (Nat.lt_of_lt_of_le hv h.1)).trans (h.2.1 v hv), fun v hv => k.2.2 v (h.2.2 v hv)⟩

theorem grows_track (st : St) (d : ValueId) (es : List Value) : Grows st (st.track d es) :=
  ⟨Nat.le_refl _, fun _ _ => rfl, fun v hv => by simp only [St.track, List.map_cons, List.mem_cons]; exact .inr hv⟩

theorem grows_fresh (st : St) (ty : MirType) : Grows st (st.fresh ty) :=
  ⟨Nat.le_succ _, fun v hv => by simp [St.fresh, Nat.ne_of_lt hv], fun _ h => h⟩

theorem grows_modified (st : St) (b : Bool) : Grows st { st with modified := b } := ⟨Nat.le_refl _, fun _ _ => rfl, fun _ h => h⟩

theorem materialize_st {st st' : St} {es : List Value} {ty : MirType} {is : List Instr}
    (h : materialize st es ty = some (is, st')) : st' = st.fresh ty := by
  unfold materialize at h
  split at h
  · simp only [Option.some.injEq, Prod.mk.injEq] at h; exact h.2.symm
  · simp only [Option.some.injEq, Prod.mk.injEq] at h; exact h.2.symm
  · split_ifs at h; simp only [Option.some.injEq, Prod.mk.injEq] at h; exact h.2.symm
  · simp only [Option.some.injEq, Prod.mk.injEq] at h; exact h.2.symm

theorem grows_materialize {st st' : St} {es : List Value} {ty : MirType} {is : List Instr}
    (h : materialize st es ty = some (is, st')) : Grows st st' := materialize_st h ▸ grows_fresh st ty

theorem grows_callArgs : ∀ {as : List Value} {ps : List MirType} {st st' : St} {is : List Instr} {bs : List Value},
    callArgs st as ps = some (is, bs, st') → Grows st st'
  | [], _, st, st', is, bs, h => by
    simp only [callArgs, Option.some.injEq, Prod.mk.injEq] at h; rw [← h.2.2]; exact Grows.refl _
  | _ :: _, [], st, st', is, bs, h => by
    simp only [callArgs, Option.some.injEq, Prod.mk.injEq] at h; rw [← h.2.2]; exact Grows.refl _
  | a :: as, p :: ps, st, st', is, bs, h => by
    simp only [callArgs] at h
    split at h
    · split at h
      · simp at h
      · rename_i hm
        simp only [Option.map_eq_some_iff, Prod.exists, Prod.mk.injEq] at h
        obtain ⟨_, _, _, hr, _, _, rfl⟩ := h
        exact (grows_materialize hm).trans (grows_callArgs hr)
    · simp only [Option.map_eq_some_iff, Prod.exists, Prod.mk.injEq] at h
      obtain ⟨_, _, _, hr, _, _, rfl⟩ := h
      exact grows_callArgs hr

theorem grows_storeChain {st st' : St} {new : Value} : ∀ {ps : List Projection} {v : Value},
    storeChain st new ps v = some st' → Grows st st'
  | [], v, h => by cases v <;> simp [storeChain] at h
  | p :: ps, .Operand id, h => by
    simp only [storeChain] at h
    split at h
    · split_ifs at h
      · simp only [Option.some.injEq] at h; subst h; exact grows_track _ _ _
      · exact grows_storeChain h
    · simp at h
  | _ :: _, .Literal _, h => by simp [storeChain] at h
  | _ :: _, .Error, h => by simp [storeChain] at h

theorem grows_tryStore {st st' : St} {p : Place} {new : Value} (h : tryStore st p new = some st') : Grows st st' := by
  unfold tryStore at h
  split at h
  · split at h
    · split_ifs at h
      · simp only [Option.some.injEq] at h; subst h; exact grows_track _ _ _
      · exact grows_storeChain h
    · simp at h
  · simp at h

theorem grows_extract (st : St) (d : ValueId) (v : Value) (ty : MirType) : Grows st (extract st d v ty).2 := by
  unfold extract
  split
  · exact grows_track _ _ _
  · exact grows_modified _ _

theorem grows_step {cross : List ValueId} {instrs : List Instr} {st st' : St} {i : Instr} {js : List Instr}
    (h : step cross instrs st i = some (js, st')) : Grows st st' := by
  have key : ∀ {x : List Instr} {a : St}, some (x, a) = some (js, st') → Grows st a → Grows st st' := by
    intro x a e g
    simp only [Option.some.injEq, Prod.mk.injEq] at e
    rw [← e.2]; exact g
  unfold step at h
  split at h
  · split_ifs at h
    · exact key h (grows_track _ _ _)
    · exact key h (Grows.refl _)
  · split_ifs at h
    · split at h
      · exact key h (grows_track _ _ _)
      · exact key h (Grows.refl _)
    · exact key h (Grows.refl _)
  · split_ifs at h
    · exact key h (grows_track _ _ _)
    · exact key h (Grows.refl _)
  · split at h
    · split_ifs at h
      · exact key h (grows_track _ _ _)
      · exact key h (Grows.refl _)
    · exact key h (Grows.refl _)
  · split at h
    · split_ifs at h
      · exact key h (grows_track _ _ _)
      · exact key h (Grows.refl _)
    · exact key h (Grows.refl _)
  · split at h
    · split at h
      · exact key h (grows_extract _ _ _ _)
      · exact key h (Grows.refl _)
    · exact key h (Grows.refl _)
  · split at h
    · split at h
      · exact key h (grows_extract _ _ _ _)
      · exact key h (Grows.refl _)
    · exact key h (Grows.refl _)
  · split at h
    · split at h
      · split at h
        · split_ifs at h
          · exact key h (grows_track _ _ _)
          · exact key h (grows_modified _ _)
        · exact key h (grows_modified _ _)
      · exact key h (Grows.refl _)
    · exact key h (Grows.refl _)
  · split at h
    · rename_i hs
      exact key h (grows_tryStore hs)
    · split at h
      · simp only [Option.map_eq_some_iff, Prod.exists, Prod.mk.injEq] at h
        obtain ⟨_, _, hm, _, rfl⟩ := h
        exact grows_materialize hm
      · exact key h (Grows.refl _)
  · split at h
    · exact key h (grows_track _ _ _)
    · exact key h (Grows.refl _)
  · simp only [Option.map_eq_some_iff, Prod.exists, Prod.mk.injEq] at h
    obtain ⟨_, _, _, hm, _, rfl⟩ := h
    exact grows_callArgs hm
  · exact key h (Grows.refl _)

theorem grows_steps {cross : List ValueId} {instrs : List Instr} : ∀ {is : List Instr} {st st' : St} {js : List Instr},
    steps cross instrs is st = some (js, st') → Grows st st'
  | [], st, st', js, h => by
    simp only [steps, Option.some.injEq, Prod.mk.injEq] at h; rw [← h.2]; exact Grows.refl _
  | i :: is, st, st', js, h => by
    simp only [steps] at h
    split at h
    · simp at h
    · rename_i hs
      simp only [Option.map_eq_some_iff, Prod.exists, Prod.mk.injEq] at h
      obtain ⟨_, _, hr, _, rfl⟩ := h
      exact (grows_step hs).trans (grows_steps hr)

theorem grows_returnValues {types : ValueId → Option MirType} : ∀ {vs : List Value} {st st' : St} {is : List Instr}
    {ws : List Value}, returnValues types st vs = some (is, ws, st') → Grows st st'
  | [], st, st', is, ws, h => by
    simp only [returnValues, Option.some.injEq, Prod.mk.injEq] at h; rw [← h.2.2]; exact Grows.refl _
  | v :: vs, st, st', is, ws, h => by
    simp only [returnValues] at h
    split at h
    · split at h
      · split at h
        · simp at h
        · rename_i hm
          simp only [Option.map_eq_some_iff, Prod.exists, Prod.mk.injEq] at h
          obtain ⟨_, _, _, hr, _, _, rfl⟩ := h
          exact (grows_materialize hm).trans (grows_returnValues hr)
      · simp only [Option.map_eq_some_iff, Prod.exists, Prod.mk.injEq] at h
        obtain ⟨_, _, _, hr, _, _, rfl⟩ := h
        exact grows_returnValues hr
    · simp only [Option.map_eq_some_iff, Prod.exists, Prod.mk.injEq] at h
      obtain ⟨_, _, _, hr, _, _, rfl⟩ := h
      exact grows_returnValues hr

theorem grows_terminator {st st' : St} {t t' : Terminator} {is : List Instr} (h : terminator st t = some (is, t', st')) :
    Grows st st' := by
  unfold terminator at h
  split at h
  · simp only [Option.map_eq_some_iff, Prod.exists, Prod.mk.injEq] at h
    obtain ⟨_, _, _, hr, _, _, rfl⟩ := h
    exact grows_returnValues hr
  · simp only [Option.some.injEq, Prod.mk.injEq] at h; rw [← h.2.2]; exact Grows.refl _

end Sroa
end Mir
end CairoM
