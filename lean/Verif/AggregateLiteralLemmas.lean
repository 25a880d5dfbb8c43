import Verif.AggregateLiteralSpec

/-!
# The code of struct and tuple literals: helper lemmas (C94)
-/

namespace CairoM
namespace Codegen

open Mir Lang Relation Abi

theorem Listed.newWords {l : Layout} {m : Isa.Mem} {fp : M31} {lo hi base dst : ℤ} {size k : ℕ} {v : Value} {xs : List M31}
    (h : Listed l m fp lo hi base size k v xs) (h1 : base ≤ dst) (h2 : dst + k ≤ base + size) :
    NewWords l m fp lo hi dst k v xs := by
  cases v with
  | Operand id =>
    obtain ⟨s, a1, a2, a3, a4, a5, a6⟩ := h
    exact ⟨s, a1, a2, a3, by omega, a5, a6⟩
  | Literal lit => cases lit <;> exact h
  | Error => exact h

/-- Writing inside the literal does not change the listed values. -/
theorem Listed.keep {l l' : Layout} {m m' : Isa.Mem} {fp : M31} {lo hi base : ℤ} {size k : ℕ} {v : Value} {xs : List M31}
    (h : Listed l m fp lo hi base size k v xs) (hl : ∀ id s, l.values id = some s → l'.values id = some s)
    (hm : ∀ o, lo ≤ o → o < hi → (o < base ∨ base + size ≤ o) → Isa.felt m' (adr fp o) = Isa.felt m (adr fp o)) :
    Listed l' m' fp lo hi base size k v xs := by
  cases v with
  | Operand id =>
    obtain ⟨s, a1, a2, a3, a4, a5, a6⟩ := h
    refine ⟨s, hl _ _ a1, a2, a3, a4, a5, ?_⟩
    intro i x hi'
    have := Words.lt hi'
    rw [hm _ (by omega) (by omega) (by omega)]
    exact a6 i x hi'
  | Literal lit => cases lit <;> exact h
  | Error => exact h

theorem Listed.length {l : Layout} {m : Isa.Mem} {fp : M31} {lo hi base : ℤ} {size k : ℕ} {v : Value} {xs : List M31}
    (h : Listed l m fp lo hi base size k v xs) : xs.length = k := by
  cases v with
  | Operand id => obtain ⟨s, a1, a2, a3, a4, a5, a6⟩ := h; exact a5
  | Literal lit =>
    cases lit with
    | Integer c => rcases h with ⟨rfl, rfl⟩ | ⟨rfl, rfl⟩ <;> rfl
    | Boolean c => obtain ⟨rfl, rfl⟩ := h; rfl
    | Unit => obtain ⟨rfl, rfl⟩ := h; rfl
  | Error => exact h.elim

/-! ### Tuples -/

/-- Two pieces of code that write adjacent words. -/
theorem Wrote.append {fp : M31} {lo hi dst : ℤ} {xs ys : List M31} {b b1 b2 : Builder} {m : Isa.Mem}
    (h1 : lo ≤ dst) (h2 : dst + xs.length ≤ hi) (h : Wrote fp lo hi dst xs b b1 m)
    (h' : ∀ m1, (∀ o, lo ≤ o → o < hi → (o < dst ∨ dst + xs.length ≤ o) →
        Isa.felt m1 (adr fp o) = Isa.felt m (adr fp o)) → Wrote fp lo hi (dst + xs.length) ys b1 b2 m1) :
    Wrote fp lo hi dst (xs ++ ys) b b2 m := by
  obtain ⟨hl, code, m1, g1, g2, g3, g4, g5⟩ := h
  obtain ⟨hl', c2, m2, k1, k2, k3, k4, k5⟩ := h' m1 g4
  refine ⟨hl'.trans hl, code ++ c2, m2, by rw [k1, g1, List.append_assoc], ?_, ?_, ?_, ?_⟩
  · rw [List.map_append, straight_append g2, k2]
  · intro j y hj
    rcases Nat.lt_or_ge j xs.length with hlt | hge
    · rw [List.getElem?_append_left hlt] at hj
      rw [k4 _ (by omega) (by omega) (.inl (by omega))]
      exact g3 j y hj
    · rw [List.getElem?_append_right hge] at hj
      have := k3 _ y hj
      rw [← this]
      congr 2
      omega
  · intro o a1 a2 a3
    rw [List.length_append] at a3
    push_cast at a3
    rw [k4 o a1 a2 (by omega)]
    exact g4 o a1 a2 (by omega)
  · intro a ha
    rw [List.length_append] at ha
    push_cast at ha
    rw [k5 a fun o ho => ha o (by omega)]
    exact g5 a fun o ho => ha o (by omega)

/-- The copying loop of tuples writes the words of the elements one after the other. -/
theorem wrote_copyElements {fp : M31} {lo hi base : ℤ} {size : ℕ} (w : Window fp lo hi) (hb1 : lo ≤ base)
    (hb2 : base + size ≤ hi) {L : List (Value × ℕ)} {xss : List (List M31)} {off : ℤ} {b b' : Builder} {m : Isa.Mem}
    (h : Builder.copyElements L off b = .ok b') (h1 : base ≤ off) (h2 : off + (L.map Prod.snd).sum ≤ base + size)
    (hs : List.Forall₂ (fun p xs => Listed b.layout m fp lo hi base size p.2 p.1 xs) L xss) :
    Wrote fp lo hi off xss.flatten b b' m := by
  induction L generalizing off b m xss with
  | nil =>
    cases hs
    cases h
    exact ⟨rfl, [], m, by simp, rfl, fun i x h => by simp at h, fun _ _ _ _ => rfl, fun _ _ => rfl⟩
  | cons p L ih =>
    cases hs with
    | @cons _ xs _ xss hp hL =>
      obtain ⟨v, k⟩ := p
      simp only [Builder.copyElements, bind, Except.bind] at h
      simp only [List.map_cons, List.sum_cons, Nat.cast_add] at h2
      split at h
      · cases h
      · rename_i b1 hc
        obtain ⟨hk, hw⟩ := wrote_copyValueTo w hc (by omega) (by omega) (hp.newWords h1 (by omega))
        subst hk
        rw [List.flatten_cons]
        have hl := hw.1
        refine Wrote.append (by omega) (by omega) hw fun m1 hsame => ?_
        refine ih h (by omega) (by omega) (hL.imp fun p ys hys => ?_)
        exact hys.keep (by rw [hl]; exact fun _ _ h => h) fun o o1 o2 o3 => hsame o o1 o2 (by omega)

/-! ### Structs -/

/-- The copying loop of structs writes every listed field, in any order. -/
theorem makeFields_spec {fp : M31} {lo hi base : ℤ} {nm : Name} {tfs : List (Name × MirType)} (w : Window fp lo hi)
    (hb1 : lo ≤ base) (hb2 : base + MirType.memSizeFields tfs ≤ hi) {fs : List (Name × Value)} {val : Name → List M31}
    {b b' : Builder} {m : Isa.Mem} (h : Builder.makeFields (.Struct nm tfs) base fs b = .ok b')
    (hnd : (fs.map Prod.fst).Nodup)
    (hs : ∀ p ∈ fs, ∀ t, MirType.lookupField tfs p.1 = some t →
      Listed b.layout m fp lo hi base (MirType.memSizeFields tfs) t.memSize p.2 (val p.1)) :
    b'.layout = b.layout ∧ ∃ code m', b'.instrs = b.instrs ++ code ∧ straight fp (code.map IB.inner) m = some m' ∧
      (∀ p ∈ fs, ∃ o t, MirType.fieldOffsetFrom tfs p.1 0 = some o ∧ MirType.lookupField tfs p.1 = some t ∧
        Words m' fp (base + o) (val p.1)) ∧
      (∀ c, lo ≤ c → c < hi → (∀ p ∈ fs, ∀ o t, MirType.fieldOffsetFrom tfs p.1 0 = some o →
        MirType.lookupField tfs p.1 = some t → c < base + o ∨ base + o + t.memSize ≤ c) →
        Isa.felt m' (adr fp c) = Isa.felt m (adr fp c)) ∧
      (∀ a, (∀ c, base ≤ c ∧ c < base + MirType.memSizeFields tfs → a ≠ adr fp c) → m' a = m a) := by
  induction fs generalizing b m with
  | nil =>
    cases h
    exact ⟨rfl, [], m, by simp, rfl, by simp, fun _ _ _ _ => rfl, fun _ _ => rfl⟩
  | cons p fs ih =>
    obtain ⟨n, v⟩ := p
    simp only [Builder.makeFields, MirType.fieldOffset, MirType.fieldType, bind, Except.bind] at h
    split at h
    · rename_i o t ho ht
      split at h
      · cases h
      · rename_i b1 hc
        have fi := field_in ho ht
        have hv := hs (n, v) (by simp) t ht
        obtain ⟨hk, hl, c1, m1, g1, g2, g3, g4, g5⟩ := wrote_copyValueTo w hc (by omega) (by omega)
          (hv.newWords (by omega) (by omega))
        rw [List.map_cons, List.nodup_cons] at hnd
        obtain ⟨k0, c2, m2, k1, k2, k3, k4, k5⟩ := ih h hnd.2 (m := m1) (by
          intro p hp u hu
          refine (hs p (by simp [hp]) u hu).keep (by rw [hl]; exact fun _ _ h => h) fun c a1 a2 a3 => ?_
          exact g4 c a1 a2 (by rw [hk]; omega))
        refine ⟨k0.trans hl, c1 ++ c2, m2, by rw [k1, g1, List.append_assoc], ?_, ?_, ?_, ?_⟩
        · rw [List.map_append, straight_append g2, k2]
        · intro p hp
          rcases List.mem_cons.mp hp with rfl | hp
          · refine ⟨o, t, ho, ht, ?_⟩
            intro i x hi'
            have hlt := Words.lt hi'
            rw [k4 _ (by omega) (by omega) ?_]
            · exact g3 i x hi'
            · intro q hq o' t' ho' ht'
              have hne : n ≠ q.1 := fun e => hnd.1 (List.mem_map.mpr ⟨q, hq, e.symm⟩)
              have := fields_disjoint hne ho ht ho' ht'
              simp only at hlt hk
              omega
          · exact k3 p hp
        · intro c a1 a2 a3
          rw [k4 c a1 a2 fun q hq => a3 q (by simp [hq])]
          refine g4 c a1 a2 ?_
          rw [hk]
          exact a3 (n, v) (by simp) o t ho ht
        · intro a ha
          rw [k5 a ha]
          exact g5 a fun c hc => ha c (by rw [hk] at hc; omega)
    · cases h

theorem allocated {b : Builder} {dest : ValueId} {size : ℕ} :
    (b.allocateLocal dest size).1 = homeOf b.layout dest ∧ (b.allocateLocal dest size).2.instrs = b.instrs ∧
    (∃ s, (b.allocateLocal dest size).2.layout.values dest = some s ∧ s.off = homeOf b.layout dest) ∧
    (∀ id s, b.layout.values id = some s → (b.allocateLocal dest size).2.layout.values id = some s) ∧
    (∀ id, id ≠ dest → (b.allocateLocal dest size).2.layout.values id = b.layout.values id) := by
  unfold Builder.allocateLocal Layout.allocateLocal homeOf
  split
  · rename_i s hs
    exact ⟨by rw [hs], rfl, ⟨s, hs, by rw [hs]⟩, fun _ _ h => h, fun _ _ => rfl⟩
  · rename_i hs
    refine ⟨by rw [hs], rfl, ⟨_, by simp [Layout.insert]; rfl, by rw [hs]; unfold Slot.of; split <;> rfl⟩, ?_, ?_⟩
    · intro id s h
      have : id ≠ dest := fun e => by rw [e, hs] at h; cases h
      simpa [Layout.insert, Function.update_of_ne this] using h
    · intro id h
      simp [Layout.insert, Function.update_of_ne h]

/-- The sizes computed for the elements of a well-typed tuple literal. -/
theorem elementSizes_typed {b : Builder} {types : ValueId → Option MirType} {dest : ValueId} {ts : List MirType}
    (hd : types dest = some (.Tuple ts)) {vs : List Value} {i : ℕ} (hlen : i + vs.length = ts.length)
    (hty : ∀ (j : ℕ) v t, vs[j]? = some v → ts[i + j]? = some t → ElemType types v t) :
    b.elementSizes types dest i vs = (ts.drop i).map MirType.memSize := by
  induction vs generalizing i with
  | nil =>
    simp only [List.length_nil, add_zero] at hlen
    simp [Builder.elementSizes, List.drop_eq_nil_of_le hlen.ge]
  | cons v vs ih =>
    simp only [List.length_cons] at hlen
    have hi : i < ts.length := by omega
    rw [List.drop_eq_getElem_cons hi, List.map_cons, Builder.elementSizes, ih (by omega)]
    · congr 1
      have := hty 0 v ts[i] (by simp) (by simp)
      cases v with
      | Operand id => simp only [ElemType] at this; simp only [Builder.elementSize, this]
      | Literal l => simp only [Builder.elementSize, hd, List.getElem?_eq_getElem hi]
      | Error => exact this.elim
    · intro j u t hj ht
      exact hty (j + 1) u t (by simpa using hj) (by rw [← ht]; congr 1; omega)

/-- The part of a concatenation that comes from one of the lists. -/
theorem flatten_get {ts : List MirType} {xss : List (List M31)} (h : List.Forall₂ (fun t xs => xs.length = t.memSize) ts xss)
    {i : ℕ} {xs : List M31} (hi : xss[i]? = some xs) {j : ℕ} {x : M31} (hj : xs[j]? = some x) :
    xss.flatten[MirType.memSizes (ts.take i) + j]? = some x := by
  induction h generalizing i with
  | nil => simp at hi
  | @cons t ys ts xss hy _ ih =>
    cases i with
    | zero =>
      simp only [List.getElem?_cons_zero, Option.some.injEq] at hi
      subst hi
      have := Words.lt hj
      simp only [List.take_zero, MirType.memSizes, zero_add, List.flatten_cons]
      rw [List.getElem?_append_left this]
      exact hj
    | succ i =>
      simp only [List.getElem?_cons_succ] at hi
      simp only [List.take_succ_cons, MirType.memSizes, List.flatten_cons]
      rw [List.getElem?_append_right (by omega), ← ih hi]
      congr 1
      omega

theorem flatten_length {ts : List MirType} {xss : List (List M31)}
    (h : List.Forall₂ (fun t xs => xs.length = t.memSize) ts xss) : xss.flatten.length = MirType.memSizes ts := by
  induction h with
  | nil => rfl
  | cons e _ ih => rw [List.flatten_cons, List.length_append, e, ih, MirType.memSizes]

theorem sum_memSize (ts : List MirType) : (ts.map MirType.memSize).sum = MirType.memSizes ts := by
  induction ts with
  | nil => rfl
  | cons t ts ih => simp [MirType.memSizes, ih]

end Codegen
end CairoM
