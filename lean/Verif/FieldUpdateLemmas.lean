import Verif.FieldUpdateSpec

/-!
# Copying a value into the cells of a field: helper lemmas (C64)
-/

namespace CairoM
namespace Codegen

open Mir Lang Relation Abi

/-- The result of code that writes the words `xs` at offset `dst` and nothing else. -/
def Wrote (fp : M31) (lo hi dst : ℤ) (xs : List M31) (b b' : Builder) (m : Isa.Mem) : Prop :=
  b'.layout = b.layout ∧ ∃ code m', b'.instrs = b.instrs ++ code ∧ straight fp (code.map IB.inner) m = some m' ∧
    Words m' fp dst xs ∧
    (∀ o, lo ≤ o → o < hi → (o < dst ∨ dst + xs.length ≤ o) → Isa.felt m' (adr fp o) = Isa.felt m (adr fp o)) ∧
    (∀ a, (∀ o, dst ≤ o ∧ o < dst + xs.length → a ≠ adr fp o) → m' a = m a)

theorem wrote_one {fp : M31} {lo hi dst : ℤ} (w : Window fp lo hi) {x : M31} {b : Builder} {i : Instruction} {m : Isa.Mem}
    {r : List M31} {pc : M31} (h1 : lo ≤ dst) (h2 : dst < hi)
    (hs : Isa.sem i 0 fp m = some ⟨r, [(adr fp dst, x)], pc, fp⟩) : Wrote fp lo hi dst [x] b (b.push i) m := by
  refine ⟨rfl, [⟨i, none⟩], put m (adr fp dst) x, rfl, ?_, ?_, ?_, ?_⟩
  · rw [List.map_cons, straight_cons (m' := put m (adr fp dst) x) hs rfl]; rfl
  · intro j y hj
    cases j with
    | zero =>
      simp only [List.getElem?_cons_zero, Option.some.injEq] at hj
      subst hj
      simpa using felt_put_same (w.inRange h1 h2)
    | succ j => simp at hj
  · intro o a1 a2 a3
    refine felt_put_ne fun e => ?_
    have := w.inj a1 a2 h1 h2 e
    simp only [List.length_cons, List.length_nil, zero_add, Nat.cast_one] at a3
    omega
  · intro a ha
    exact Function.update_of_ne (ha dst (by simp)) _ _

theorem Wrote.snoc {fp : M31} {lo hi dst : ℤ} {xs : List M31} {b b1 : Builder} {m : Isa.Mem} {x : M31} {i : Instruction}
    (w : Window fp lo hi) (h1 : lo ≤ dst) (h2 : dst + xs.length < hi) (h : Wrote fp lo hi dst xs b b1 m)
    (hs : ∀ m1, Words m1 fp dst xs →
      (∀ o, lo ≤ o → o < hi → (o < dst ∨ dst + xs.length ≤ o) → Isa.felt m1 (adr fp o) = Isa.felt m (adr fp o)) →
      ∃ r pc, Isa.sem i 0 fp m1 = some ⟨r, [(adr fp (dst + xs.length), x)], pc, fp⟩) :
    Wrote fp lo hi dst (xs ++ [x]) b (b1.push i) m := by
  obtain ⟨hl, code, m1, g1, g2, g3, g4, g5⟩ := h
  obtain ⟨r, pc, hs⟩ := hs m1 g3 g4
  obtain ⟨_, c2, m2, k1, k2, k3, k4, k5⟩ := wrote_one (b := b1) w (by omega) h2 hs
  refine ⟨hl, code ++ c2, m2, by rw [k1, g1, List.append_assoc], ?_, ?_, ?_, ?_⟩
  · rw [List.map_append, straight_append g2, k2]
  · intro j y hj
    rcases Nat.lt_or_ge j xs.length with hlt | hge
    · rw [List.getElem?_append_left hlt] at hj
      rw [k4 _ (by omega) (by omega) (.inl (by omega))]
      exact g3 j y hj
    · rw [List.getElem?_append_right hge] at hj
      have : j = xs.length := by
        by_contra hc
        rw [List.getElem?_eq_none (by simp; omega)] at hj
        cases hj
      subst this
      simpa using k3 0 y (by simpa using hj)
  · intro o a1 a2 a3
    simp only [List.length_append, List.length_cons, List.length_nil, zero_add, Nat.cast_add, Nat.cast_one] at a3
    rw [k4 o a1 a2 (by simp only [List.length_cons, List.length_nil, zero_add, Nat.cast_one]; omega)]
    exact g4 o a1 a2 (by omega)
  · intro a ha
    simp only [List.length_append, List.length_cons, List.length_nil, zero_add, Nat.cast_add, Nat.cast_one] at ha
    rw [k5 a fun o ho => ha o (by simp only [List.length_cons, List.length_nil, zero_add, Nat.cast_one] at ho; omega)]
    exact g5 a fun o ho => ha o (by omega)

/-- The copying loop, for cells of the source that are those of the destination or disjoint from them. -/
theorem wrote_copySlots {fp : M31} {lo hi src dst : ℤ} (w : Window fp lo hi) {b : Builder} {m : Isa.Mem} {N : ℕ}
    (s1 : lo ≤ src) (s2 : src + N ≤ hi) (d1 : lo ≤ dst) (d2 : dst + N ≤ hi)
    (hdis : src = dst ∨ src + N ≤ dst ∨ dst + N ≤ src) {xs : List M31} (hlen : xs.length ≤ N) (hw : Words m fp src xs) :
    Wrote fp lo hi dst xs b (b.copySlots src dst xs.length) m := by
  induction xs using List.reverseRecOn with
  | nil =>
    exact ⟨rfl, [], m, by simp [Builder.copySlots], rfl, fun i x h => by simp at h, fun _ _ _ _ => rfl, fun _ _ => rfl⟩
  | append_singleton xs x ih =>
    rw [List.length_append] at hlen
    simp only [List.length_cons, List.length_nil, zero_add] at hlen
    have hw' : Words m fp src xs := by
      intro i y hi'
      have hlt : i < xs.length := by
        by_contra hc
        rw [List.getElem?_eq_none (by omega)] at hi'
        cases hi'
      exact hw i y (by rw [List.getElem?_append_left hlt]; exact hi')
    have hx : Isa.felt m (adr fp (src + xs.length)) = some x := hw xs.length x (by simp)
    have := Wrote.snoc (i := .StoreAddFpImm (ofI32 (src + xs.length)) (ofI32 0) (ofI32 (dst + xs.length))) (x := x) w d1
      (by omega) (ih (by omega) hw') ?_
    · simpa [Builder.copySlots, Builder.copySingle, Builder.feltAddImm] using this
    · intro m1 _ hsame
      have hr : Isa.felt m1 (adr fp (src + xs.length)) = some x := by
        rw [hsame _ (by omega) (by omega) (by omega)]; exact hx
      have := sem_addImm (imm := ofI32 0) (pc := 0) (adr_ofI32 fp (src + xs.length)) (adr_ofI32 fp (dst + xs.length)) hr
        (w.inRange (by omega) (by omega))
      rw [show ofI32 0 = 0 from rfl, add_zero] at this
      exact ⟨_, _, this⟩

/-- `copy_value_to_offset` writes the words of the value. -/
theorem wrote_copyValueTo {fp : M31} {lo hi dst : ℤ} (w : Window fp lo hi) {b b' : Builder} {m : Isa.Mem} {k : ℕ}
    {v : Value} {xs : List M31} (h : b.copyValueTo v dst k = .ok b') (d1 : lo ≤ dst) (d2 : dst + k ≤ hi)
    (hv : NewWords b.layout m fp lo hi dst k v xs) : xs.length = k ∧ Wrote fp lo hi dst xs b b' m := by
  cases v with
  | Error => exact hv.elim
  | Operand id =>
    obtain ⟨s, hs, h1, h2, h3, h4, h5⟩ := hv
    subst h4
    refine ⟨rfl, ?_⟩
    have := wrote_copySlots (b := b) w h1 h2 d1 d2 h3 le_rfl h5
    unfold Builder.copyValueTo at h
    split at h
    · rename_i h0
      cases h
      rw [h0] at this
      exact this
    · simp only [Layout.getOffset, hs, Except.ok.injEq] at h
      subst h
      exact this
  | Literal lit =>
    cases lit with
    | Unit =>
      obtain ⟨rfl, rfl⟩ := hv
      simp only [Builder.copyValueTo, if_true, Except.ok.injEq] at h
      subst h
      exact ⟨rfl, rfl, [], m, by simp, rfl, fun i x h => by simp at h, fun _ _ _ _ => rfl, fun _ _ => rfl⟩
    | Boolean c =>
      obtain ⟨rfl, rfl⟩ := hv
      refine ⟨rfl, ?_⟩
      simp only [Builder.copyValueTo, one_ne_zero, if_false, Except.ok.injEq] at h
      subst h
      have := sem_imm (m := m) (pc := 0) (imm := toM31 (Builder.boolWord c)) (adr_ofI32 fp dst)
        (w.inRange d1 (by push_cast at d2; omega))
      have e : toM31 (Builder.boolWord c) = if c then 1 else 0 := by
        cases c <;> simp [Builder.boolWord, toM31]
      rw [e] at this
      rw [Builder.storeImm, e]
      exact wrote_one w d1 (by push_cast at d2; omega) this
    | Integer c =>
      rcases hv with ⟨rfl, rfl⟩ | ⟨rfl, rfl⟩
      · refine ⟨rfl, ?_⟩
        simp only [Builder.copyValueTo, one_ne_zero, if_false, if_true, Except.ok.injEq] at h
        subst h
        have := sem_imm (m := m) (pc := 0) (imm := toM31 c) (adr_ofI32 fp dst)
          (w.inRange d1 (by push_cast at d2; omega))
        have e : residue c.toNat = toM31 c := by unfold residue toM31; rfl
        rw [e]
        exact wrote_one w d1 (by push_cast at d2; omega) this
      · refine ⟨rfl, ?_⟩
        simp only [Builder.copyValueTo, OfNat.ofNat_ne_zero, if_false, if_true, Except.ok.injEq,
          OfNat.ofNat_ne_one] at h
        subst h
        push_cast at d2
        have r0 := w.inRange (o := dst) (by omega) (by omega)
        have r1 := w.inRange (o := dst + 1) (by omega) (by omega)
        have hs := sem_u32Lit (pc := 0) (m := m) (adr_ofI32 fp dst) (ofLimbs_lit c) r0 (by rw [← adr_succ]; exact r1)
        have hne : adr fp dst ≠ adr fp (dst + 1) := fun e => by
          have := w.inj (by omega) (by omega) (by omega) (by omega) e
          omega
        have e0 : residue (c.toNat % 2 ^ 16) = ((c.toNat % 2 ^ 16 : ℕ) : M31) := by unfold residue; rfl
        have e1 : residue (c.toNat / 2 ^ 16) = ((c.toNat / 2 ^ 16 : ℕ) : M31) := by unfold residue; rfl
        have hm : Isa.write m (Isa.split (adr fp dst) c.toNat) =
            put (put m (adr fp dst) (residue (c.toNat % 2 ^ 16))) (adr fp (dst + 1)) (residue (c.toNat / 2 ^ 16)) := by
          rw [e0, e1, adr_succ]; rfl
        refine ⟨rfl, [⟨_, none⟩], _, rfl, (straight_cons (is := []) hs hm).trans rfl, ?_, ?_, ?_⟩
        · intro j y hj
          match j, hj with
          | 0, hj =>
            simp only [List.getElem?_cons_zero, Option.some.injEq] at hj
            subst hj
            rw [Nat.cast_zero, add_zero, felt_put_ne hne]
            exact felt_put_same r0
          | 1, hj =>
            simp only [List.getElem?_cons_succ, List.getElem?_cons_zero, Option.some.injEq] at hj
            subst hj
            rw [Nat.cast_one]
            exact felt_put_same r1
          | j + 2, hj => simp at hj
        · intro o a1 a2 a3
          simp only [List.length_cons, List.length_nil, zero_add, Nat.reduceAdd, Nat.cast_ofNat] at a3
          rw [felt_put_ne fun e => by have := w.inj a1 a2 (by omega) (by omega) e; omega,
            felt_put_ne fun e => by have := w.inj a1 a2 (by omega) (by omega) e; omega]
        · intro a ha
          simp only [List.length_cons, List.length_nil, zero_add, Nat.reduceAdd, Nat.cast_ofNat] at ha
          have n0 := ha dst (by omega)
          have n1 := ha (dst + 1) (by omega)
          simp only [put, Function.update_of_ne n0, Function.update_of_ne n1]

/-! ### Layout of structs and tuples -/

/-- A field lies within the struct. -/
theorem field_in {fs : List (Name × MirType)} {n : Name} {a off : ℕ} {t : MirType}
    (h : MirType.fieldOffsetFrom fs n a = some off) (ht : MirType.lookupField fs n = some t) :
    a ≤ off ∧ off + t.memSize ≤ a + MirType.memSizeFields fs := by
  induction fs generalizing a with
  | nil => cases h
  | cons f fs ih =>
    obtain ⟨n', t'⟩ := f
    simp only [MirType.fieldOffsetFrom, MirType.lookupField, MirType.memSizeFields] at h ht ⊢
    split at h
    · rename_i e
      rw [if_pos e] at ht
      cases h; cases ht
      omega
    · rename_i e
      rw [if_neg e] at ht
      have := ih h ht
      omega

/-- Fields with different names do not overlap. -/
theorem fields_disjoint {fs : List (Name × MirType)} {n n' : Name} (hne : n ≠ n') {a off off' : ℕ} {t t' : MirType}
    (h : MirType.fieldOffsetFrom fs n a = some off) (ht : MirType.lookupField fs n = some t)
    (h' : MirType.fieldOffsetFrom fs n' a = some off') (ht' : MirType.lookupField fs n' = some t') :
    off + t.memSize ≤ off' ∨ off' + t'.memSize ≤ off := by
  induction fs generalizing a with
  | nil => cases h
  | cons f fs ih =>
    obtain ⟨m, u⟩ := f
    simp only [MirType.fieldOffsetFrom, MirType.lookupField] at h ht h' ht'
    by_cases e : m = n
    · have e' : ¬ m = n' := fun c => hne (e.symm.trans c)
      rw [if_pos e] at h ht
      rw [if_neg e'] at h' ht'
      cases h; cases ht
      exact .inl (field_in h' ht').1
    · rw [if_neg e] at h ht
      by_cases e' : m = n'
      · rw [if_pos e'] at h' ht'
        cases h'; cases ht'
        exact .inr (field_in h ht).1
      · rw [if_neg e'] at h' ht'
        exact ih h ht h' ht'

theorem memSizes_append (ts us : List MirType) :
    MirType.memSizes (ts ++ us) = MirType.memSizes ts + MirType.memSizes us := by
  induction ts with
  | nil => simp [MirType.memSizes]
  | cons t ts ih => simp only [List.cons_append, MirType.memSizes, ih]; omega

/-- Elements of a tuple follow each other. -/
theorem elements_ordered {ts : List MirType} {i j : ℕ} (hij : i < j) {t : MirType} (ht : ts[i]? = some t) :
    MirType.memSizes (ts.take i) + t.memSize ≤ MirType.memSizes (ts.take j) := by
  have hi : i < ts.length := by
    by_contra hc
    rw [List.getElem?_eq_none (by omega)] at ht
    cases ht
  have e : ts.take j = ts.take i ++ (t :: (ts.take j).drop (i + 1)) := by
    have h1 : (ts.take j)[i]? = some t := by rw [List.getElem?_take_of_lt hij]; exact ht
    obtain ⟨h2, h3⟩ := List.getElem?_eq_some_iff.mp h1
    conv_lhs => rw [← List.take_append_drop i (ts.take j)]
    rw [List.take_take, Nat.min_eq_left (by omega), List.drop_eq_getElem_cons h2, h3]
  rw [e, memSizes_append]
  simp only [MirType.memSizes]
  omega

/-! ### Words of a part and of an updated value -/

theorem Words.part {m : Isa.Mem} {fp : M31} {off : ℤ} {ws : List M31} (h : Words m fp off ws) (o k : ℕ) :
    Words m fp (off + o) ((ws.drop o).take k) := by
  intro i x hi
  rw [List.getElem?_take] at hi
  split at hi
  · rw [List.getElem?_drop] at hi
    have := h (o + i) x hi
    rw [← this]
    congr 2
    push_cast
    omega
  · cases hi

theorem Words.lt {ws : List M31} {i : ℕ} {x : M31} (h : ws[i]? = some x) : i < ws.length := by
  by_contra hc
  rw [List.getElem?_eq_none (by omega)] at h
  cases h

/-- Words of a value of which a part has been overwritten. -/
theorem words_update {m m' : Isa.Mem} {fp : M31} {lo hi base : ℤ} {ws xs : List M31} {o : ℕ}
    (h : Words m fp base ws) (ho : o + xs.length ≤ ws.length) (h1 : lo ≤ base) (h2 : base + ws.length ≤ hi)
    (hx : Words m' fp (base + o) xs)
    (hsame : ∀ c, lo ≤ c → c < hi → (c < base + o ∨ base + o + xs.length ≤ c) →
      Isa.felt m' (adr fp c) = Isa.felt m (adr fp c)) :
    Words m' fp base (ws.take o ++ xs ++ ws.drop (o + xs.length)) := by
  intro i x hi'
  have hto : (ws.take o).length = o := by rw [List.length_take]; omega
  rcases Nat.lt_or_ge i o with c1 | c1
  · rw [List.append_assoc, List.getElem?_append_left (by omega), List.getElem?_take_of_lt c1] at hi'
    rw [hsame _ (by omega) (by have := Words.lt hi'; omega) (.inl (by omega))]
    exact h i x hi'
  · rcases Nat.lt_or_ge i (o + xs.length) with c2 | c2
    · rw [List.getElem?_append_left (by rw [List.length_append]; omega), List.getElem?_append_right (by omega), hto] at hi'
      have := hx (i - o) x hi'
      rw [← this]
      congr 2
      omega
    · rw [List.getElem?_append_right (by rw [List.length_append]; omega), List.getElem?_drop, List.length_append, hto,
        show o + xs.length + (i - (o + xs.length)) = i by omega] at hi'
      rw [hsame _ (by omega) (by have := Words.lt hi'; omega) (.inr (by omega))]
      exact h i x hi'

end Codegen
end CairoM
