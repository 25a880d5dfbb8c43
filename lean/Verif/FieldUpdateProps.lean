import Verif.FieldUpdateLemmas

/-!
# Updating a field does not change the other fields and values (C64)
-/

namespace CairoM
namespace Codegen

open Mir Lang Relation Abi

/-- What holds after an aggregate at offset `base` with the words `ws` had the words at `o` replaced by `xs`. -/
theorem update_core {fp : M31} {lo hi base : ℤ} (w : Window fp lo hi) {b b1 b2 : Builder} {m : Isa.Mem} {o k : ℕ}
    {new : Value} {ws xs : List M31} {d2 : ValueId} {s2 : Slot}
    (hc : b1.copyValueTo new (base + o) k = .ok b2) (hi1 : b1.instrs = b.instrs)
    (h1 : lo ≤ base) (h2 : base + ws.length ≤ hi) (ho : o + k ≤ ws.length) (hw : Words m fp base ws)
    (hv : NewWords b1.layout m fp lo hi (base + o) k new xs) :
    b2.layout = b1.layout ∧ xs.length = k ∧
    ∃ m', straight fp ((emitted b (b2.insertSlot d2 s2)).map IB.inner) m = some m' ∧
      Words m' fp base (replaced ws o xs) ∧
      (∀ c, lo ≤ c → c < hi → (c < base + o ∨ base + o + k ≤ c) → Isa.felt m' (adr fp c) = Isa.felt m (adr fp c)) ∧
      (∀ a, (∀ c, base + o ≤ c ∧ c < base + o + k → a ≠ adr fp c) → m' a = m a) := by
  obtain ⟨hk, hl, code, m', g1, g2, g3, g4, g5⟩ := wrote_copyValueTo w hc (by omega) (by omega) hv
  subst hk
  refine ⟨hl, rfl, m', ?_, words_update hw ho h1 h2 g3 g4, g4, g5⟩
  unfold emitted
  simp only [Builder.insertSlot, g1, hi1, List.drop_left]
  exact g2

/-- **C64** (partial: the field read before is not the one updated). A field `n1` is read from a struct and then
another field `n` of the struct is assigned. If the words of the struct in the frame are `ws`, those of the new value
are `xs`, and code is generated for both instructions, then it runs to its end and afterwards

* the value read before still has the words the field `n1` had before the update,
* the updated struct has the words `ws` with those of the field `n` replaced by `xs`,
* no memory outside the cells of the field `n` has changed, and the slots of all other values are what they were.

For `n1 = n` the statement is false: `C64_violated`. -/
theorem C64_partial {fp : M31} {lo hi : ℤ} (w : Window fp lo hi) {types : ValueId → Option MirType} {b b1 b2 : Builder}
    {id d1 d2 : ValueId} {n1 n : Name} {t1 ty : MirType} {new : Value} {m : Isa.Mem} {s : Slot} {ws xs : List M31}
    {o1 o : ℕ} {t : MirType}
    (hread : b.extractField types d1 (.Operand id) n1 t1 = .ok b1)
    (hupd : b1.insertField d2 (.Operand id) n new ty = .ok b2)
    (hty : types id = some ty) (ht1 : ty.fieldType n1 = some t1) (ht : ty.fieldType n = some t)
    (ho1 : ty.fieldOffset n1 = some o1) (ho : ty.fieldOffset n = some o)
    (hne : n1 ≠ n) (hd1 : d1 ≠ id) (hd2 : d2 ≠ d1)
    (hs : b.layout.values id = some s) (h1 : lo ≤ s.off) (h2 : s.off + ty.memSize ≤ hi)
    (hlen : ws.length = ty.memSize) (hw : Words m fp s.off ws)
    (hv : NewWords b1.layout m fp lo hi (s.off + o) t.memSize new xs) :
    ∃ m' s1 s2, straight fp ((emitted b b2).map IB.inner) m = some m' ∧
      b2.layout.values d1 = some s1 ∧ Words m' fp s1.off (slice ws o1 t1.memSize) ∧
      b2.layout.values d2 = some s2 ∧ Words m' fp s2.off (replaced ws o xs) ∧
      (∀ a, (∀ c, s.off + o ≤ c ∧ c < s.off + o + t.memSize → a ≠ adr fp c) → m' a = m a) ∧
      (∀ v, v ≠ d1 → v ≠ d2 → b2.layout.values v = b.layout.values v) := by
  cases ty with
  | Struct nm fs =>
    simp only [Builder.extractField, Layout.getOffset, hs, hty, ho1, bind, Except.bind, Except.ok.injEq] at hread
    subst hread
    have hs' : (b.insertSlot d1 (Slot.of (s.off + o1) t1.memSize)).layout.values id = some s := by
      simpa [Builder.insertSlot, Layout.insert, Function.update_of_ne hd1.symm] using hs
    simp only [Builder.insertField, Layout.getOffset, hs', ho, ht, bind, Except.bind] at hupd
    split at hupd
    · cases hupd
    · rename_i b3 hb3
      cases hupd
      simp only [MirType.fieldType, MirType.fieldOffset] at ht ht1 ho ho1
      simp only [MirType.memSize] at hlen h2
      have f1 := field_in ho ht
      have f2 := field_in ho1 ht1
      have f3 := fields_disjoint hne ho1 ht1 ho ht
      obtain ⟨hl, hk, m', g1, g2, g3, g4⟩ := update_core (b := b) (d2 := d2)
        (s2 := Slot.of s.off (MirType.Struct nm fs).memSize) w hb3 rfl h1 (by omega) (by omega) hw hv
      have ofoff : ∀ c z, (Slot.of c z).off = c := fun c z => by unfold Slot.of; split <;> rfl
      refine ⟨m', Slot.of (s.off + o1) t1.memSize, Slot.of s.off (MirType.Struct nm fs).memSize, g1, ?_, ?_, ?_, ?_, g4, ?_⟩
      · simp [Builder.insertSlot, Layout.insert, hl, Function.update_of_ne hd2.symm]
      · rw [ofoff]
        intro i x hi'
        have hp := hw.part o1 t1.memSize i x hi'
        have hlt := Words.lt hi'
        rw [slice, List.length_take] at hlt
        rw [g3 _ (by omega) (by omega) (by omega)]
        exact hp
      · simp [Builder.insertSlot, Layout.insert]
      · rw [ofoff]; exact g2
      · intro v v1 v2
        simp [Builder.insertSlot, Layout.insert, hl, Function.update_of_ne v1, Function.update_of_ne v2]
  | _ => simp [MirType.fieldOffset] at ho

/-- **C64** for tuples (partial: the element read before is not the one updated). -/
theorem C64_tuple_partial {fp : M31} {lo hi : ℤ} (w : Window fp lo hi) {types : ValueId → Option MirType}
    {b b1 b2 : Builder} {id d1 d2 : ValueId} {i1 i : ℕ} {ts : List MirType} {t1 t : MirType} {new : Value} {m : Isa.Mem}
    {s : Slot} {ws xs : List M31}
    (hread : b.extractTuple types d1 (.Operand id) i1 t1 = .ok b1)
    (hupd : b1.insertTuple d2 (.Operand id) i new (.Tuple ts) = .ok b2)
    (hty : types id = some (.Tuple ts)) (ht1 : ts[i1]? = some t1) (ht : ts[i]? = some t)
    (hne : i1 ≠ i) (hd1 : d1 ≠ id) (hd2 : d2 ≠ d1)
    (hs : b.layout.values id = some s) (h1 : lo ≤ s.off) (h2 : s.off + MirType.memSizes ts ≤ hi)
    (hlen : ws.length = MirType.memSizes ts) (hw : Words m fp s.off ws)
    (hv : NewWords b1.layout m fp lo hi (s.off + MirType.memSizes (ts.take i)) t.memSize new xs) :
    ∃ m' s1 s2, straight fp ((emitted b b2).map IB.inner) m = some m' ∧
      b2.layout.values d1 = some s1 ∧ Words m' fp s1.off (slice ws (MirType.memSizes (ts.take i1)) t1.memSize) ∧
      b2.layout.values d2 = some s2 ∧ Words m' fp s2.off (replaced ws (MirType.memSizes (ts.take i)) xs) ∧
      (∀ a, (∀ c, s.off + MirType.memSizes (ts.take i) ≤ c ∧ c < s.off + MirType.memSizes (ts.take i) + t.memSize →
        a ≠ adr fp c) → m' a = m a) ∧
      (∀ v, v ≠ d1 → v ≠ d2 → b2.layout.values v = b.layout.values v) := by
  have lt : ∀ {j : ℕ} {u : MirType}, ts[j]? = some u → j < ts.length := fun {j u} h => by
    by_contra hc
    rw [List.getElem?_eq_none (by omega)] at h
    cases h
  have l1 := lt ht1
  have l2 := lt ht
  have ho1 : (MirType.Tuple ts).tupleOffset i1 = some (MirType.memSizes (ts.take i1)) := by
    simp only [MirType.tupleOffset]; rw [if_neg (by omega)]
  have ho : (MirType.Tuple ts).tupleOffset i = some (MirType.memSizes (ts.take i)) := by
    simp only [MirType.tupleOffset]; rw [if_neg (by omega)]
  have he : (MirType.Tuple ts).tupleElementType i = some t := ht
  simp only [Builder.extractTuple, Layout.getOffset, hs, hty, ho1, bind, Except.bind, Except.ok.injEq] at hread
  subst hread
  have hs' : (b.insertSlot d1 (Slot.of (s.off + (MirType.memSizes (ts.take i1) : ℕ)) t1.memSize)).layout.values id =
      some s := by
    simpa [Builder.insertSlot, Layout.insert, Function.update_of_ne hd1.symm] using hs
  simp only [Builder.insertTuple, Layout.getOffset, hs', ho, he, bind, Except.bind] at hupd
  split at hupd
  · cases hupd
  · rename_i b3 hb3
    cases hupd
    have f1 := elements_ordered l2 ht
    have f2 := elements_ordered l1 ht1
    rw [List.take_length] at f1 f2
    have f3 : MirType.memSizes (ts.take i1) + t1.memSize ≤ MirType.memSizes (ts.take i) ∨
        MirType.memSizes (ts.take i) + t.memSize ≤ MirType.memSizes (ts.take i1) := by
      rcases Nat.lt_or_gt_of_ne hne with c | c
      · exact .inl (elements_ordered c ht1)
      · exact .inr (elements_ordered c ht)
    obtain ⟨hl, hk, m', g1, g2, g3, g4⟩ := update_core (b := b) (d2 := d2)
      (s2 := Slot.of s.off (MirType.Tuple ts).memSize) w hb3 rfl h1 (by omega) (by omega) hw hv
    have ofoff : ∀ c z, (Slot.of c z).off = c := fun c z => by unfold Slot.of; split <;> rfl
    refine ⟨m', Slot.of (s.off + (MirType.memSizes (ts.take i1) : ℕ)) t1.memSize,
      Slot.of s.off (MirType.Tuple ts).memSize, g1, ?_, ?_, ?_, ?_, g4, ?_⟩
    · simp [Builder.insertSlot, Layout.insert, hl, Function.update_of_ne hd2.symm]
    · rw [ofoff]
      intro j x hi'
      have hp := hw.part (MirType.memSizes (ts.take i1)) t1.memSize j x hi'
      have hlt := Words.lt hi'
      rw [slice, List.length_take] at hlt
      rw [g3 _ (by omega) (by omega) (by omega)]
      exact hp
    · simp [Builder.insertSlot, Layout.insert]
    · rw [ofoff]; exact g2
    · intro v v1 v2
      simp [Builder.insertSlot, Layout.insert, hl, Function.update_of_ne v1, Function.update_of_ne v2]

/-! ### Non-vacuity -/

/-- `fn m(p: P) -> felt { let old = p.y; p.x = 5; return old; }` -/
def keepOther : Function :=
  ⟨['m'], [⟨[.ExtractStructField 1 (.Operand 0) ['y'] .Felt,
     .InsertField 2 (.Operand 0) ['x'] (.Literal (.Integer 5)) pointTy], .Return [.Operand 1]⟩], [0], [1], 3,
    types [(0, pointTy), (1, .Felt), (2, pointTy)]⟩

example : feltsOf (compileRun 100 [keepOther] ['m'] [.struct "P" [("x", .felt), ("y", .felt)]] [.felt]
    [.struct [.number 3, .number 4]]) = some [4] := by decide +kernel

/-- A builder with the struct of `keepOther` in the slots -6 and -5. -/
def pointBuilder : Builder := Builder.new ⟨fun v => if v = 0 then some (.multi (-6) 2) else none, 0, 1⟩ 0

/-- The memory holding the words 3 and 4 in these slots, the frame starting at 100. -/
def pointMem : Isa.Mem := put (put (fun _ => ⟨0, 0, 0, 0⟩) 94 3) 95 4

/-- The hypotheses of `C64_partial` are met by the body of `keepOther` on the struct `P { x: 3, y: 4 }`, also when the
new value is the field read before. -/
example (new : Value) (x : M31) (h : new = .Literal (.Integer 5) ∧ x = residue 5 ∨ new = .Operand 1 ∧ x = 4) :
    ∃ b1 b2, pointBuilder.extractField (types [(0, pointTy)]) 1 (.Operand 0) ['y'] .Felt = .ok b1 ∧
      b1.insertField 2 (.Operand 0) ['x'] new pointTy = .ok b2 ∧
      pointTy.fieldType ['y'] = some .Felt ∧ pointTy.fieldType ['x'] = some .Felt ∧
      pointTy.fieldOffset ['y'] = some 1 ∧ pointTy.fieldOffset ['x'] = some 0 ∧
      pointBuilder.layout.values 0 = some (.multi (-6) 2) ∧ Window 100 (-6) 0 ∧
      Words pointMem 100 (-6) [3, 4] ∧ NewWords b1.layout pointMem 100 (-6) 0 (-6 + (0 : ℕ)) 1 new [x] := by
  have hw : Words pointMem 100 (-6) [3, 4] := by
    intro i x hi
    match i, hi with
    | 0, hi => cases hi; decide +kernel
    | 1, hi => cases hi; decide +kernel
    | i + 2, hi => simp at hi
  rcases h with ⟨rfl, rfl⟩ | ⟨rfl, rfl⟩
  · refine ⟨_, _, rfl, rfl, rfl, rfl, rfl, rfl, rfl, ⟨by decide +kernel, by decide +kernel⟩, hw, .inl ⟨rfl, rfl⟩⟩
  · refine ⟨_, _, rfl, rfl, rfl, rfl, rfl, rfl, rfl, ⟨by decide +kernel, by decide +kernel⟩, hw, .slot (-5), rfl, by decide,
      by decide, by decide, rfl, ?_⟩
    intro i x hi
    match i, hi with
    | 0, hi => cases hi; decide +kernel
    | i + 1, hi => simp at hi

end Codegen
end CairoM
