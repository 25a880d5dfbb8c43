import Verif.AggregateLiteralLemmas

/-!
# Struct and tuple literals hold the listed values (C94)
-/

namespace CairoM
namespace Codegen

open Mir Lang Relation Abi

/-- **C94** for structs. If code is generated for a struct literal that lists each field once, with `val n` the words
of the value listed for `n`, then it runs to its end, reading any listed field `n` of the new struct gives a value with
the words `val n`, whatever the order in which the fields are listed, and nothing outside the cells of the struct has
changed. -/
theorem C94_struct {fp : M31} {lo hi : ℤ} (w : Window fp lo hi) {types : ValueId → Option MirType} {b b' : Builder}
    {dest : ValueId} {nm : Name} {tfs : List (Name × MirType)} {fs : List (Name × Value)} {val : Name → List M31}
    {m : Isa.Mem}
    (h : b.makeStruct dest fs (.Struct nm tfs) = .ok b') (hty : types dest = some (.Struct nm tfs))
    (hnd : (fs.map Prod.fst).Nodup)
    (h1 : lo ≤ homeOf b.layout dest) (h2 : homeOf b.layout dest + MirType.memSizeFields tfs ≤ hi)
    (hs : ∀ p ∈ fs, ∀ t, MirType.lookupField tfs p.1 = some t →
      Listed b.layout m fp lo hi (homeOf b.layout dest) (MirType.memSizeFields tfs) t.memSize p.2 (val p.1)) :
    ∃ m', straight fp ((emitted b b').map IB.inner) m = some m' ∧
      (∀ p ∈ fs, ∃ t, MirType.lookupField tfs p.1 = some t ∧ ∀ d, ∃ b'' s,
        b'.extractField types d (.Operand dest) p.1 t = .ok b'' ∧ b''.instrs = b'.instrs ∧
        b''.layout.values d = some s ∧ Words m' fp s.off (val p.1)) ∧
      (∀ a, (∀ c, homeOf b.layout dest ≤ c ∧ c < homeOf b.layout dest + MirType.memSizeFields tfs → a ≠ adr fp c) →
        m' a = m a) ∧
      (∀ v, v ≠ dest → b'.layout.values v = b.layout.values v) := by
  unfold Builder.makeStruct at h
  obtain ⟨a1, a2, ⟨s0, a3, a3'⟩, a4, a5⟩ := allocated (b := b) (dest := dest) (size := (MirType.Struct nm tfs).memSize)
  rw [a1] at h
  obtain ⟨hl, code, m', g1, g2, g3, _, g5⟩ := makeFields_spec (val := val) (m := m) w h1 h2 h hnd
    fun p hp t ht => (hs p hp t ht).keep a4 fun _ _ _ _ => rfl
  refine ⟨m', ?_, ?_, g5, fun v hv => by rw [hl, a5 v hv]⟩
  · unfold emitted
    rw [g1, a2, List.drop_left]
    exact g2
  · intro p hp
    obtain ⟨o, t, ho, ht, hw⟩ := g3 p hp
    refine ⟨t, ht, fun d => ⟨b'.insertSlot d (Slot.of (s0.off + o) t.memSize), Slot.of (s0.off + o) t.memSize, ?_, rfl, ?_, ?_⟩⟩
    · simp only [Builder.extractField, Layout.getOffset, hl, a3, hty, MirType.fieldOffset, ho, bind, Except.bind]
    · simp [Builder.insertSlot, Layout.insert]
    · have : (Slot.of (s0.off + o) t.memSize).off = s0.off + o := by unfold Slot.of; split <;> rfl
      rw [this, a3']
      exact hw

/-- **C94** for tuples. If code is generated for a well-typed tuple literal with `xss` the words of its elements, then it
runs to its end, reading the element `i` of the new tuple gives a value with the words `xss[i]`, and nothing outside the
cells of the tuple has changed. -/
theorem C94_tuple {fp : M31} {lo hi : ℤ} (w : Window fp lo hi) {types : ValueId → Option MirType} {b b' : Builder}
    {dest : ValueId} {ts : List MirType} {vs : List Value} {xss : List (List M31)} {m : Isa.Mem}
    (h : b.makeTuple types dest vs = .ok b') (hty : types dest = some (.Tuple ts)) (hlen : vs.length = ts.length)
    (htys : ∀ (j : ℕ) v t, vs[j]? = some v → ts[j]? = some t → ElemType types v t)
    (h1 : lo ≤ homeOf b.layout dest) (h2 : homeOf b.layout dest + MirType.memSizes ts ≤ hi)
    (hs : List.Forall₂ (fun p xs => Listed b.layout m fp lo hi (homeOf b.layout dest) (MirType.memSizes ts) p.2.memSize p.1 xs)
      (vs.zip ts) xss) :
    ∃ m', straight fp ((emitted b b').map IB.inner) m = some m' ∧
      (∀ (i : ℕ) xs, xss[i]? = some xs → ∃ t, ts[i]? = some t ∧ ∀ d, ∃ b'' s,
        b'.extractTuple types d (.Operand dest) i t = .ok b'' ∧ b''.instrs = b'.instrs ∧
        b''.layout.values d = some s ∧ Words m' fp s.off xs) ∧
      (∀ a, (∀ c, homeOf b.layout dest ≤ c ∧ c < homeOf b.layout dest + MirType.memSizes ts → a ≠ adr fp c) →
        m' a = m a) ∧
      (∀ v, v ≠ dest → b'.layout.values v = b.layout.values v) := by
  have hsz : b.elementSizes types dest 0 vs = ts.map MirType.memSize := by
    rw [elementSizes_typed hty (by omega) (by simpa using htys), List.drop_zero]
  simp only [Builder.makeTuple, hsz] at h
  obtain ⟨a1, a2, ⟨s0, a3, a3'⟩, a4, a5⟩ := allocated (b := b) (dest := dest) (size := (ts.map MirType.memSize).sum)
  rw [a1] at h
  have hzip : vs.zip (ts.map MirType.memSize) = (vs.zip ts).map fun p => (p.1, p.2.memSize) := by
    rw [List.zip_map_right]; rfl
  have hxl : List.Forall₂ (fun t xs => xs.length = t.memSize) ts xss := by
    have e : ts = (vs.zip ts).map Prod.snd := by rw [List.map_snd_zip (by omega)]
    rw [e, List.forall₂_map_left_iff]
    exact hs.imp fun p xs hp => hp.length
  have hw := wrote_copyElements (m := m) (xss := xss) w h1 h2 h le_rfl (by
      rw [List.map_snd_zip (by simp [hlen]), sum_memSize]) (by
    rw [hzip, List.forall₂_map_left_iff]
    exact hs.imp fun p xs hp => hp.keep a4 fun _ _ _ _ => rfl)
  obtain ⟨hl, code, m', g1, g2, g3, _, g5⟩ := hw
  have htot := flatten_length hxl
  refine ⟨m', ?_, ?_, fun a ha => g5 a fun o ho => ha o (by rw [htot] at ho; exact ho), fun v hv => by rw [hl, a5 v hv]⟩
  · unfold emitted
    rw [g1, a2, List.drop_left]
    exact g2
  · intro i xs hi'
    have hil : i < ts.length := by
      rw [hxl.length_eq]
      by_contra hc
      rw [List.getElem?_eq_none (by omega)] at hi'
      cases hi'
    refine ⟨ts[i], List.getElem?_eq_getElem hil, fun d =>
      ⟨b'.insertSlot d (Slot.of (s0.off + (MirType.memSizes (ts.take i) : ℕ)) ts[i].memSize),
        Slot.of (s0.off + (MirType.memSizes (ts.take i) : ℕ)) ts[i].memSize, ?_, rfl, ?_, ?_⟩⟩
    · simp only [Builder.extractTuple, Layout.getOffset, hl, a3, hty, MirType.tupleOffset, bind, Except.bind]
      rw [if_neg (by omega)]
    · simp [Builder.insertSlot, Layout.insert]
    · have : (Slot.of (s0.off + (MirType.memSizes (ts.take i) : ℕ)) ts[i].memSize).off =
          s0.off + (MirType.memSizes (ts.take i) : ℕ) := by unfold Slot.of; split <;> rfl
      rw [this, a3']
      intro j x hj
      have := g3 _ x (flatten_get hxl hi' hj)
      rw [← this]
      congr 2
      push_cast
      omega

/-! ### Non-vacuity -/

/-- `fn m(a: felt) -> felt { let p = P{y: 7, x: a}; return p.F; }` for a field `F`. -/
def fieldOf (n : Name) : Function :=
  ⟨['m'], [⟨[.MakeStruct 1 [(['y'], .Literal (.Integer 7)), (['x'], .Operand 0)] pointTy,
     .ExtractStructField 2 (.Operand 1) n .Felt], .Return [.Operand 2]⟩], [0], [2], 3,
    types [(0, .Felt), (1, pointTy), (2, .Felt)]⟩

example : feltsOf (compileRun 100 [fieldOf ['x']] ['m'] [.felt] [.felt] [.number 3]) = some [3] ∧
    feltsOf (compileRun 100 [fieldOf ['y']] ['m'] [.felt] [.felt] [.number 3]) = some [7] := by decide +kernel

/-- A builder with one felt in the slot -4. -/
def feltBuilder : Builder := Builder.new ⟨fun v => if v = 0 then some (.slot (-4)) else none, 0, 1⟩ 0

/-- The hypotheses of `C94_struct` are met by the literal of `fieldOf` on a memory where the parameter is 3. -/
example : ∃ b', feltBuilder.makeStruct 1 [(['y'], .Literal (.Integer 7)), (['x'], .Operand 0)] pointTy = .ok b' ∧
    homeOf feltBuilder.layout 1 = 0 ∧ Window 100 (-4) 2 ∧
    ∀ p ∈ [(['y'], Value.Literal (.Integer 7)), (['x'], .Operand 0)], ∀ t,
      MirType.lookupField [(['x'], .Felt), (['y'], .Felt)] p.1 = some t →
      Listed feltBuilder.layout (put (fun _ => ⟨0, 0, 0, 0⟩) 96 3) 100 (-4) 2 0 2 t.memSize p.2
        (if p.1 = ['x'] then [3] else [residue 7]) := by
  refine ⟨_, rfl, rfl, ⟨by decide +kernel, by decide +kernel⟩, ?_⟩
  intro p hp t ht
  simp only [List.mem_cons, List.not_mem_nil, or_false] at hp
  rcases hp with rfl | rfl
  · cases ht
    exact .inl ⟨rfl, rfl⟩
  · cases ht
    refine ⟨.slot (-4), rfl, by decide, by decide, by decide, rfl, ?_⟩
    intro i x hi
    match i, hi with
    | 0, hi => cases hi; decide +kernel
    | i + 1, hi => simp at hi

/-- The hypotheses of `C94_tuple` are met by the literal `(a, 70000u32, true)`. -/
example : ∃ b', feltBuilder.makeTuple (types [(0, .Felt), (1, .Tuple [.Felt, .U32, .Bool])]) 1
      [.Operand 0, .Literal (.Integer 70000), .Literal (.Boolean true)] = .ok b' ∧
    List.Forall₂ (fun p xs => Listed feltBuilder.layout (put (fun _ => ⟨0, 0, 0, 0⟩) 96 3) 100 (-4) 4
        (homeOf feltBuilder.layout 1) 4 p.2.memSize p.1 xs)
      [(.Operand 0, MirType.Felt), (.Literal (.Integer 70000), .U32), (.Literal (.Boolean true), .Bool)]
      [[3], [residue 4464, residue 1], [1]] := by
  refine ⟨_, rfl, .cons ?_ (.cons (.inr ⟨rfl, rfl⟩) (.cons ⟨rfl, rfl⟩ .nil))⟩
  refine ⟨.slot (-4), rfl, by decide, by decide, by decide, rfl, ?_⟩
  intro i x hi
  match i, hi with
  | 0, hi => cases hi; decide +kernel
  | i + 1, hi => simp at hi

end Codegen
end CairoM
