import Verif.HeapProps

/-!
# Array and struct values in compiled programs (C63, C64, C65)
-/

namespace CairoM
namespace Codegen

open Mir Lang Relation Abi

theorem straight_append {fp : M31} {is js : List Instruction} {m m' : Isa.Mem} (h : straight fp is m = some m') :
    straight fp (is ++ js) m = straight fp js m' := by
  induction is generalizing m with
  | nil => simp only [straight, Option.some.injEq] at h; subst h; rfl
  | cons i is ih =>
    simp only [List.cons_append, straight] at h ⊢
    split at h
    · cases h
    · rename_i e he
      exact ih h

/-- An element of an array literal of felts, as written in the program: an operand held in a slot of the frame
between `lo` and `top`, or an integer literal. -/
def Element (l : Layout) (m : Isa.Mem) (fp : M31) (lo top : ℤ) (v : Value) (x : M31) : Prop :=
  match v with
  | .Operand id => ∃ s, l.values id = some s ∧ lo ≤ s.off ∧ s.off < top ∧ Isa.felt m (adr fp s.off) = some x
  | .Literal (.Integer k) => x = residue k.toNat
  | _ => False

/-- The code of the copying loop for felts. -/
theorem arrayElements_felt {fp : M31} {lo hi top : ℤ} (w : Window fp lo hi) {vs : List Value} {off : ℤ} {b b' : Builder}
    {xs : List M31} {m : Isa.Mem} (hb : Builder.arrayElements 1 vs off b = .ok b')
    (hnz : ∀ v ∈ vs, v ≠ .Literal (.Integer 0))
    (h1 : lo ≤ off) (ht : top ≤ off) (h2 : off + vs.length ≤ hi)
    (hx : List.Forall₂ (Element b.layout m fp lo top) vs xs) :
    b'.layout = b.layout ∧ ∃ code m', b'.instrs = b.instrs ++ code ∧ (∀ i ∈ code, i.label = none) ∧
      straight fp (code.map IB.inner) m = some m' ∧
      (∀ (i : ℕ) x, xs[i]? = some x → Isa.felt m' (adr fp (off + i)) = some x) ∧
      (∀ a, (∀ o, off ≤ o ∧ o < off + vs.length → a ≠ adr fp o) → m' a = m a) := by
  induction vs generalizing off b m xs with
  | nil =>
    cases hx
    simp only [Builder.arrayElements, Except.ok.injEq] at hb
    subst hb
    exact ⟨rfl, [], m, by simp, by simp, rfl, by simp, fun _ _ => rfl⟩
  | cons v vs ih =>
    cases hx with
    | @cons _ x _ xs hv hvs =>
      simp only [List.length_cons, Nat.cast_add, Nat.cast_one] at h2
      simp only [Builder.arrayElements, if_neg (hnz v (by simp)), bind, Except.bind] at hb
      have rg := w.inRange h1 (by omega)
      have hstep : ∃ b1 i, b.copyValueTo v off 1 = .ok b1 ∧ b1.layout = b.layout ∧
          b1.instrs = b.instrs ++ [⟨i, none⟩] ∧
          ∃ r pc, Isa.sem i 0 fp m = some ⟨r, [(adr fp off, x)], pc, fp⟩ := by
        cases v with
        | Error => exact hv.elim
        | Literal lit =>
          cases lit with
          | Boolean => exact hv.elim
          | Unit => exact hv.elim
          | Integer k =>
            refine ⟨b.storeImm k off, .StoreImm (toM31 k) (ofI32 off), by simp [Builder.copyValueTo], rfl, rfl, [],
              0 + 1, ?_⟩
            have : x = toM31 k := by
              simp only [Element] at hv
              rw [hv]; unfold residue toM31; rfl
            rw [this]
            exact sem_imm (adr_ofI32 fp off) rg
        | Operand id =>
          obtain ⟨s, hs, h3, h4, h5⟩ := hv
          refine ⟨b.copySlots s.off off 1, .StoreAddFpImm (ofI32 s.off) (ofI32 0) (ofI32 off),
            by simp [Builder.copyValueTo, Layout.getOffset, hs], rfl, ?_, [adr fp s.off], 0 + 1, ?_⟩
          · simp [Builder.copySlots, Builder.copySingle, Builder.feltAddImm, Builder.push]
          · have := sem_addImm (imm := ofI32 0) (pc := 0) (adr_ofI32 fp s.off) (adr_ofI32 fp off) h5 rg
            rw [show ofI32 0 = 0 from rfl, add_zero] at this
            exact this
      obtain ⟨b1, i, hc, hl, hi', r, pc, hsem⟩ := hstep
      rw [hc] at hb
      simp only at hb
      have hvs' : List.Forall₂ (Element b1.layout (put m (adr fp off) x) fp lo top) vs xs := by
        refine hvs.imp ?_
        intro u y hu
        rw [hl]
        cases u with
        | Operand id =>
          obtain ⟨s, hs, h3, h4, h5⟩ := hu
          refine ⟨s, hs, h3, h4, ?_⟩
          rw [felt_put_ne, h5]
          intro e
          have := w.inj h3 (by omega) h1 (by omega) e
          omega
        | Literal l => cases l <;> exact hu
        | Error => exact hu
      obtain ⟨g1, code, m', g2, g3, g4, g5, g6⟩ := ih hb (fun v hv => hnz v (by simp [hv])) (by omega) (by omega)
        (by push_cast; omega) hvs'
      push_cast at g6
      refine ⟨g1.trans hl, ⟨i, none⟩ :: code, m', by rw [g2, hi']; simp, ?_, ?_, ?_, ?_⟩
      · intro j hj
        rcases List.mem_cons.mp hj with rfl | hj
        · rfl
        · exact g3 j hj
      · rw [List.map_cons, straight_cons (m' := put m (adr fp off) x) hsem rfl]
        exact g4
      · intro j y hj
        cases j with
        | zero =>
          simp only [List.getElem?_cons_zero, Option.some.injEq] at hj
          subst hj
          have hsame := g6 (adr fp off) (fun o ho e => by
            have := w.inj h1 (by omega) (by omega) (by omega) e
            omega)
          simp only [Nat.cast_zero, add_zero]
          unfold Isa.felt
          rw [hsame]
          exact felt_put_same rg
        | succ j =>
          simp only [List.getElem?_cons_succ] at hj
          have := g5 j y hj
          push_cast at this ⊢
          rw [show off + (j + 1 : ℤ) = off + 1 + j by ring]
          exact this
      · intro a ha
        simp only [List.length_cons, Nat.cast_add, Nat.cast_one] at ha
        rw [g6 a (fun o ho => ha o (by omega))]
        have := ha off (by omega)
        simp [put, Function.update_of_ne this]

theorem sem_framePointer {pd : M31} (hd : fp + d = pd) (hr : Isa.InRange pd) {m : Isa.Mem} {imm : M31} :
    Isa.sem (.StoreFramePointer imm d) pc fp m = some ⟨[], [(pd, fp + imm)], pc + 1, fp⟩ := by
  subst hd; exact done_one hr

/-- **C63 (partial).** The code emitted for an array literal of felts leaves the elements, in order, in consecutive
cells, and the address of the first one in the destination; nothing else changes. What is missing: elements that
are the literal `0` (`C63_violated`). -/
theorem C63_array_literal_partial (b b' : Builder) (dest : ValueId) (vs : List Value) (xs : List M31) (fp : M31)
    (lo : ℤ) (m : Isa.Mem) (hb : b.makeArray dest vs .Felt = .ok b') (w : Window fp lo b'.layout.frame) (hlo : lo ≤ 0)
    (hdest : ∀ s, b.layout.values dest = some s → lo ≤ s.off ∧ s.off < b.layout.frame)
    (hx : List.Forall₂ (Element b.layout m fp lo b.layout.frame) vs xs)
    (hnz : ∀ v ∈ vs, v ≠ .Literal (.Integer 0)) :
    ∃ m' d base, straight fp ((emitted b b').map IB.inner) m = some m' ∧ b'.layout.values dest = some d ∧
      Isa.felt m' (adr fp d.off) = some (adr fp base) ∧
      (∀ (i : ℕ) x, xs[i]? = some x → Isa.felt m' (adr fp (base + i)) = some x) ∧
      (∀ a, (∀ o, ((b.layout.frame : ℤ) ≤ o ∧ o < b'.layout.frame) ∨ o = d.off → a ≠ adr fp o) → m' a = m a) := by
  simp only [Builder.makeArray, Builder.reserve, Layout.reserve, bind, Except.bind, MirType.valSize,
    one_mul, pure, Except.pure] at hb
  split at hb
  · cases hb
  · rename_i b1 h1
    simp only [Builder.allocateLocal, Except.ok.injEq] at hb
    obtain ⟨a1, a2, a3, s, a4, a5⟩ := allocateLocal_eq b1.layout dest 1
    subst hb
    simp only [Builder.storeFpPlus, Builder.push] at w ⊢
    have hlen : (1 * vs.length) = vs.length := one_mul _
    have hlay : b1.layout.frame = b.layout.frame + vs.length ∧ b1.layout.values = b.layout.values := by
      have key : ∀ (vs : List Value) (off : ℤ) (b b1 : Builder), Builder.arrayElements 1 vs off b = .ok b1 →
          b1.layout = b.layout := by
        intro vs
        induction vs with
        | nil => intro off b b1 h; simp only [Builder.arrayElements, Except.ok.injEq] at h; rw [h]
        | cons v vs ih =>
          intro off b b1 h
          simp only [Builder.arrayElements] at h
          split at h
          · exact ih _ _ _ h
          · simp only [bind, Except.bind] at h
            split at h
            · cases h
            · rename_i b2 h2
              rw [ih _ _ _ h]
              unfold Builder.copyValueTo at h2
              simp only [one_ne_zero, if_false, if_true] at h2
              split at h2
              · cases h2; rfl
              · cases h2; rfl
              · cases h2; rfl
              · split at h2
                · cases h2
                · cases h2; rfl
              · cases h2
      have := key _ _ _ _ h1
      rw [this]
      exact ⟨rfl, rfl⟩
    obtain ⟨l1, l2⟩ := hlay
    have hFr : ((b.layout.frame : ℕ) : ℤ) + vs.length ≤ (b1.layout.allocateLocal dest 1).2.frame := by
      have : b.layout.frame + vs.length ≤ (b1.layout.allocateLocal dest 1).2.frame := l1 ▸ a2
      exact_mod_cast this
    obtain ⟨g1, code, m1, g2, g3, g4, g5, g6⟩ := arrayElements_felt (top := b.layout.frame) w (m := m) (xs := xs) h1 hnz
      (by omega) le_rfl hFr hx
    have hd : lo ≤ s.off ∧ s.off < (b1.layout.allocateLocal dest 1).2.frame := by
      rw [a5, a1, l2]
      cases hv : b.layout.values dest with
      | some t => have := hdest t hv; simp only; omega
      | none =>
        have := a3 (by rw [l2]; exact hv)
        rw [this]
        simp only
        push_cast
        omega
    have hs : Isa.sem (.StoreFramePointer (ofI32 b.layout.frame) (ofI32 s.off)) 0 fp m1 = _ :=
      sem_framePointer (adr_ofI32 fp s.off) (w.inRange hd.1 hd.2)
    rw [adr_ofI32] at hs
    have hsame : ∀ o, (lo ≤ o ∧ o < (b1.layout.allocateLocal dest 1).2.frame) → o ≠ s.off →
        Isa.felt (put m1 (adr fp s.off) (adr fp b.layout.frame)) (adr fp o) = Isa.felt m1 (adr fp o) := by
      intro o ho hne
      exact felt_put_ne fun e => hne (w.inj ho.1 ho.2 hd.1 hd.2 e)
    have hout : s.off < b.layout.frame ∨ (b.layout.frame : ℤ) + vs.length ≤ s.off := by
      rw [a5, a1, l2]
      cases hv : b.layout.values dest with
      | some t => exact .inl (hdest t hv).2
      | none => right; simp only; rw [l1]; push_cast; exact le_rfl
    have hxl : xs.length = vs.length := hx.length_eq.symm
    refine ⟨put m1 (adr fp s.off) (adr fp b.layout.frame), s, b.layout.frame, ?_, a4, ?_, ?_, ?_⟩
    · unfold emitted
      simp only [g2, List.append_assoc, List.drop_left, List.map_append, List.map_cons, List.map_nil]
      rw [straight_append g4, ← a5, straight_cons hs rfl]
      rfl
    · exact felt_put_same (w.inRange hd.1 hd.2)
    · intro i x hi
      have hil : i < vs.length := by
        rw [← hxl]
        by_contra hc
        rw [List.getElem?_eq_none (by omega)] at hi
        cases hi
      rw [hsame _ (by omega) (by omega)]
      exact g5 i x hi
    · intro a ha
      have h1 : a ≠ adr fp s.off := ha s.off (.inr rfl)
      simp only [put, Function.update_of_ne h1]
      exact g6 a fun o ho => ha o (.inl (by omega))

/-! ### Counterexamples -/

/-- `fn g(x: felt) {}` -/
def ignoreFn : Function := ⟨['g'], [⟨[], .Return []⟩], [0], [], 1, types [(0, .Felt)]⟩

/-- `fn m() -> felt { g(7); let arr = [a, 1]; return arr[0]; }` for a literal `a`. -/
def firstOf (a : BitVec 32) : Function :=
  ⟨['m'], [⟨[.Call [] 0 [.Literal (.Integer 7)] ⟨[.Felt], []⟩,
     .MakeFixedArray 0 [.Literal (.Integer a), .Literal (.Integer 1)] .Felt false,
     .Load 1 ⟨0, [.Index (.Literal (.Integer 0))]⟩ .Felt], .Return [.Operand 1]⟩], [], [2], 3,
    types [(0, .FixedArray .Felt 2), (1, .Felt), (2, .Felt)]⟩

example : feltsOf (compileRun 100 [ignoreFn, firstOf 5] ['m'] [] [.felt] []) = some [5] := by decide +kernel

/-- **C63 violated** for elements that are the literal `0`: they are not written, so the element is whatever the
cell held before, here the argument of an earlier call: `[0, 1][0]` is `7`. -/
theorem C63_violated : feltsOf (compileRun 100 [ignoreFn, firstOf 0] ['m'] [] [.felt] []) = some [7] := by
  decide +kernel

/-- `struct P { x: felt, y: felt }` -/
def pointTy : MirType := .Struct ['P'] [(['x'], .Felt), (['y'], .Felt)]

/-- `fn m(p: P) -> felt { let old = p.x; p.x = 5; return old; }`: the update makes a new value `2`. -/
def keepOld : Function :=
  ⟨['m'], [⟨[.ExtractStructField 1 (.Operand 0) ['x'] .Felt,
     .InsertField 2 (.Operand 0) ['x'] (.Literal (.Integer 5)) pointTy], .Return [.Operand 1]⟩], [0], [1], 3,
    types [(0, pointTy), (1, .Felt), (2, pointTy)]⟩

/-- The same function without the update. -/
def keepOld' : Function :=
  ⟨['m'], [⟨[.ExtractStructField 1 (.Operand 0) ['x'] .Felt], .Return [.Operand 1]⟩], [0], [1], 3,
    types [(0, pointTy), (1, .Felt)]⟩

example : feltsOf (compileRun 100 [keepOld'] ['m'] [.struct "P" [("x", .felt), ("y", .felt)]] [.felt]
    [.struct [.number 3, .number 4]]) = some [3] := by decide +kernel

/-- **C64 violated**: the field read before the update shares the slot of the struct, which is overwritten in
place. The function returns the new value `5` instead of the old one, `3`. -/
theorem C64_violated : feltsOf (compileRun 100 [keepOld] ['m'] [.struct "P" [("x", .felt), ("y", .felt)]] [.felt]
    [.struct [.number 3, .number 4]]) = some [5] := by decide +kernel

/-- `fn m(i: felt) -> felt { let a = [P{x: 1, y: 2}, P{x: 3, y: 4}]; a[i].y = v; return a[i].x; }` for a value `v`. -/
def storeField (v : Value) : Function :=
  ⟨['m'], [⟨[.MakeStruct 1 [(['x'], .Literal (.Integer 1)), (['y'], .Literal (.Integer 2))] pointTy,
     .MakeStruct 2 [(['x'], .Literal (.Integer 3)), (['y'], .Literal (.Integer 4))] pointTy,
     .MakeFixedArray 3 [.Operand 1, .Operand 2] pointTy false,
     .Assign 5 (.Literal (.Integer 9)) .Felt,
     .Store ⟨3, [.Index (.Operand 0), .Field ['y']]⟩ v .Felt,
     .Load 4 ⟨3, [.Index (.Operand 0), .Field ['x']]⟩ .Felt], .Return [.Operand 4]⟩], [0], [4], 6,
    types [(0, .Felt), (1, pointTy), (2, pointTy), (3, .FixedArray pointTy 2), (4, .Felt), (5, .Felt)]⟩

example : feltsOf (compileRun 100 [storeField (.Operand 5)] ['m'] [.felt] [.felt] [.number 1]) = some [3] := by
  decide +kernel

/-- **C65 violated**: when the stored value is a literal and the index is not known at compile time, the offset of
the field is dropped. Assigning the literal `9` to `a[1].y` overwrites `a[1].x`. -/
theorem C65_violated :
    feltsOf (compileRun 100 [storeField (.Literal (.Integer 9))] ['m'] [.felt] [.felt] [.number 1]) = some [9] := by
  decide +kernel

end Codegen
end CairoM
