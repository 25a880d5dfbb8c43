import Verif.PlaceLemmas

/-!
# Loads and stores through places (C65)
-/

namespace CairoM
namespace Codegen

open Mir Lang Relation Abi

theorem AddsCode.emitted {fp : M31} {b b' : Builder} {m m' : Isa.Mem} (h : AddsCode fp b b' m m') :
    straight fp ((Codegen.emitted b b').map IB.inner) m = some m' ∧ ∀ i ∈ Codegen.emitted b b', i.label = none := by
  obtain ⟨code, h1, h2, h3⟩ := h
  have : Codegen.emitted b b' = code := by unfold Codegen.emitted; rw [h1]; simp
  rw [this]
  exact ⟨h3, h2⟩

/-- **C65.** The code emitted for a load through a place copies the cells of the designated part, at the base
pointer plus the offset of the path for the run-time values of the indices, to the slots of the destination, and
changes nothing else but new slots. -/
theorem C65_load (f : Function) (b b' : Builder) (dest : ValueId) (p : Place) (ty t : MirType) (fp : M31) (lo : ℤ)
    (m : Isa.Mem) (ptr off : M31) (y : ℕ → M31) (ρ : ValueId → M31) (sb : Slot)
    (h : genLoad f b dest p ty = .ok b') (w : Window fp lo b'.layout.frame) (hdest : b.layout.values dest = none)
    (ht : f.types p.base = some t) (hoff : pathOffset ρ p.projections t = some off) (hsm : SmallIndices p.projections)
    (hb : b.layout.values p.base = some sb) (hb1 : lo ≤ sb.off) (hb2 : sb.off < b.layout.frame)
    (hb3 : Isa.felt m (adr fp sb.off) = some ptr)
    (hidx : IndicesHeld b.layout m fp lo b.layout.frame ρ p.projections)
    (hy : ∀ j < ty.memSize, Isa.felt m (ptr + off + (j : M31)) = some (y j))
    (hsep : ∀ j < ty.memSize, ∀ o, (b.layout.frame : ℤ) ≤ o ∧ o < b'.layout.frame → ptr + off + (j : M31) ≠ adr fp o) :
    ∃ m' d, straight fp ((emitted b b').map IB.inner) m = some m' ∧ (∀ i ∈ emitted b b', i.label = none) ∧
      b'.layout.values dest = some d ∧
      (∀ j < ty.memSize, Isa.felt m' (adr fp (d.off + j)) = some (y j)) ∧
      SameExcept fp (fun o => (b.layout.frame : ℤ) ≤ o ∧ o < b'.layout.frame) m m' := by
  simp only [genLoad, Layout.getOffset, hb, ht, bind, Except.bind, pure, Except.pure] at h
  split at h
  · cases h
  · rename_i r hp
    obtain ⟨imm, dyn, b1⟩ := r
    simp only [Except.ok.injEq] at h
    have hfr := project_frame hp
    simp only [Builder.allocateLocal, Layout.allocateLocal] at h
    -- the slots in use
    let S : ℤ → Prop := fun o => o = sb.off ∨ (∃ id, .Index (.Operand id) ∈ p.projections ∧
      b.layout.values id = some (.slot o)) ∨ ((b.layout.frame : ℤ) ≤ o ∧ o < b1.layout.frame)
    have hb1f : b1.layout.frame ≤ b'.layout.frame := by
      rw [← h]
      refine le_trans ?_ loadSlots_frame
      split
      · exact le_refl _
      · simp
    obtain ⟨m1, x, r1, r2, r3, r4, r5, r6⟩ := project_runs (S := S) w hp (by omega) hoff hsm (le_refl _) hidx
      (fun id o h1 h2 => .inr (.inl ⟨id, h1, h2⟩)) (x := 0) rfl (fun o h1 h2 => .inr (.inr ⟨h1, h2⟩))
    have hoff' : (imm : M31) + x = off := by rw [r6]; simp
    have hv1 : b1.layout.values dest = none := by rw [r2, hdest]
    simp only [hv1] at h
    set b2 : Builder := { b1 with layout := (Layout.insert { b1.layout with frame := b1.layout.frame + ty.memSize } dest
      (Slot.of b1.layout.frame ty.memSize)) } with hb2'
    have hf2 : b2.layout.frame = b1.layout.frame + ty.memSize := rfl
    have keep : ∀ o, lo ≤ o → o < b.layout.frame → Isa.felt m1 (adr fp o) = Isa.felt m (adr fp o) := by
      intro o h1 h2
      rw [felt_same (r4 _ ?_)]
      intro o' ho' e
      have := w.inj h1 (by omega) (by omega) (by omega) e
      omega
    have hbb : loadSlots sb.off imm dyn b1.layout.frame ty.memSize 0 b2 = b' := h
    have hd : DynHeld m1 fp lo b2.layout.frame S dyn x := by
      cases dyn with
      | none => exact r5
      | some o => exact ⟨r5.1, by have := r5.2.1; omega, r5.2.2⟩
    obtain ⟨m2, q1, q2, q3, q4⟩ := loadSlots_runs (S := S) (s := 0) (n := ty.memSize) (y := y) w
      (base := sb.off) (imm := imm) (dyn := dyn) (d := b1.layout.frame) (b := b2) (m := m1) (p := ptr) (x := x)
      (by rw [hbb]) hb1 (by omega) (by rw [keep _ hb1 hb2, hb3]) (.inl rfl) hd (by omega)
      (by rw [hf2]; push_cast; omega)
      (by
        intro o h1 h2 hS
        rcases hS with hS | ⟨id, h3, h4⟩ | hS
        · omega
        · obtain ⟨o', c1, c2, c3, c4⟩ := hidx id h3
          rw [h4] at c1
          injection c1 with c1
          injection c1 with c1
          omega
        · omega)
      (by
        intro j _ h2
        rw [hoff', felt_same (r4 _ fun o ho => hsep j (by omega) o ⟨ho.1, by omega⟩)]
        exact hy j (by omega))
      (by
        intro j _ h2 o ho
        rw [hbb] at ho
        rw [hoff']
        refine hsep j (by omega) o ?_
        rcases ho with ho | ho
        · have hle : b2.layout.frame ≤ b'.layout.frame := by rw [← hbb]; exact loadSlots_frame
          push_cast at ho
          omega
        · omega)
    rw [hbb] at q1 q2 q3
    have hle : b2.layout.frame ≤ b'.layout.frame := by rw [← hbb]; exact loadSlots_frame
    obtain ⟨e1, e2⟩ := (r1.trans (.trans (.refl (b := b1) (b' := b2) rfl) q1)).emitted
    refine ⟨m2, Slot.of b1.layout.frame ty.memSize, e1, e2, ?_, ?_, ?_⟩
    · rw [q2]; simp [hb2', Layout.insert]
    · intro j hj
      have : (Slot.of (b1.layout.frame : ℤ) ty.memSize).off = b1.layout.frame := by
        unfold Slot.of; split <;> rfl
      rw [this]
      exact q4 j (Nat.zero_le _) (by omega)
    · intro a ha
      rw [q3 a fun o ho => ha o (by push_cast at ho; omega), r4 a fun o ho => ha o (by omega)]

/-- The cells of a value to be stored: the slots of an operand, below the top of the frame, or the encoding of a
literal. -/
def Cells (l : Layout) (m : Isa.Mem) (fp : M31) (lo : ℤ) (ty : MirType) (v : Value) (y : ℕ → M31) : Prop :=
  match v with
  | .Operand id => ∃ s, l.values id = some s ∧ lo ≤ s.off ∧ s.off + ty.memSize ≤ l.frame ∧
      ∀ j < ty.memSize, Isa.felt m (adr fp (s.off + j)) = some (y j)
  | .Literal (.Integer n) =>
    if ty.memSize = 1 then y 0 = residue n.toNat
    else ty.isU32 = true ∧ ty.memSize = 2 ∧ y 0 = residue (n.toNat % 2 ^ 16) ∧ y 1 = residue (n.toNat / 2 ^ 16)
  | .Literal (.Boolean x) => y 0 = if x then 1 else 0
  | _ => False

/-- The slots of a stored operand. -/
def ValueSlots (l : Layout) (ty : MirType) (v : Value) (o : ℤ) : Prop :=
  match v with
  | .Operand id => ∃ s, l.values id = some s ∧ s.off ≤ o ∧ o < s.off + ty.memSize
  | _ => False

/-- No index of the path is an operand. -/
def StaticPath (ps : List Projection) : Prop := ∀ id, .Index (.Operand id) ∉ ps

theorem project_static {types : ValueId → Option MirType} {ps : List Projection} {ty : MirType} {imm imm' : ℤ}
    {dyn : Option ℤ} {b b' : Builder} (h : project types ps ty imm none b = .ok (imm', dyn, b')) (hs : StaticPath ps) :
    dyn = none := by
  induction ps generalizing ty imm with
  | nil =>
    simp only [project, Except.ok.injEq, Prod.mk.injEq] at h
    exact h.2.1.symm
  | cons p ps ih =>
    have hs' : StaticPath ps := fun id hid => hs id (by simp [hid])
    cases p with
    | Index idx =>
      simp only [project] at h
      split at h
      · cases h
      · split at h
        · exact ih h hs'
        · rename_i id
          exact absurd (by simp) (hs id)
        · cases h
    | Field n =>
      simp only [project] at h
      split at h
      · exact ih h hs'
      · cases h
    | Tuple n =>
      simp only [project] at h
      split at h
      · exact ih h hs'
      · cases h

theorem storeLit_eq (base imm : ℤ) (v : BitVec 32) (b : Builder) :
    storeLit base imm none v b =
      storeSlots base imm none (b.reserve 1).1 1 0 ((b.reserve 1).2.storeImm v (b.reserve 1).1) := by
  simp [storeLit, storeSlots]

theorem indexOperand_values {types : ValueId → Option MirType} {id : ValueId} {stride : ℕ} {dyn : Option ℤ}
    {b b' : Builder} {out : ℤ} (h : indexOperand types id stride dyn b = .ok (out, b')) :
    b'.layout.values = b.layout.values := by
  unfold indexOperand at h
  split at h
  · cases h
  · cases h
  · replace h := ite_ok h
    by_cases hs : stride = 1 <;> cases dyn <;>
      simp only [hs, ne_eq, not_true_eq_false, not_false_eq_true, if_true, if_false, Except.ok.injEq,
        Prod.mk.injEq] at h <;> obtain ⟨-, rfl⟩ := h <;>
      simp [Builder.reserve, Layout.reserve, Builder.feltMulImm, Builder.push]

theorem project_values {types : ValueId → Option MirType} {ps : List Projection} {ty : MirType} {imm imm' : ℤ}
    {dyn dyn' : Option ℤ} {b b' : Builder} (h : project types ps ty imm dyn b = .ok (imm', dyn', b')) :
    b'.layout.values = b.layout.values := by
  induction ps generalizing ty imm dyn b with
  | nil =>
    simp only [project, Except.ok.injEq, Prod.mk.injEq] at h
    obtain ⟨-, -, rfl⟩ := h
    rfl
  | cons p ps ih =>
    cases p with
    | Index idx =>
      simp only [project] at h
      split at h
      · cases h
      · split at h
        · exact ih h
        · split at h
          · cases h
          · rename_i h1
            exact (ih h).trans (indexOperand_values h1)
        · cases h
    | Field n =>
      simp only [project] at h
      split at h
      · exact ih h
      · cases h
    | Tuple n =>
      simp only [project] at h
      split at h
      · exact ih h
      · cases h

theorem toM31_residue (n : BitVec 32) : toM31 n = residue n.toNat := by unfold residue toM31; rfl

theorem boolWord_residue (x : Bool) : toM31 (Builder.boolWord x) = if x then 1 else 0 := by cases x <;> decide +kernel

/-- The store ends with a copying loop from slots `src` that hold the value. -/
structure Source (fp : M31) (lo base imm : ℤ) (dyn : Option ℤ) (b b1 b' : Builder) (m : Isa.Mem) (y : ℕ → M31)
    (ty : MirType) (v : Value) (b2 : Builder) (src : ℤ) : Prop where
  eq : b' = storeSlots base imm dyn src ty.memSize 0 b2
  frame : b1.layout.frame ≤ b2.layout.frame
  lo : lo ≤ src
  hi : src + ty.memSize ≤ b2.layout.frame
  slots : ∀ o, src ≤ o → o < src + ty.memSize →
    ((b1.layout.frame : ℤ) ≤ o ∧ o < b2.layout.frame) ∨ ValueSlots b.layout ty v o
  holds : b2.layout.frame ≤ b'.layout.frame → ∀ m1,
    SameExcept fp (fun o => (b.layout.frame : ℤ) ≤ o ∧ o < b1.layout.frame) m m1 →
    ∃ m2, AddsCode fp b1 b2 m1 m2 ∧
      SameExcept fp (fun o => (b1.layout.frame : ℤ) ≤ o ∧ o < b2.layout.frame) m1 m2 ∧
      ∀ j < ty.memSize, Isa.felt m2 (adr fp (src + j)) = some (y j)

theorem source_lit {v : Value} {ty : MirType} {fp : M31} {lo base imm : ℤ} {b b1 b' : Builder} {m : Isa.Mem}
    {y : ℕ → M31} {n : BitVec 32} (w : Window fp lo b'.layout.frame) (hlo : lo ≤ b1.layout.frame)
    (h1 : ty.memSize = 1) (hy0 : y 0 = toM31 n) (hb' : storeLit base imm none n b1 = b') :
    ∃ b2 src, Source fp lo base imm none b b1 b' m y ty v b2 src := by
  rw [storeLit_eq] at hb'
  refine ⟨(b1.reserve 1).2.storeImm n (b1.reserve 1).1, (b1.reserve 1).1, by rw [h1, hb'], ?_, ?_, ?_, ?_, ?_⟩
  all_goals simp only [Builder.reserve, Layout.reserve, Builder.storeImm, Builder.push, h1]
  · omega
  · omega
  · push_cast; omega
  · intro o h2 h3; left; push_cast at *; omega
  · intro hle m1 _
    push_cast
    have rg := w.inRange (o := b1.layout.frame) (by omega) (by omega)
    refine ⟨put m1 (adr fp b1.layout.frame) (toM31 n), .push rfl (sem_imm (adr_ofI32 fp b1.layout.frame) rg),
      SameExcept.put ⟨le_refl _, by omega⟩, ?_⟩
    intro j hj
    have : j = 0 := by omega
    subst this
    simp only [Nat.cast_zero, add_zero]
    rw [felt_put_same rg, hy0]

/-- Every store ends with a copying loop from slots that hold the value. -/
theorem store_source {f : Function} {p : Place} {v : Value} {ty t : MirType} {sb : Slot} {fp : M31}
    {lo imm : ℤ} {dyn : Option ℤ} {b b1 b' : Builder} {m : Isa.Mem} {y : ℕ → M31}
    (h : genStore f b p v ty = .ok b') (hb : b.layout.values p.base = some sb) (ht : f.types p.base = some t)
    (hp : project f.types p.projections t 0 none b = .ok (imm, dyn, b1))
    (w : Window fp lo b'.layout.frame) (hb1 : lo ≤ sb.off) (hb2 : sb.off < b.layout.frame)
    (hfr : b.layout.frame ≤ b1.layout.frame) (hy : Cells b.layout m fp lo ty v y)
    (hlit : ∀ l, v = .Literal l → ty.memSize = 1 → StaticPath p.projections) :
    ∃ b2 src, Source fp lo sb.off imm dyn b b1 b' m y ty v b2 src := by
  simp only [genStore, Layout.getOffset, hb, ht, hp, bind, Except.bind, pure, Except.pure] at h
  cases v with
  | Error => cases h
  | Operand id =>
    obtain ⟨s, h1, h2, h3, h4⟩ := hy
    simp only [project_values hp, h1, Except.ok.injEq] at h
    refine ⟨b1, s.off, h.symm, le_refl _, h2, by omega, fun o h5 h6 => .inr ⟨s, h1, h5, h6⟩, ?_⟩
    intro hle m1 hm1
    refine ⟨m1, .refl rfl, fun _ _ => rfl, fun j hj => ?_⟩
    rw [felt_same (hm1 _ ?_), h4 j hj]
    intro o' ho' e
    have := w.inj (by omega) (by omega) (by omega) (by omega) e
    omega
  | Literal l =>
    cases l with
    | Unit => cases h
    | Boolean x =>
      simp only [ne_eq, ite_not] at h
      by_cases h1 : ty.memSize = 1
      · rw [if_pos h1, Except.ok.injEq] at h
        have hd := project_static hp (hlit _ rfl h1)
        subst hd
        exact source_lit w (by omega) h1 (by rw [boolWord_residue]; exact hy) h
      · rw [if_neg h1] at h; cases h
    | Integer n =>
      simp only at h
      by_cases h1 : ty.memSize = 1
      · rw [if_pos h1, Except.ok.injEq] at h
        simp only [Cells, if_pos h1] at hy
        have hd := project_static hp (hlit _ rfl h1)
        subst hd
        exact source_lit w (by omega) h1 (by rw [toM31_residue]; exact hy) h
      · rw [if_neg h1] at h
        simp only [Cells, if_neg h1] at hy
        obtain ⟨hu, h2, y0, y1⟩ := hy
        rw [if_pos hu, Except.ok.injEq] at h
        refine ⟨_, _, by rw [h2]; exact h.symm, ?_, ?_, ?_, ?_, ?_⟩
        all_goals simp only [Builder.reserve, Layout.reserve, Builder.storeU32Imm, Builder.push, h2]
        · omega
        · omega
        · push_cast; omega
        · intro o h2 h3; left; push_cast at *; omega
        · intro hle m1 _
          have r0 := w.inRange (o := b1.layout.frame) (by omega) (by omega)
          have r1 := w.inRange (o := (b1.layout.frame : ℤ) + 1) (by omega) (by omega)
          have hs := sem_u32Lit (pc := 0) (m := m1) (adr_ofI32 fp b1.layout.frame) (ofLimbs_split n.isLt) r0
            (by rw [← adr_succ]; exact r1)
          refine ⟨Isa.write m1 (Isa.split (adr fp b1.layout.frame) n.toNat), ⟨[⟨_, none⟩], rfl, by simp, ?_⟩,
            same_split (by push_cast; omega) (by push_cast; omega), ?_⟩
          · unfold splitLo splitHi
            exact (straight_cons (m' := Isa.write m1 (Isa.split (adr fp b1.layout.frame) n.toNat)) hs rfl).trans rfl
          · intro j hj
            rw [write_split, ← adr_succ]
            have ne : adr fp (b1.layout.frame : ℤ) ≠ adr fp ((b1.layout.frame : ℤ) + 1) := fun e => by
              have := w.inj (by omega) (by omega) (by omega) (by omega) e; omega
            have : j = 0 ∨ j = 1 := by omega
            rcases this with rfl | rfl
            · simp only [Nat.cast_zero, add_zero]
              rw [felt_put_ne ne, felt_put_same r0, y0]
              unfold residue; rfl
            · simp only [Nat.cast_one]
              rw [felt_put_same r1, y1]
              unfold residue; rfl

/-- **C65 (partial).** The code emitted for a store through a place writes the cells of the value to the designated
part, at the base pointer plus the offset of the path for the run-time values of the indices, and changes nothing
else but new slots. What is missing: storing a literal of one cell through an index that is an operand, where the
static part of the offset is dropped (`C65_violated`). -/
theorem C65_store_partial (f : Function) (b b' : Builder) (p : Place) (v : Value) (ty t : MirType) (fp : M31) (lo : ℤ)
    (m : Isa.Mem) (ptr off : M31) (y : ℕ → M31) (ρ : ValueId → M31) (sb : Slot)
    (h : genStore f b p v ty = .ok b') (w : Window fp lo b'.layout.frame)
    (ht : f.types p.base = some t) (hoff : pathOffset ρ p.projections t = some off) (hsm : SmallIndices p.projections)
    (hb : b.layout.values p.base = some sb) (hb1 : lo ≤ sb.off) (hb2 : sb.off < b.layout.frame)
    (hb3 : Isa.felt m (adr fp sb.off) = some ptr)
    (hidx : IndicesHeld b.layout m fp lo b.layout.frame ρ p.projections)
    (hy : Cells b.layout m fp lo ty v y) (hP : ty.memSize < P)
    (hlit : ∀ l, v = .Literal l → ty.memSize = 1 → StaticPath p.projections)
    (hr : ∀ j < ty.memSize, Isa.InRange (ptr + off + (j : M31)))
    (hsep : ∀ j < ty.memSize, ∀ o, PathSlots b.layout sb.off p.projections b.layout.frame b'.layout.frame o ∨
      ValueSlots b.layout ty v o → ptr + off + (j : M31) ≠ adr fp o) :
    ∃ m', straight fp ((emitted b b').map IB.inner) m = some m' ∧ (∀ i ∈ emitted b b', i.label = none) ∧
      (∀ j < ty.memSize, Isa.felt m' (ptr + off + (j : M31)) = some (y j)) ∧
      ∀ a, (∀ j < ty.memSize, a ≠ ptr + off + (j : M31)) →
        (∀ o, (b.layout.frame : ℤ) ≤ o ∧ o < b'.layout.frame → a ≠ adr fp o) → m' a = m a := by
  have hp : ∃ imm dyn b1, project f.types p.projections t 0 none b = .ok (imm, dyn, b1) := by
    simp only [genStore, Layout.getOffset, hb, ht, bind, Except.bind, pure, Except.pure] at h
    split at h
    · cases h
    · rename_i r hp
      exact ⟨r.1, r.2.1, r.2.2, hp⟩
  · obtain ⟨imm, dyn, b1, hp⟩ := hp
    have hfr := project_frame hp
    obtain ⟨b2, src, k0, k2, k3, k4, k5, k6⟩ := store_source h hb ht hp w hb1 hb2 hfr hy hlit
    clear h
    subst k0
    have hf2 : b2.layout.frame ≤ (storeSlots sb.off imm dyn src ty.memSize 0 b2).layout.frame := storeSlots_frame
    set b' := storeSlots sb.off imm dyn src ty.memSize 0 b2 with hb'
    let S : ℤ → Prop := fun o => PathSlots b.layout sb.off p.projections b.layout.frame b'.layout.frame o
    obtain ⟨m1, x, r1, r2, r3, r4, r5, r6⟩ := project_runs (S := S) w hp (by omega) hoff hsm (le_refl _) hidx
      (fun id o h1 h2 => .inr (.inl ⟨id, h1, h2⟩)) (x := 0) rfl (fun o h1 h2 => .inr (.inr ⟨h1, by omega⟩))
    have hoff' : (imm : M31) + x = off := by rw [r6]; simp
    obtain ⟨m2, k7, k8, k9⟩ := k6 hf2 m1 r4
    have keep1 : ∀ o, lo ≤ o → o < b.layout.frame → Isa.felt m1 (adr fp o) = Isa.felt m (adr fp o) := by
      intro o h1 h2
      rw [felt_same (r4 _ ?_)]
      intro o' ho' e
      have := w.inj h1 (by omega) (by omega) (by omega) e
      omega
    have keep2 : ∀ o, lo ≤ o → o < b1.layout.frame → Isa.felt m2 (adr fp o) = Isa.felt m1 (adr fp o) := by
      intro o h1 h2
      rw [felt_same (k8 _ ?_)]
      intro o' ho' e
      have := w.inj h1 (by omega) (by omega) (by omega) e
      omega
    have hd : DynHeld m2 fp lo b2.layout.frame S dyn x := by
      cases dyn with
      | none => exact r5
      | some o => exact ⟨r5.1, by have := r5.2.1; omega, r5.2.2.1, by rw [keep2 o r5.1 r5.2.1, r5.2.2.2]⟩
    obtain ⟨m3, q1, q2, q3⟩ := storeSlots_runs (S := S) (s := 0) (n := ty.memSize) (y := y) w
      (base := sb.off) (imm := imm) (dyn := dyn) (src := src) (b := b2) (m := m2) (p := ptr) (x := x)
      (by rw [← hb']) (by omega) hb1 (by omega) (by rw [keep2 _ hb1 (by omega), keep1 _ hb1 hb2, hb3]) (.inl rfl) hd k3
      (by push_cast; omega) (fun j _ h2 => k9 j (by omega))
      (fun j _ h2 => by rw [hoff']; exact hr j (by omega))
      (by
        intro j _ h2 o ho
        rw [hoff']
        refine hsep j (by omega) o ?_
        rw [← hb'] at ho
        rcases ho with ho | ho | ho
        · exact .inl ho
        · push_cast at ho
          rcases k5 o ho.1 (by omega) with hk | hk
          · exact .inl (.inr (.inr ⟨by omega, by omega⟩))
          · exact .inr hk
        · exact .inl (.inr (.inr ⟨by omega, by omega⟩)))
    rw [hoff'] at q2 q3
    rw [← hb'] at q1 q3
    obtain ⟨e1, e2⟩ := (r1.trans (k7.trans q1)).emitted
    refine ⟨m3, e1, e2, fun j hj => q2 j (Nat.zero_le _) (by omega), ?_⟩
    intro a h1 h2
    rw [q3 a (fun j _ hj => h1 j (by omega)) (fun o ho => h2 o ⟨by omega, ho.2⟩),
      k8 a (fun o ho => h2 o ⟨by omega, by omega⟩), r4 a (fun o ho => h2 o ⟨by omega, by omega⟩)]

/-! ### A concrete case: the element `a[i].y` of an array of structs -/

/-- The pointer to the array, the index and a value, in three slots. -/
def exampleBuilder : Builder :=
  ⟨[], [], ⟨fun v => if v = 3 then some (.slot 0) else if v = 0 then some (.slot 1)
    else if v = 5 then some (.slot 2) else none, 3, 1⟩, 0, 2⟩

/-- The frame is at 100 and the array at 200; the index is 1, the value 9 and all other cells hold 7. -/
def exampleMem : Isa.Mem := fun a =>
  QM31.ofM31 (if a = 100 then 200 else if a = 101 then 1 else if a = 102 then 9 else 7)

/-- `a[i].y` -/
def examplePlace : Place := ⟨3, [.Index (.Operand 0), .Field ['y']]⟩

/-- A builder, or the initial one in case of an error. -/
def orInitial : Except Err Builder → Builder
  | .ok b => b
  | .error _ => exampleBuilder

theorem example_load : genLoad (storeField (.Operand 5)) exampleBuilder 4 examplePlace .Felt =
    .ok (orInitial (genLoad (storeField (.Operand 5)) exampleBuilder 4 examplePlace .Felt)) := rfl

theorem example_store : genStore (storeField (.Operand 5)) exampleBuilder examplePlace (.Operand 5) .Felt =
    .ok (orInitial (genStore (storeField (.Operand 5)) exampleBuilder examplePlace (.Operand 5) .Felt)) := rfl

theorem example_indices : IndicesHeld exampleBuilder.layout exampleMem 100 0 3 (fun _ => 1) examplePlace.projections := by
  intro id hid
  simp only [examplePlace, List.mem_cons, Projection.Index.injEq, Value.Operand.injEq, List.not_mem_nil, or_false,
    reduceCtorEq] at hid
  subst hid
  exact ⟨1, by decide +kernel, by decide, by decide, by decide +kernel⟩

theorem example_small : SmallIndices examplePlace.projections := by
  intro k hk
  simp [examplePlace] at hk

/-- The load reads the cell `200 + 1 * 2 + 1`. -/
example : ∃ m' d, straight 100 ((emitted exampleBuilder
      (orInitial (genLoad (storeField (.Operand 5)) exampleBuilder 4 examplePlace .Felt))).map IB.inner) exampleMem =
        some m' ∧ Isa.felt m' (adr 100 d) = some 7 := by
  obtain ⟨m', d, h1, _, _, h2, _⟩ := C65_load _ exampleBuilder _ 4 examplePlace .Felt (.FixedArray pointTy 2) 100 0
    exampleMem 200 3 (fun _ => 7) (fun _ => 1) (.slot 0) example_load ⟨by decide +kernel, by decide +kernel⟩ rfl rfl
    (by decide +kernel) example_small rfl (by decide) (by decide) (by decide +kernel) example_indices
    (by decide +kernel) (by
      intro j hj o ho
      have : 3 ≤ o ∧ o < 6 := by
        have h1 := ho.1
        have h2 : o < 6 := ho.2
        have : (exampleBuilder.layout.frame : ℤ) = 3 := rfl
        omega
      have hj : j = 0 := by
        have : MirType.Felt.memSize = 1 := rfl
        omega
      subst hj
      obtain ⟨h1, h2⟩ := this
      interval_cases o <;> decide +kernel)
  exact ⟨m', d.off + (0 : ℕ), h1, h2 0 (by decide)⟩

/-- The store writes the value 9 to that cell. -/
example : ∃ m', straight 100 ((emitted exampleBuilder
      (orInitial (genStore (storeField (.Operand 5)) exampleBuilder examplePlace (.Operand 5) .Felt))).map IB.inner)
        exampleMem = some m' ∧ Isa.felt m' (200 + 3 + ((0 : ℕ) : M31)) = some 9 := by
  have cells : Cells exampleBuilder.layout exampleMem 100 0 .Felt (.Operand 5) (fun _ => 9) :=
    ⟨.slot 2, rfl, by decide, by decide +kernel, by decide +kernel⟩
  obtain ⟨m', h1, _, h2, _⟩ := C65_store_partial _ exampleBuilder _ examplePlace (.Operand 5) .Felt
    (.FixedArray pointTy 2) 100 0 exampleMem 200 3 (fun _ => 9) (fun _ => 1) (.slot 0) example_store
    ⟨by decide +kernel, by decide +kernel⟩ rfl (by decide +kernel) example_small rfl (by decide) (by decide)
    (by decide +kernel) example_indices cells (by decide) (by intro l hl; cases hl) (by decide +kernel) (by
      intro j hj o ho
      have : 0 ≤ o ∧ o < 5 := by
        have e1 : (exampleBuilder.layout.frame : ℤ) = 3 := rfl
        rcases ho with (ho | ⟨id, _, ho⟩ | ho) | ⟨s, hs, ho⟩
        · have : o = 0 := ho
          omega
        · simp only [exampleBuilder] at ho
          split at ho
          · injection ho with ho; injection ho with ho; omega
          · split at ho
            · injection ho with ho; injection ho with ho; omega
            · split at ho
              · injection ho with ho; injection ho with ho; omega
              · cases ho
        · have : o < 5 := ho.2
          have := ho.1
          omega
        · have : exampleBuilder.layout.values 5 = some (.slot 2) := rfl
          rw [this] at hs
          injection hs with hs
          subst hs
          have h1 : (2 : ℤ) ≤ o := ho.1
          have h2 : o < 2 + 1 := ho.2
          omega
      have hj : j = 0 := by
        have : MirType.Felt.memSize = 1 := rfl
        omega
      subst hj
      obtain ⟨h1, h2⟩ := this
      interval_cases o <;> decide +kernel)
  exact ⟨m', h1, h2 0 (by decide)⟩

end Codegen
end CairoM
