import Verif.AggregateProps

/-!
# Loads and stores through places: specification and helper lemmas
-/

namespace CairoM
namespace Codegen

open Mir Lang Relation Abi

/-! ### Specification -/

/-- The value of an index: a literal, or an operand with the value `ρ` gives it. -/
def indexValue (ρ : ValueId → M31) : Value → Option M31
  | .Literal (.Integer k) => some (residue k.toNat)
  | .Operand id => some (ρ id)
  | _ => none

/-- The type of the elements of an array or behind a pointer. -/
def elementOf : MirType → Option MirType
  | .FixedArray t _ => some t
  | .Pointer t => some t
  | _ => none

/-- Number of cells between the start of a value of type `ty` and the part of it that a path designates. -/
def pathOffset (ρ : ValueId → M31) : List Projection → MirType → Option M31
  | [], _ => some 0
  | .Index idx :: ps, ty => do
    let t ← elementOf ty
    let i ← indexValue ρ idx
    let rest ← pathOffset ρ ps t
    some (i * (t.memSize : M31) + rest)
  | .Field n :: ps, ty => do
    let o ← ty.fieldOffset n
    let t ← ty.fieldType n
    let rest ← pathOffset ρ ps t
    some ((o : M31) + rest)
  | .Tuple i :: ps, ty => do
    let o ← ty.tupleOffset i
    let t ← ty.tupleElementType i
    let rest ← pathOffset ρ ps t
    some ((o : M31) + rest)

/-- The operands used as indices in a path hold the values `ρ` in slots between `lo` and `top`. -/
def IndicesHeld (l : Layout) (m : Isa.Mem) (fp : M31) (lo top : ℤ) (ρ : ValueId → M31) (ps : List Projection) : Prop :=
  ∀ id, .Index (.Operand id) ∈ ps → ∃ o, l.values id = some (.slot o) ∧ lo ≤ o ∧ o < top ∧
    Isa.felt m (adr fp o) = some (ρ id)

/-- Literal indices are below `2^31` (from there on they are encoded as negative numbers). -/
def SmallIndices (ps : List Projection) : Prop :=
  ∀ k, .Index (.Literal (.Integer k)) ∈ ps → k.toNat < 2 ^ 31

/-- The slots a load or store through a path works with: the base pointer, the indices, and the new slots between
`frame` and `frame'`. -/
def PathSlots (l : Layout) (base : ℤ) (ps : List Projection) (frame frame' : ℤ) (o : ℤ) : Prop :=
  o = base ∨ (∃ id, .Index (.Operand id) ∈ ps ∧ l.values id = some (.slot o)) ∨ (frame ≤ o ∧ o < frame')

/-! ### Helper lemmas -/

/-- The code added between two builders takes memory `m` to `m'`. -/
def AddsCode (fp : M31) (b b' : Builder) (m m' : Isa.Mem) : Prop :=
  ∃ code : List IB, b'.instrs = b.instrs ++ code ∧ (∀ i ∈ code, i.label = none) ∧
    straight fp (code.map IB.inner) m = some m'

theorem AddsCode.refl {fp : M31} {b b' : Builder} {m : Isa.Mem} (h : b'.instrs = b.instrs) : AddsCode fp b b' m m :=
  ⟨[], by simp [h], by simp, rfl⟩

theorem AddsCode.trans {fp : M31} {b b1 b' : Builder} {m m1 m' : Isa.Mem} (h : AddsCode fp b b1 m m1)
    (h' : AddsCode fp b1 b' m1 m') : AddsCode fp b b' m m' := by
  obtain ⟨c, h1, h2, h3⟩ := h
  obtain ⟨c', h1', h2', h3'⟩ := h'
  refine ⟨c ++ c', by rw [h1', h1, List.append_assoc], ?_, ?_⟩
  · intro i hi
    rcases List.mem_append.mp hi with hi | hi
    · exact h2 i hi
    · exact h2' i hi
  · rw [List.map_append, straight_append h3]
    exact h3'

theorem AddsCode.push {fp : M31} {b b' : Builder} {m : Isa.Mem} {i : Instruction} {r : List M31} {a v pc fp' : M31}
    (hb : b'.instrs = b.instrs ++ [⟨i, none⟩]) (h : Isa.sem i 0 fp m = some ⟨r, [(a, v)], pc, fp'⟩) :
    AddsCode fp b b' m (put m a v) :=
  ⟨[⟨i, none⟩], hb, by simp, by
    rw [List.map_cons, straight_cons (m' := put m a v) h rfl]; rfl⟩

theorem sem_loadFp {fp a o d pa po pd p k x pc : M31} {m : Isa.Mem} (ha : fp + a = pa) (ho : fp + o = po)
    (hd : fp + d = pd) (h0 : Isa.felt m pa = some p) (h1 : Isa.felt m po = some k) (h2 : Isa.felt m (p + k) = some x)
    (hr : Isa.InRange pd) :
    Isa.sem (.StoreDoubleDerefFpFp a o d) pc fp m = some ⟨[pa, po, p + k], [(pd, x)], pc + 1, fp⟩ := by
  subst ha ho hd; dsimp only [Isa.sem]; rw [felt_bind h0, felt_bind h1, felt_bind h2]; exact done_one hr

theorem sem_storeFp {fp a o d pa po pd p k x pc : M31} {m : Isa.Mem} (ha : fp + a = pa) (ho : fp + o = po)
    (hd : fp + d = pd) (h0 : Isa.felt m pa = some p) (h1 : Isa.felt m po = some k) (h2 : Isa.felt m pd = some x)
    (hr : Isa.InRange (p + k)) :
    Isa.sem (.StoreToDoubleDerefFpFp a o d) pc fp m = some ⟨[pa, po, pd], [(p + k, x)], pc + 1, fp⟩ := by
  subst ha ho hd; dsimp only [Isa.sem]; rw [felt_bind h0, felt_bind h1, felt_bind h2]; exact done_one hr

/-- The dynamic part of an offset is `x`: absent and zero, or held in a slot between `lo` and `top`. -/
def DynHeld (m : Isa.Mem) (fp : M31) (lo top : ℤ) (S : ℤ → Prop) (dyn : Option ℤ) (x : M31) : Prop :=
  match dyn with
  | none => x = 0
  | some o => lo ≤ o ∧ o < top ∧ S o ∧ Isa.felt m (adr fp o) = some x

theorem felt_same {m m' : Isa.Mem} {a : M31} (h : m' a = m a) : Isa.felt m' a = Isa.felt m a := by
  unfold Isa.felt; rw [h]

theorem felt_inRange {m : Isa.Mem} {a x : M31} (h : Isa.felt m a = some x) : Isa.InRange a := by
  unfold Isa.felt at h
  split at h
  · rename_i h'; exact h'.1
  · cases h

theorem ite_ok {c : Prop} [Decidable c] {α ε : Type} {e : ε} {x : Except ε α} {a : α}
    (h : (if c then .error e else x) = Except.ok a) : x = .ok a := by
  by_cases hc : c
  · rw [if_pos hc] at h; cases h
  · rw [if_neg hc] at h; exact h

/-- The code of one dynamic index. -/
theorem indexOperand_runs {types : ValueId → Option MirType} {fp : M31} {lo hi : ℤ} (w : Window fp lo hi) {id : ValueId}
    {stride : ℕ} {dyn : Option ℤ} {b b' : Builder} {out : ℤ} {m : Isa.Mem} {o : ℤ} {i x : M31} {S : ℤ → Prop}
    (h : indexOperand types id stride dyn b = .ok (out, b')) (hhi : (b'.layout.frame : ℤ) ≤ hi)
    (hv : b.layout.values id = some (.slot o)) (ho : lo ≤ o) (ho' : o < b.layout.frame)
    (hi' : Isa.felt m (adr fp o) = some i) (hS : S o)
    (hd : DynHeld m fp lo b.layout.frame S dyn x)
    (hnew : ∀ o, (b.layout.frame : ℤ) ≤ o → o < b'.layout.frame → S o) :
    ∃ m', AddsCode fp b b' m m' ∧ b'.layout.values = b.layout.values ∧ b.layout.frame ≤ b'.layout.frame ∧
      SameExcept fp (fun o => (b.layout.frame : ℤ) ≤ o ∧ o < b'.layout.frame) m m' ∧
      DynHeld m' fp lo b'.layout.frame S (some out) (x + i * (stride : M31)) := by
  unfold indexOperand at h
  rw [hv] at h
  simp only at h
  replace h := ite_ok h
  -- the scaled index
  have key : ∃ (sc : ℤ) (b1 : Builder) (m1 : Isa.Mem),
      (if stride ≠ 1 then ((b.reserve 1).1, (b.reserve 1).2.feltMulImm o stride (b.reserve 1).1) else (o, b)) = (sc, b1) ∧
      AddsCode fp b b1 m m1 ∧ b1.layout.values = b.layout.values ∧ b.layout.frame ≤ b1.layout.frame ∧
      ((b1.layout.frame : ℤ) ≤ hi →
      SameExcept fp (fun o => (b.layout.frame : ℤ) ≤ o ∧ o < b1.layout.frame) m m1 ∧
      lo ≤ sc ∧ sc < b1.layout.frame ∧ (b1.layout.frame ≤ b'.layout.frame → S sc) ∧ Isa.felt m1 (adr fp sc) = some (i * (stride : M31))) := by
    by_cases hs : stride = 1
    · subst hs
      refine ⟨o, b, m, by simp, .refl rfl, rfl, le_refl _, fun _ => ⟨fun _ _ => rfl, ho, ho', fun _ => hS, ?_⟩⟩
      simpa using hi'
    · have hfr : ((b.layout.frame + 1 : ℕ) : ℤ) ≤ hi := by
        rw [if_pos hs] at h
        cases dyn with
        | none =>
          simp only [Except.ok.injEq, Prod.mk.injEq] at h
          obtain ⟨-, rfl⟩ := h
          exact hhi
        | some ex =>
          simp only [Except.ok.injEq, Prod.mk.injEq] at h
          obtain ⟨-, rfl⟩ := h
          simp only [Builder.reserve, Layout.reserve, Builder.feltMulImm, Builder.push] at hhi
          push_cast at hhi ⊢
          omega
      · have rg := w.inRange (o := b.layout.frame) (by omega) (by push_cast at hfr; omega)
        have hsem := sem_mulImm (imm := ofI32 stride) (pc := 0) (adr_ofI32 fp o) (adr_ofI32 fp b.layout.frame) hi' rg
        refine ⟨b.layout.frame, (b.reserve 1).2.feltMulImm o stride (b.reserve 1).1,
          put m (adr fp b.layout.frame) (i * ofI32 stride), by rw [if_pos hs]; rfl,
          .push rfl hsem, rfl, by simp [Builder.reserve, Layout.reserve, Builder.feltMulImm, Builder.push],
          fun _ => ⟨?_, by omega, ?_, fun hf => hnew _ (le_refl _) ?_, ?_⟩⟩
        · intro a ha
          have := ha b.layout.frame ⟨le_refl _, by
            simp [Builder.reserve, Layout.reserve, Builder.feltMulImm, Builder.push]⟩
          simp [put, Function.update_of_ne this]
        · simp [Builder.reserve, Layout.reserve, Builder.feltMulImm, Builder.push]
        · simp only [Builder.reserve, Layout.reserve, Builder.feltMulImm, Builder.push] at hf
          omega
        · rw [felt_put_same rg]; simp [ofI32]
  obtain ⟨sc, b1, m1, e1, g1, g2, g3, g4⟩ := key
  rw [e1] at h
  simp only at h
  cases dyn with
  | none =>
    simp only [Except.ok.injEq, Prod.mk.injEq] at h
    obtain ⟨rfl, rfl⟩ := h
    obtain ⟨g5, g6, g7, g8, g9⟩ := g4 hhi
    simp only [DynHeld] at hd
    subst hd
    exact ⟨m1, g1, g2, g3, g5, g6, g7, g8 (le_refl _), by rw [g9, zero_add]⟩
  | some ex =>
    simp only [Except.ok.injEq, Prod.mk.injEq] at h
    obtain ⟨rfl, rfl⟩ := h
    simp only [Builder.reserve, Layout.reserve, Builder.push] at hhi ⊢
    push_cast at hhi
    obtain ⟨g5, g6, g7, g8, g9⟩ := g4 (by omega)
    obtain ⟨d1, d2, d3, d4⟩ := hd
    have rg := w.inRange (o := b1.layout.frame) (by omega) (by omega)
    have hex : Isa.felt m1 (adr fp ex) = some x := by
      rw [felt_same (g5 _ ?_), d4]
      intro o' ho' e
      have := w.inj d1 (by omega) (by omega) (by omega) e
      omega
    have hsem := sem_add (pc := 0) (adr_ofI32 fp ex) (adr_ofI32 fp sc) (adr_ofI32 fp b1.layout.frame) hex g9 rg
    refine ⟨put m1 (adr fp b1.layout.frame) (x + i * (stride : M31)), g1.trans (.push rfl hsem), g2, by omega, ?_,
      by omega, by push_cast; omega, hnew _ (by omega) (by simp [Builder.reserve, Layout.reserve, Builder.push]), felt_put_same rg⟩
    intro a ha
    have h1 := ha b1.layout.frame (by push_cast; omega)
    simp only [put, Function.update_of_ne h1]
    exact g5 a fun o' ho' => ha o' (by push_cast; omega)

theorem indexOperand_frame {types : ValueId → Option MirType} {id : ValueId} {stride : ℕ} {dyn : Option ℤ}
    {b b' : Builder} {out : ℤ} (h : indexOperand types id stride dyn b = .ok (out, b')) :
    b.layout.frame ≤ b'.layout.frame := by
  unfold indexOperand at h
  split at h
  · cases h
  · cases h
  · replace h := ite_ok h
    · by_cases hs : stride = 1 <;> cases dyn <;>
        simp only [hs, ne_eq, not_true_eq_false, not_false_eq_true, if_true, if_false, Except.ok.injEq,
          Prod.mk.injEq] at h <;> obtain ⟨-, rfl⟩ := h <;>
        simp [Builder.reserve, Layout.reserve, Builder.feltMulImm, Builder.push]
      omega

theorem project_frame {types : ValueId → Option MirType} {ps : List Projection} {ty : MirType} {imm imm' : ℤ}
    {dyn dyn' : Option ℤ} {b b' : Builder} (h : project types ps ty imm dyn b = .ok (imm', dyn', b')) :
    b.layout.frame ≤ b'.layout.frame := by
  induction ps generalizing ty imm dyn b with
  | nil =>
    simp only [project, Except.ok.injEq, Prod.mk.injEq] at h
    obtain ⟨-, -, rfl⟩ := h
    exact le_refl _
  | cons p ps ih =>
    cases p with
    | Index idx =>
      simp only [project] at h
      split at h
      · cases h
      · split at h
        · exact ih h
        · split at h
          · cases h
          · rename_i h1
            exact (indexOperand_frame h1).trans (ih h)
        · cases h
    | Field n =>
      simp only [project] at h
      split at h
      · exact ih h
      · cases h
    | Tuple n =>
      simp only [project] at h
      split at h
      · exact ih h
      · cases h

theorem elementType_ok {ty t : MirType} (h : elementType ty = .ok t) :
    elementOf ty = some t := by
  cases ty <;> cases h <;> rfl

theorem toInt_small {k : BitVec 32} (h : k.toNat < 2 ^ 31) : ((k.toInt : ℤ) : M31) = residue k.toNat := by
  rw [BitVec.toInt_eq_toNat_of_lt (by omega)]
  unfold residue
  simp [Int.cast_natCast]

/-- The code of a path computes its offset. -/
theorem project_runs {types : ValueId → Option MirType} {fp : M31} {lo hi : ℤ} (w : Window fp lo hi) {ρ : ValueId → M31}
    {ps : List Projection} {ty : MirType} {imm imm' : ℤ} {dyn dyn' : Option ℤ} {b b' : Builder} {m : Isa.Mem}
    {x off : M31} {S : ℤ → Prop} {top : ℤ}
    (h : project types ps ty imm dyn b = .ok (imm', dyn', b')) (hhi : (b'.layout.frame : ℤ) ≤ hi)
    (hoff : pathOffset ρ ps ty = some off) (hsm : SmallIndices ps) (htop : top ≤ b.layout.frame)
    (hidx : IndicesHeld b.layout m fp lo top ρ ps)
    (hS : ∀ id o, .Index (.Operand id) ∈ ps → b.layout.values id = some (.slot o) → S o)
    (hd : DynHeld m fp lo b.layout.frame S dyn x)
    (hnew : ∀ o, (b.layout.frame : ℤ) ≤ o → o < b'.layout.frame → S o) :
    ∃ m' x', AddsCode fp b b' m m' ∧ b'.layout.values = b.layout.values ∧ b.layout.frame ≤ b'.layout.frame ∧
      SameExcept fp (fun o => (b.layout.frame : ℤ) ≤ o ∧ o < b'.layout.frame) m m' ∧
      DynHeld m' fp lo b'.layout.frame S dyn' x' ∧ (imm' : M31) + x' = imm + x + off := by
  induction ps generalizing ty imm dyn b m x off with
  | nil =>
    simp only [project, Except.ok.injEq, Prod.mk.injEq] at h
    obtain ⟨rfl, rfl, rfl⟩ := h
    simp only [pathOffset, Option.some.injEq] at hoff
    subst hoff
    exact ⟨m, x, .refl rfl, rfl, le_refl _, fun _ _ => rfl, hd, by simp⟩
  | cons p ps ih =>
    have hsm' : SmallIndices ps := fun k hk => hsm k (by simp [hk])
    have hS' : ∀ id o, .Index (.Operand id) ∈ ps → b.layout.values id = some (.slot o) → S o :=
      fun id o hk => hS id o (by simp [hk])
    have hidx' : IndicesHeld b.layout m fp lo top ρ ps := fun id hk => hidx id (by simp [hk])
    cases p with
    | Index idx =>
      simp only [pathOffset, Option.bind_eq_bind, Option.bind_eq_some_iff, Option.some.injEq] at hoff
      obtain ⟨t, ht, i, hi', rest, hrest, rfl⟩ := hoff
      simp only [project] at h
      split at h
      · cases h
      · rename_i elem hel
        have : elem = t := by
          have := elementType_ok hel
          rw [this] at ht
          exact Option.some.inj ht
        subst this
        cases idx with
        | Error => simp [indexValue] at hi'
        | Literal l =>
          cases l with
          | Unit => simp [indexValue] at hi'
          | Boolean => simp [indexValue] at hi'
          | Integer k =>
            simp only [indexValue, Option.some.injEq] at hi'
            subst hi'
            obtain ⟨m', x', r1, r2, r3, r4, r5, r6⟩ := ih h hrest hsm' htop hidx' hS' hd hnew
            refine ⟨m', x', r1, r2, r3, r4, r5, ?_⟩
            rw [r6, ← toInt_small (hsm k (by simp))]
            push_cast
            ring
        | Operand id =>
          simp only [indexValue, Option.some.injEq] at hi'
          subst hi'
          simp only at h
          split at h
          · cases h
          · rename_i out b1 h1
            obtain ⟨o, ho, ho1, ho2, ho3⟩ := hidx id (by simp)
            have hfr : b1.layout.frame ≤ b'.layout.frame := project_frame h
            obtain ⟨m1, q1, q2, q3, q4, q5⟩ := indexOperand_runs w h1 (by omega) ho ho1 (by omega) ho3
              (hS id o (by simp) ho) hd (fun o h1 h2 => hnew o h1 (by omega))
            obtain ⟨m', x', r1, r2, r3, r4, r5, r6⟩ := ih h hrest hsm' (by omega)
              (fun id hk => by
                obtain ⟨o, c1, c2, c3, c4⟩ := hidx' id hk
                refine ⟨o, by rw [q2]; exact c1, c2, c3, ?_⟩
                rw [felt_same (q4 _ ?_), c4]
                intro o' ho' e
                have := w.inj c2 (by omega) (by omega) (by omega) e
                omega)
              (fun id o hk => by rw [q2]; exact hS' id o hk) q5 (fun o ho => hnew o (by omega))
            refine ⟨m', x', q1.trans r1, r2.trans q2, by omega, ?_, r5, ?_⟩
            · intro a ha
              rw [r4 a fun o ho => ha o (by omega), q4 a fun o ho => ha o (by omega)]
            · rw [r6]; ring
    | Field n =>
      simp only [pathOffset, Option.bind_eq_bind, Option.bind_eq_some_iff, Option.some.injEq] at hoff
      obtain ⟨o, ho, t, ht, rest, hrest, rfl⟩ := hoff
      simp only [project, ho, ht] at h
      obtain ⟨m', x', r1, r2, r3, r4, r5, r6⟩ := ih h hrest hsm' htop hidx' hS' hd hnew
      refine ⟨m', x', r1, r2, r3, r4, r5, ?_⟩
      rw [r6]; push_cast; ring
    | Tuple n =>
      simp only [pathOffset, Option.bind_eq_bind, Option.bind_eq_some_iff, Option.some.injEq] at hoff
      obtain ⟨o, ho, t, ht, rest, hrest, rfl⟩ := hoff
      simp only [project, ho, ht] at h
      obtain ⟨m', x', r1, r2, r3, r4, r5, r6⟩ := ih h hrest hsm' htop hidx' hS' hd hnew
      refine ⟨m', x', r1, r2, r3, r4, r5, ?_⟩
      rw [r6]; push_cast; ring

/-- The code that adds the static offset of a cell to the dynamic one. -/
theorem slotOffset_runs {fp : M31} {lo hi : ℤ} (w : Window fp lo hi) {off imm o : ℤ} {s : ℕ} {b b' : Builder}
    {m : Isa.Mem} {x : M31} (h : slotOffset off imm s b = (o, b')) (hhi : (b'.layout.frame : ℤ) ≤ hi)
    (h1 : lo ≤ off) (h2 : off < b.layout.frame) (h3 : Isa.felt m (adr fp off) = some x) :
    ∃ m', AddsCode fp b b' m m' ∧ b'.layout.values = b.layout.values ∧ b.layout.frame ≤ b'.layout.frame ∧
      SameExcept fp (fun o => (b.layout.frame : ℤ) ≤ o ∧ o < b'.layout.frame) m m' ∧
      Isa.felt m' (adr fp o) = some (imm + x + s) ∧ (o = off ∨ ((b.layout.frame : ℤ) ≤ o ∧ o < b'.layout.frame)) := by
  unfold slotOffset at h
  by_cases hc : imm ≠ 0 ∨ s ≠ 0
  · rw [if_pos hc] at h
    obtain ⟨rfl, rfl⟩ := Prod.mk.inj h
    simp only [Builder.reserve, Layout.reserve, Builder.feltAddImm, Builder.push] at hhi ⊢
    push_cast at hhi
    have rg := w.inRange (o := b.layout.frame) (by omega) (by omega)
    have hsem := sem_addImm (imm := ofI32 (imm + s)) (pc := 0) (adr_ofI32 fp off) (adr_ofI32 fp b.layout.frame) h3 rg
    refine ⟨_, .push rfl hsem, trivial, by omega, ?_, ?_, .inr ⟨le_refl _, by push_cast; omega⟩⟩
    · intro a ha
      have := ha b.layout.frame ⟨le_refl _, by push_cast; omega⟩
      simp [put, Function.update_of_ne this]
    · rw [felt_put_same rg, ofI32_eq]
      push_cast
      congr 1
      ring
  · rw [if_neg hc] at h
    obtain ⟨rfl, rfl⟩ := Prod.mk.inj h
    push Not at hc
    obtain ⟨rfl, rfl⟩ := hc
    exact ⟨m, .refl rfl, rfl, le_refl _, fun _ _ => rfl, by simpa using h3, .inl rfl⟩

theorem slotOffset_frame {off imm o : ℤ} {s : ℕ} {b b' : Builder} (h : slotOffset off imm s b = (o, b')) :
    b.layout.frame ≤ b'.layout.frame := by
  unfold slotOffset at h
  split at h <;> obtain ⟨rfl, rfl⟩ := Prod.mk.inj h <;>
    simp [Builder.reserve, Layout.reserve, Builder.feltAddImm, Builder.push]

theorem loadSlots_frame {base imm d : ℤ} {dyn : Option ℤ} {n s : ℕ} {b : Builder} :
    b.layout.frame ≤ (loadSlots base imm dyn d n s b).layout.frame := by
  induction n generalizing s b with
  | zero => exact le_refl _
  | succ n ih =>
    cases dyn with
    | none => exact ih (b := b.loadImm base (imm + s) (d + s))
    | some off =>
      rcases h : slotOffset off imm s b with ⟨o, b1⟩
      simp only [loadSlots, h]
      exact (slotOffset_frame h).trans (ih (b := b1.loadFp base o (d + s)))

theorem storeSlots_frame {base imm d : ℤ} {dyn : Option ℤ} {n s : ℕ} {b : Builder} :
    b.layout.frame ≤ (storeSlots base imm dyn d n s b).layout.frame := by
  induction n generalizing s b with
  | zero => exact le_refl _
  | succ n ih =>
    cases dyn with
    | none => exact ih (b := b.storeToImm (d + s) base (imm + s))
    | some off =>
      rcases h : slotOffset off imm s b with ⟨o, b1⟩
      simp only [storeSlots, h]
      exact (slotOffset_frame h).trans (ih (b := b1.storeToFp base o (d + s)))

/-- One cell of a load. -/
theorem loadSlots_runs {fp : M31} {lo hi : ℤ} (w : Window fp lo hi) {base imm d : ℤ} {dyn : Option ℤ} {n s : ℕ}
    {b : Builder} {m : Isa.Mem} {p x : M31} {y : ℕ → M31} {S : ℤ → Prop}
    (hhi : ((loadSlots base imm dyn d n s b).layout.frame : ℤ) ≤ hi)
    (hb1 : lo ≤ base) (hb2 : base < b.layout.frame) (hb3 : Isa.felt m (adr fp base) = some p) (hbS : S base)
    (hd : DynHeld m fp lo b.layout.frame S dyn x)
    (hd1 : lo ≤ d) (hd2 : d + (s + n : ℕ) ≤ b.layout.frame) (hdS : ∀ o, d ≤ o → o < d + (s + n : ℕ) → ¬ S o)
    (hy : ∀ j, s ≤ j → j < s + n → Isa.felt m (p + (imm + x) + j) = some (y j))
    (hsep : ∀ j, s ≤ j → j < s + n → ∀ o, (d ≤ o ∧ o < d + (s + n : ℕ)) ∨
      ((b.layout.frame : ℤ) ≤ o ∧ o < (loadSlots base imm dyn d n s b).layout.frame) →
      p + (imm + x) + (j : M31) ≠ adr fp o) :
    ∃ m', AddsCode fp b (loadSlots base imm dyn d n s b) m m' ∧
      (loadSlots base imm dyn d n s b).layout.values = b.layout.values ∧
      SameExcept fp (fun o => (d + s ≤ o ∧ o < d + (s + n : ℕ)) ∨
        ((b.layout.frame : ℤ) ≤ o ∧ o < (loadSlots base imm dyn d n s b).layout.frame)) m m' ∧
      ∀ j, s ≤ j → j < s + n → Isa.felt m' (adr fp (d + j)) = some (y j) := by
  induction n generalizing s b m with
  | zero => exact ⟨m, .refl rfl, rfl, fun _ _ => rfl, fun j h1 h2 => by omega⟩
  | succ n ih =>
    -- one step writes `y s` to the slot `d + s`, through a builder with more frame
    have hstep : ∃ (b1 : Builder) (m1 : Isa.Mem), loadSlots base imm dyn d (n + 1) s b = loadSlots base imm dyn d n (s + 1) b1 ∧
        AddsCode fp b b1 m (put m1 (adr fp (d + s)) (y s)) ∧ b1.layout.values = b.layout.values ∧
        b.layout.frame ≤ b1.layout.frame ∧
        SameExcept fp (fun o => (b.layout.frame : ℤ) ≤ o ∧ o < b1.layout.frame) m m1 := by
      have rg := w.inRange (o := d + s) (by omega) (by
        have := loadSlots_frame (base := base) (imm := imm) (dyn := dyn) (d := d) (n := n + 1) (s := s) (b := b)
        omega)
      cases dyn with
      | none =>
        simp only [DynHeld] at hd
        subst hd
        have hv := hy s (le_refl _) (by omega)
        have hsem := sem_load (imm := ofI32 (imm + s)) (pc := 0) (y := y s) (adr_ofI32 fp base) (adr_ofI32 fp (d + s)) hb3 (by
          rw [ofI32_eq, ← hv]; push_cast; congr 1; ring) rg
        exact ⟨b.loadImm base (imm + s) (d + s), m, rfl, .push rfl hsem, rfl, le_refl _, fun _ _ => rfl⟩
      | some off =>
        rcases h : slotOffset off imm s b with ⟨o, b1⟩
        have hf : b1.layout.frame ≤ (loadSlots base imm (some off) d (n + 1) s b).layout.frame := by
          simp only [loadSlots, h]
          exact loadSlots_frame (b := b1.loadFp base o (d + s))
        obtain ⟨d1, d2, d3, d4⟩ := hd
        obtain ⟨m1, e1, e2, e3, e4, e5, e6⟩ := slotOffset_runs w h (by omega) d1 d2 d4
        have hv := hy s (le_refl _) (by omega)
        have hv1 : Isa.felt m1 (p + (imm + x) + s) = some (y s) := by
          rw [felt_same (e4 _ fun o' ho' => hsep s (le_refl _) (by omega) o' (.inr ⟨ho'.1, by omega⟩)), hv]
        have hb4 : Isa.felt m1 (adr fp base) = some p := by
          rw [felt_same (e4 _ ?_), hb3]
          intro o' ho' e
          have := w.inj hb1 (by omega) (by omega) (by omega) e
          omega
        have hsem := sem_loadFp (pc := 0) (x := y s) (adr_ofI32 fp base) (adr_ofI32 fp o) (adr_ofI32 fp (d + s)) hb4 e5 (by
          rw [← hv1]; congr 1; ring) rg
        exact ⟨b1.loadFp base o (d + s), m1, by simp only [loadSlots, h], e1.trans (.push rfl hsem), e2, e3, e4⟩
    obtain ⟨b1, m1, e0, e1, e2, e3, e4⟩ := hstep
    rw [e0] at hhi hsep ⊢
    have hf := loadSlots_frame (base := base) (imm := imm) (dyn := dyn) (d := d) (n := n) (s := s + 1) (b := b1)
    -- slots below the frame other than `d + s` are unchanged
    have keep : ∀ o, lo ≤ o → o < b.layout.frame → o ≠ d + s →
        Isa.felt (put m1 (adr fp (d + s)) (y s)) (adr fp o) = Isa.felt m (adr fp o) := by
      intro o h1 h2 h3
      rw [felt_put_ne (fun e => h3 (w.inj h1 (by omega) (by omega) (by omega) e)), felt_same (e4 _ ?_)]
      intro o' ho' e
      have := w.inj h1 (by omega) (by omega) (by omega) e
      omega
    have keepx : ∀ j, s + 1 ≤ j → j < s + 1 + n →
        Isa.felt (put m1 (adr fp (d + s)) (y s)) (p + (imm + x) + j) = some (y j) := by
      intro j h1 h2
      rw [felt_put_ne (hsep j (by omega) (by omega) (d + s) (.inl (by omega))),
        felt_same (e4 _ fun o' ho' => hsep j (by omega) (by omega) o' (.inr ⟨ho'.1, by omega⟩)),
        hy j (by omega) (by omega)]
    obtain ⟨m', r1, r2, r3, r4⟩ := ih (s := s + 1) (b := b1) (m := put m1 (adr fp (d + s)) (y s)) hhi (by omega)
      (by rw [keep base hb1 hb2 (fun e => hdS base (by omega) (by omega) hbS), hb3])
      (by
        cases dyn with
        | none => exact hd
        | some off =>
          obtain ⟨d1, d2, d3, d4⟩ := hd
          exact ⟨d1, by omega, d3, by rw [keep off d1 d2 (fun e => hdS off (by omega) (by omega) d3), d4]⟩)
      (by push_cast at hd2 ⊢; omega) (fun o h1 h2 => hdS o h1 (by push_cast at h2 ⊢; omega)) keepx
      (fun j h1 h2 o ho => hsep j (by omega) (by omega) o (by
        rcases ho with ho | ho
        · exact .inl (by push_cast at ho ⊢; omega)
        · exact .inr ⟨by omega, ho.2⟩))
    refine ⟨m', e1.trans r1, r2.trans e2, ?_, ?_⟩
    · intro a ha
      rw [r3 a fun o ho => ha o (by
        rcases ho with ho | ho
        · exact .inl (by push_cast at ho ⊢; omega)
        · exact .inr ⟨by omega, ho.2⟩)]
      have h1 := ha (d + s) (.inl (by push_cast; omega))
      simp only [put, Function.update_of_ne h1]
      exact e4 a fun o ho => ha o (.inr ⟨ho.1, by omega⟩)
    · intro j h1 h2
      by_cases hj : j = s
      · subst hj
        rw [felt_same (r3 _ ?_)]
        · exact felt_put_same (w.inRange (by omega) (by omega))
        · intro o ho e
          rcases ho with ho | ho
          · have := w.inj (o := d + j) (by omega) (by omega) (by omega) (by push_cast at *; omega) e
            push_cast at *
            omega
          · have := w.inj (o := d + j) (by omega) (by omega) (by omega) (by omega) e
            omega
      · exact r4 j (by omega) (by omega)

theorem natCast_inj {i j : ℕ} (hi : i < P) (hj : j < P) (h : (i : M31) = j) : i = j := by
  have := congrArg ZMod.val h
  rwa [ZMod.val_natCast, ZMod.val_natCast, Nat.mod_eq_of_lt hi, Nat.mod_eq_of_lt hj] at this

/-- One cell of a store. -/
theorem storeSlots_runs {fp : M31} {lo hi : ℤ} (w : Window fp lo hi) {base imm src : ℤ} {dyn : Option ℤ} {n s : ℕ}
    {b : Builder} {m : Isa.Mem} {p x : M31} {y : ℕ → M31} {S : ℤ → Prop}
    (hhi : ((storeSlots base imm dyn src n s b).layout.frame : ℤ) ≤ hi) (hP : s + n < P)
    (hb1 : lo ≤ base) (hb2 : base < b.layout.frame) (hb3 : Isa.felt m (adr fp base) = some p) (hbS : S base)
    (hd : DynHeld m fp lo b.layout.frame S dyn x)
    (hs1 : lo ≤ src) (hs2 : src + (s + n : ℕ) ≤ b.layout.frame)
    (hy : ∀ j, s ≤ j → j < s + n → Isa.felt m (adr fp (src + j)) = some (y j))
    (hr : ∀ j, s ≤ j → j < s + n → Isa.InRange (p + (imm + x) + (j : M31)))
    (hsep : ∀ j, s ≤ j → j < s + n → ∀ o, S o ∨ (src ≤ o ∧ o < src + (s + n : ℕ)) ∨
      ((b.layout.frame : ℤ) ≤ o ∧ o < (storeSlots base imm dyn src n s b).layout.frame) →
      p + (imm + x) + (j : M31) ≠ adr fp o) :
    ∃ m', AddsCode fp b (storeSlots base imm dyn src n s b) m m' ∧
      (∀ j, s ≤ j → j < s + n → Isa.felt m' (p + (imm + x) + j) = some (y j)) ∧
      ∀ a, (∀ j, s ≤ j → j < s + n → a ≠ p + (imm + x) + (j : M31)) →
        (∀ o, (b.layout.frame : ℤ) ≤ o ∧ o < (storeSlots base imm dyn src n s b).layout.frame → a ≠ adr fp o) →
        m' a = m a := by
  induction n generalizing s b m with
  | zero => exact ⟨m, .refl rfl, fun j h1 h2 => by omega, fun _ _ _ => rfl⟩
  | succ n ih =>
    have rg := hr s (le_refl _) (by omega)
    have hstep : ∃ (b1 : Builder) (m1 : Isa.Mem),
        storeSlots base imm dyn src (n + 1) s b = storeSlots base imm dyn src n (s + 1) b1 ∧
        AddsCode fp b b1 m (put m1 (p + (imm + x) + s) (y s)) ∧ b.layout.frame ≤ b1.layout.frame ∧
        SameExcept fp (fun o => (b.layout.frame : ℤ) ≤ o ∧ o < b1.layout.frame) m m1 := by
      have hv := hy s (le_refl _) (by omega)
      cases dyn with
      | none =>
        simp only [DynHeld] at hd
        subst hd
        have e : p + ofI32 (imm + s) = p + (imm + 0) + s := by rw [ofI32_eq]; push_cast; ring
        have hsem := sem_store (imm := ofI32 (imm + s)) (pc := 0) (y := y s) (adr_ofI32 fp base) (adr_ofI32 fp (src + s)) hb3 hv
          (by rw [e]; exact rg)
        rw [e] at hsem
        exact ⟨b.storeToImm (src + s) base (imm + s), m, rfl, .push rfl hsem, le_refl _, fun _ _ => rfl⟩
      | some off =>
        rcases h : slotOffset off imm s b with ⟨o, b1⟩
        have hf : b1.layout.frame ≤ (storeSlots base imm (some off) src (n + 1) s b).layout.frame := by
          simp only [storeSlots, h]
          exact storeSlots_frame (b := b1.storeToFp base o (src + s))
        obtain ⟨d1, d2, d3, d4⟩ := hd
        obtain ⟨m1, e1, e2, e3, e4, e5, e6⟩ := slotOffset_runs w h (by omega) d1 d2 d4
        have low : ∀ o, lo ≤ o → o < b.layout.frame → Isa.felt m1 (adr fp o) = Isa.felt m (adr fp o) := by
          intro o h1 h2
          rw [felt_same (e4 _ ?_)]
          intro o' ho' e
          have := w.inj h1 (by omega) (by omega) (by omega) e
          omega
        have e : p + (imm + x + s) = p + (imm + x) + s := by ring
        have hsem := sem_storeFp (pc := 0) (x := y s) (adr_ofI32 fp base) (adr_ofI32 fp o) (adr_ofI32 fp (src + s))
          (by rw [low base hb1 hb2, hb3]) e5 (by rw [low (src + s) (by omega) (by push_cast at hs2; omega), hv])
          (by rw [e]; exact rg)
        rw [e] at hsem
        exact ⟨b1.storeToFp base o (src + s), m1, by simp only [storeSlots, h], e1.trans (.push rfl hsem), e3, e4⟩
    obtain ⟨b1, m1, e0, e1, e3, e4⟩ := hstep
    rw [e0] at hhi hsep ⊢
    have hf := storeSlots_frame (base := base) (imm := imm) (dyn := dyn) (d := src) (n := n) (s := s + 1) (b := b1)
    have keep : ∀ o, lo ≤ o → o < b.layout.frame → (S o ∨ (src ≤ o ∧ o < src + (s + (n + 1) : ℕ))) →
        Isa.felt (put m1 (p + (imm + x) + s) (y s)) (adr fp o) = Isa.felt m (adr fp o) := by
      intro o h1 h2 h3
      rw [felt_put_ne (hsep s (le_refl _) (by omega) o (by tauto)).symm, felt_same (e4 _ ?_)]
      intro o' ho' e
      have := w.inj h1 (by omega) (by omega) (by omega) e
      omega
    obtain ⟨m', r1, r2, r3⟩ := ih (s := s + 1) (b := b1) (m := put m1 (p + (imm + x) + s) (y s)) hhi (by omega) (by omega)
      (by rw [keep base hb1 hb2 (.inl hbS), hb3])
      (by
        cases dyn with
        | none => exact hd
        | some off =>
          obtain ⟨d1, d2, d3, d4⟩ := hd
          exact ⟨d1, by omega, d3, by rw [keep off d1 d2 (.inl d3), d4]⟩)
      (by push_cast at hs2 ⊢; omega)
      (fun j h1 h2 => by
        rw [keep (src + j) (by omega) (by push_cast at hs2; omega) (.inr (by push_cast; omega)),
          hy j (by omega) (by omega)])
      (fun j h1 h2 => hr j (by omega) (by omega))
      (fun j h1 h2 o ho => hsep j (by omega) (by omega) o (by
        rcases ho with ho | ho | ho
        · exact .inl ho
        · exact .inr (.inl (by push_cast at ho ⊢; omega))
        · exact .inr (.inr ⟨by omega, ho.2⟩)))
    refine ⟨m', e1.trans r1, ?_, ?_⟩
    · intro j h1 h2
      by_cases hj : j = s
      · subst hj
        rw [felt_same (r3 _ ?_ ?_)]
        · exact felt_put_same rg
        · intro k h3 h4 e
          have := natCast_inj (by omega) (by omega) (add_left_cancel e)
          omega
        · intro o ho
          exact hsep j (le_refl _) (by omega) o (.inr (.inr ⟨by omega, ho.2⟩))
      · exact r2 j (by omega) (by omega)
    · intro a h1 h2
      rw [r3 a (fun j h3 h4 => h1 j (by omega) (by omega)) (fun o ho => h2 o ⟨by omega, ho.2⟩)]
      have h3 := h1 s (le_refl _) (by omega)
      simp only [put, Function.update_of_ne h3]
      exact e4 a fun o ho => h2 o ⟨ho.1, by omega⟩

end Codegen
end CairoM
