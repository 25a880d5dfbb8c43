import Verif.ProgramEv

/-!
# Helper lemmas: the frame layout while the code of a function with calls is generated
-/

namespace CairoM
namespace Codegen

open Mir Lang Relation

/-- Where a value may be: a parameter in its slot, any other value above the saved registers or, when a block
computes and returns it, in its return slot. -/
def Zone (f : Function) (L : Layout) (ts : List MirType) (v : ValueId) (s : Slot) : Prop :=
  (v ∈ f.params ∧ L.values v = some s ∧ s.off + s.size ≤ -2 - Builder.sizeSum ts) ∨ (v ∉ f.params ∧ 0 ≤ s.off) ∨
    (v ∉ f.params ∧ ∃ blk ∈ f.blocks, MovedIn blk v ∧ Returns blk.term v ∧
      s.off = retOff ts (firstIdx blk.term v) ∧ s.off + s.size ≤ -2)

/-- The layout while code is generated. -/
structure Spread (f : Function) (L : Layout) (lo : ℤ) (ts : List MirType) (l : Layout) : Prop where
  shape : Shape f lo ts l
  known : ∀ v s, L.values v = some s → ∃ t, l.values v = some t
  zone : ∀ v s, l.values v = some s → Zone f L ts v s
  apart : ∀ v w s t, v ≠ w → l.values v = some s → l.values w = some t → 0 ≤ s.off → 0 ≤ t.off →
    Apart s.off s.size t.off t.size

/-- All slots end at or below an offset. -/
def Ends (l : Layout) (o : ℤ) : Prop := ∀ v s, l.values v = some s → s.off + s.size ≤ o

/-- Every value except the arguments of a call that follows lies in the part known to be written. -/
structure Track (next : Option Instr) (b : Builder) : Prop where
  low : 0 ≤ b.maxWritten + 1
  high : b.maxWritten + 1 ≤ b.layout.frame
  within : ∀ v s, b.layout.values v = some s → s.off + s.size ≤ b.maxWritten + 1 ∨
    ∃ ds c args sig, next = some (.Call ds c args sig) ∧ .Operand v ∈ args

variable {code : List IB} {tgt : Name → Option ℕ} {fp : M31} {m : Isa.Mem} {b b' b₁ : Builder} {lo hi : ℤ}
  {f : Function} {L l : Layout} {ts : List MirType} {blk : Block} {md : Module} {g g' : Gen} {i : Instr}
  {next : Option Instr} {d : ValueId}

theorem Spread.ends (h : Spread f L lo ts l) : Ends l l.frame := fun v s hs => (h.shape.range v s hs).2

theorem Spread.emits (h : Spread f L lo ts b.layout) (e : Emits lo b b') : Spread f L lo ts b'.layout := by
  have hv := e.values
  refine ⟨h.shape.emits e, fun v s hs => ?_, fun v s hs => ?_, fun v w s t hne hs ht => ?_⟩
  · rw [hv]; exact h.known v s hs
  · rw [hv] at hs; exact h.zone v s hs
  · rw [hv] at hs ht; exact h.apart v w s t hne hs ht

theorem Track.emits (h : Track next b) (e : Emits lo b b') : Track next b' := by
  have hf := e.frame
  refine ⟨by rw [e.written]; exact h.low, by rw [e.written]; have := h.high; omega, fun v s hs => ?_⟩
  rw [e.values] at hs
  rw [e.written]
  exact h.within v s hs

theorem mapValue_values (l : Layout) (d : ValueId) (o : ℤ) :
    (l.mapValue d o).values = Function.update l.values d (some (Slot.of o (l.valueSize d))) := by
  unfold Layout.mapValue
  simp only
  split_ifs <;> rfl

theorem mapValue_frame (l : Layout) (d : ValueId) (o : ℤ) :
    l.frame ≤ (l.mapValue d o).frame ∧ o + l.valueSize d ≤ (l.mapValue d o).frame := by
  unfold Layout.mapValue
  simp only
  split_ifs with h
  · simp only; omega
  · exact ⟨le_rfl, by simp only [Layout.insert]; omega⟩

theorem mapValue_ret (l : Layout) (d : ValueId) (o : ℤ) : (l.mapValue d o).retSlots = l.retSlots := by
  unfold Layout.mapValue
  simp only
  split_ifs <;> rfl

theorem valueSize_eq {s : Slot} (h : l.values d = some s) : l.valueSize d = s.size := by
  simp [Layout.valueSize, h]

/-- The slot given to a value and the layout afterwards. -/
theorem Spread.map {o : ℤ} {s0 : Slot} (h : Spread f L lo ts l) (hs0 : l.values d = some s0)
    (hlo : lo ≤ o) (hz : Zone f L ts d (Slot.of o s0.size))
    (hap : 0 ≤ o → Ends l o) : Spread f L lo ts (l.mapValue d o) := by
  have hv := mapValue_values l d o
  obtain ⟨hf1, hf2⟩ := mapValue_frame l d o
  rw [valueSize_eq hs0] at hv hf2
  refine ⟨⟨fun v s hs => ?_, fun v s hs => ?_, by rw [mapValue_ret]; exact h.shape.ret⟩, fun v s hs => ?_,
    fun v s hs => ?_, fun v w s t hne hs ht p1 p2 => ?_⟩
  · rw [hv] at hs
    by_cases e : v = d
    · subst e
      simp only [Function.update_self, Option.some.injEq] at hs
      subst hs
      rw [slot_of_off, slot_of_size]
      exact ⟨hlo, hf2⟩
    · rw [Function.update_of_ne e] at hs
      obtain ⟨h1, h2⟩ := h.shape.range v s hs
      exact ⟨h1, by omega⟩
  · rw [hv] at hs
    by_cases e : v = d
    · subst e
      simp only [Function.update_self, Option.some.injEq] at hs
      subst hs
      rw [slot_of_size]
      exact h.shape.sized v s0 hs0
    · rw [Function.update_of_ne e] at hs
      exact h.shape.sized v s hs
  · rw [hv]
    by_cases e : v = d
    · subst e; exact ⟨_, Function.update_self ..⟩
    · rw [Function.update_of_ne e]; exact h.known v s hs
  · rw [hv] at hs
    by_cases e : v = d
    · subst e
      simp only [Function.update_self, Option.some.injEq] at hs
      subst hs
      exact hz
    · rw [Function.update_of_ne e] at hs
      exact h.zone v s hs
  · rw [hv] at hs ht
    by_cases e : v = d
    · subst e
      rw [Function.update_of_ne (Ne.symm hne)] at ht
      simp only [Function.update_self, Option.some.injEq] at hs
      subst hs
      rw [slot_of_off] at p1 ⊢
      have := hap p1 w t ht
      exact .inr this
    · rw [Function.update_of_ne e] at hs
      by_cases e' : w = d
      · subst e'
        simp only [Function.update_self, Option.some.injEq] at ht
        subst ht
        rw [slot_of_off] at p2 ⊢
        have := hap p2 v s hs
        exact .inl this
      · rw [Function.update_of_ne e'] at ht
        exact h.apart v w s t hne hs ht p1 p2

/-! ### The slot of a result -/

/-- The slot chosen for a result. -/
inductive Choice (ts : List MirType) (term : Terminator) (next : Option Instr) (b : Builder) (i : Instr) (d : ValueId) :
    Builder → Prop
  | same : Choice ts term next b i d b
  | arg {o : ℤ} (h : argPlacement d next b = some o) : Choice ts term next b i d (b.mapValue d o)
  | ret (h : Returns term d) : Choice ts term next b i d (b.mapValue d (retOff ts (firstIdx term d)))

theorem gen_dest_calls (hc : Sig f lo ts) (ht : TermTyped f blk.term) (hsim : InstrSimple f.types i)
    (hd : i.destinations = [d]) {s1 : Slot} (hs1 : b.layout.values d = some s1)
    (h : genInstr md f blk.term g b i next = .ok (g', b')) :
    g' = g ∧ ∃ b₁ s, b₁.layout.values d = some s ∧ emit b₁ i s.off = .ok b' ∧ Choice ts blk.term next b i d b₁ := by
  have slot : ∀ o, (b.mapValue d o).layout.values d = some (Slot.of o s1.size) := by
    intro o
    simp only [Builder.mapValue, mapValue_values, Function.update_self, valueSize_eq hs1]
  have arg : ∀ {o : ℤ}, argPlacement d next b = some o → emit (b.mapValue d o) i o = .ok b' →
      ∃ b₁ s, b₁.layout.values d = some s ∧ emit b₁ i s.off = .ok b' ∧ Choice ts blk.term next b i d b₁ :=
    fun ha he => ⟨_, _, slot _, by rw [slot_of_off]; exact he, .arg ha⟩
  have ret : ∀ {o : Option ℤ}, o = (if Returns blk.term d then some (retOff ts (firstIdx blk.term d)) else none) →
      (o = none → emit b i s1.off = .ok b') → (∀ off, o = some off → emit (b.mapValue d off) i off = .ok b') →
      ∃ b₁ s, b₁.layout.values d = some s ∧ emit b₁ i s.off = .ok b' ∧ Choice ts blk.term next b i d b₁ := by
    intro o ho h1 h2
    split_ifs at ho with hr
    · exact ⟨_, _, slot _, by rw [slot_of_off]; exact h2 _ ho, .ret hr⟩
    · exact ⟨b, s1, hs1, h1 ho, .same⟩
  have hoff := getOffset_ok hs1
  cases i <;> simp only [InstrSimple] at hsim <;> simp only [Instr.destinations, List.cons.injEq, and_true, reduceCtorEq] at hd
  case Assign d' v ty =>
    subst hd
    have ha : b.allocateLocal d' ty.memSize = (s1.off, b) := by simp [Builder.allocateLocal, Layout.allocateLocal, hs1]
    simp only [genInstr, placement, Bind.bind, Except.bind] at h
    cases harg : argPlacement d' next b with
    | some o =>
      simp only [harg] at h
      split at h
      · cases h
      rename_i c hc'
      cases h
      exact ⟨rfl, arg harg hc'⟩
    | none =>
      simp only [harg] at h
      split at h
      · cases h
      rename_i o ho
      have ho := returnPlacement_eq hc ht ho
      split at h
      · cases h
      rename_i c hc'
      cases h
      refine ⟨rfl, ret ho (fun e => ?_) (fun off e => ?_)⟩ <;> subst e
      · simp only [Builder.assign, ha] at hc'
        exact hc'
      · exact hc'
  case UnaryOp op d' v =>
    subst hd
    simp only [genInstr, placement, Bind.bind, Except.bind] at h
    cases harg : argPlacement d' next b with
    | some o =>
      simp only [harg] at h
      split at h
      · cases h
      rename_i c hc'
      cases h
      refine ⟨rfl, arg harg ?_⟩
      simp only [Builder.unaryOp, Builder.destOffset, Bind.bind, Except.bind] at hc'
      cases op <;> exact hc'
    | none =>
      simp only [harg] at h
      split at h
      · cases h
      rename_i o ho
      have ho := returnPlacement_eq hc ht ho
      split at h
      · cases h
      rename_i c hc'
      cases h
      refine ⟨rfl, ret ho (fun e => ?_) (fun off e => ?_)⟩ <;> subst e <;>
        simp only [Builder.unaryOp, Builder.destOffset, hoff, Bind.bind, Except.bind] at hc' <;>
        cases op <;> exact hc'
  case BinaryOp op d' l r =>
    subst hd
    simp only [genInstr, Bind.bind, Except.bind] at h
    cases harg : argPlacement d' next b with
    | some o =>
      simp only [harg] at h
      split at h
      · cases h
      rename_i c hc'
      cases h
      refine ⟨rfl, arg harg ?_⟩
      simp only [Builder.binaryOp, Builder.destOffset, Bind.bind, Except.bind] at hc'
      exact hc'
    | none =>
      simp only [harg] at h
      by_cases hw : wideResult op = true
      · simp only [hw, if_true] at h
        split at h
        · cases h
        rename_i c hc'
        cases h
        simp only [Builder.binaryOp, Builder.destOffset, hoff, Bind.bind, Except.bind] at hc'
        exact ⟨rfl, b, s1, hs1, hc', .same⟩
      · simp only [hw, Bool.false_eq_true, if_false] at h
        split at h
        · cases h
        rename_i o ho
        split at h
        · cases h
        rename_i c hc'
        cases h
        have ho := returnPlacement_eq hc ht ho
        refine ⟨rfl, ret ho (fun e => ?_) (fun off e => ?_)⟩ <;> subst e <;>
          simp only [Builder.binaryOp, Builder.destOffset, hoff, Bind.bind, Except.bind] at hc' <;> exact hc'
  case Cast d' v st tt =>
    subst hd
    simp only [genInstr, Bind.bind, Except.bind] at h
    split at h
    · cases h
    rename_i c hc'
    cases h
    refine ⟨rfl, b, s1, hs1, ?_, .same⟩
    cases st <;> simp only [Builder.cast, reduceCtorEq] at hc'
    cases tt <;> simp only [reduceCtorEq] at hc'
    have ha : b.allocateLocal d' 1 = (s1.off, b) := by simp [Builder.allocateLocal, Layout.allocateLocal, hs1]
    rw [ha] at hc'
    simp only at hc'
    cases v with
    | Operand id => exact hc'
    | Error => cases hc'
    | Literal lit => cases lit <;> first | exact hc' | cases hc'

end Codegen
end CairoM
