import Verif.Codegen
import Mathlib.Tactic.Linarith
import Mathlib.Tactic.SplitIfs

/-!
# Frame layouts (C54)

A frame consists of, from low to high offsets, the parameters, the return slots, the two saved registers at
offsets `-2` and `-1`, the locals and temporaries from offset 0 on.
-/

namespace CairoM
namespace Codegen

open Mir

/-- The slots of a value do not overlap another range. -/
def Apart (o : ℤ) (n : ℕ) (o' : ℤ) (n' : ℕ) : Prop := o + n ≤ o' ∨ o' + n' ≤ o

theorem slot_of_off (o : ℤ) (n : ℕ) : (Slot.of o n).off = o := by unfold Slot.of; split_ifs <;> rfl

theorem slot_of_size (o : ℤ) (n : ℕ) : (Slot.of o n).size = n := by
  unfold Slot.of
  split_ifs with h
  · exact h.symm
  · rfl

/-- The values laid out so far are pairwise apart and inside the range from `lo` to `hi`. -/
structure Packed (l : Layout) (types : ValueId → Option MirType) (R : ℤ → ℕ → Prop) : Prop where
  range : ∀ v s, l.values v = some s → R s.off s.size
  apart : ∀ v w s t, v ≠ w → l.values v = some s → l.values w = some t → Apart s.off s.size t.off t.size
  sized : ∀ v s, l.values v = some s → ∃ t, types v = some t ∧ s.size = t.memSize

theorem insert_same (l : Layout) (v : ValueId) (s : Slot) : (l.insert v s).values v = some s := by
  simp [Layout.insert]

theorem insert_ne (l : Layout) {v w : ValueId} (s : Slot) (h : w ≠ v) : (l.insert v s).values w = l.values w := by
  simp [Layout.insert, Function.update_of_ne h]

theorem Packed.insert {l : Layout} {types : ValueId → Option MirType} {R R' : ℤ → ℕ → Prop} {v : ValueId} {t : MirType}
    {o : ℤ} (h : Packed l types R) (ht : types v = some t) (hR : ∀ o n, R o n → R' o n) (hn : R' o t.memSize)
    (hap : ∀ o' n', R o' n' → Apart o' n' o t.memSize) : Packed (l.insert v (Slot.of o t.memSize)) types R' := by
  refine ⟨fun w s hw => ?_, fun w x s s' hne hw hx => ?_, fun w s hw => ?_⟩
  · by_cases hwv : w = v
    · subst hwv
      rw [insert_same] at hw; injection hw with hw; subst hw
      rw [slot_of_off, slot_of_size]; exact hn
    · rw [insert_ne _ _ hwv] at hw
      exact hR _ _ (h.range w s hw)
  · by_cases hwv : w = v
    · subst hwv
      rw [insert_same] at hw; injection hw with hw; subst hw
      rw [insert_ne _ _ (fun e => hne e.symm)] at hx
      rw [slot_of_off, slot_of_size]
      exact (hap _ _ (h.range x s' hx)).symm
    · rw [insert_ne _ _ hwv] at hw
      by_cases hxv : x = v
      · subst hxv
        rw [insert_same] at hx; injection hx with hx; subst hx
        rw [slot_of_off, slot_of_size]
        exact hap _ _ (h.range w s hw)
      · rw [insert_ne _ _ hxv] at hx
        exact h.apart w x s s' hne hw hx
  · by_cases hwv : w = v
    · subst hwv
      rw [insert_same] at hw; injection hw with hw; subst hw
      exact ⟨t, ht, slot_of_size _ _⟩
    · rw [insert_ne _ _ hwv] at hw
      exact h.sized w s hw

theorem allocParams_packed {types : ValueId → Option MirType} {lo hi : ℤ} : ∀ {vs : List ValueId} {off : ℤ} {n : ℕ}
    {l l' : Layout}, Layout.sizeOfAll types vs = .ok n → off + n ≤ hi → lo ≤ off →
    Packed l types (fun o k => lo ≤ o ∧ o + k ≤ off) → Layout.allocParams types vs off l = .ok l' →
    Packed l' types (fun o k => lo ≤ o ∧ o + k ≤ hi) ∧ l'.frame = l.frame ∧ l'.retSlots = l.retSlots ∧
      (∀ v, (l.values v).isSome ∨ v ∈ vs ↔ (l'.values v).isSome)
  | [], off, n, l, l', hn, hle, hlo, hp, h => by
    simp only [Layout.allocParams, Except.ok.injEq] at h
    subst h
    simp only [Layout.sizeOfAll, Except.ok.injEq] at hn
    subst hn
    refine ⟨⟨fun v s hv => ?_, hp.apart, hp.sized⟩, rfl, rfl, by simp⟩
    have := hp.range v s hv
    simp only [Nat.cast_zero, add_zero] at hle
    omega
  | v :: vs, off, n, l, l', hn, hle, hlo, hp, h => by
    simp only [Layout.allocParams] at h
    simp only [Layout.sizeOfAll] at hn
    cases ht : types v with
    | none => rw [ht] at h; cases h
    | some t =>
      rw [ht] at h hn
      cases hk : Layout.sizeOfAll types vs with
      | error e => simp only [hk] at hn; cases hn
      | ok k =>
        simp only [hk, Except.ok.injEq] at hn
        subst hn
        push_cast at hle
        have hp' : Packed (l.insert v (Slot.of off t.memSize)) types
            (fun o k => lo ≤ o ∧ o + k ≤ off + t.memSize) :=
          hp.insert ht (fun o n h => ⟨h.1, by have := h.2; omega⟩) ⟨hlo, le_rfl⟩ (fun o n h => .inl h.2)
        obtain ⟨h1, h2, h3, h4⟩ := allocParams_packed (hi := hi) hk (by omega) (by omega) hp' h
        refine ⟨h1, h2, h3, fun w => ?_⟩
        rw [← h4, List.mem_cons]
        by_cases hwv : w = v
        · subst hwv; simp [insert_same]
        · rw [insert_ne _ _ hwv]; simp [hwv]

theorem allocLocals_packed {types : ValueId → Option MirType} {lo hi : ℤ} (hhi : hi ≤ 0) : ∀ {vs : List ValueId}
    {cur n : ℕ} {l l' : Layout},
    Packed l types (fun o k => (lo ≤ o ∧ o + k ≤ hi) ∨ (0 ≤ o ∧ o + k ≤ cur)) →
    Layout.allocLocals types vs cur l = .ok (n, l') →
    Packed l' types (fun o k => (lo ≤ o ∧ o + k ≤ hi) ∨ (0 ≤ o ∧ o + k ≤ n)) ∧ l'.retSlots = l.retSlots ∧
      (∀ v, (l.values v).isSome ∨ v ∈ vs ↔ (l'.values v).isSome)
  | [], cur, n, l, l', hp, h => by
    simp only [Layout.allocLocals, Except.ok.injEq, Prod.mk.injEq] at h
    obtain ⟨rfl, rfl⟩ := h
    exact ⟨hp, rfl, by simp⟩
  | v :: vs, cur, n, l, l', hp, h => by
    simp only [Layout.allocLocals] at h
    by_cases hs : (l.values v).isSome = true
    · rw [if_pos hs] at h
      obtain ⟨h1, h2, h3⟩ := allocLocals_packed hhi hp h
      refine ⟨h1, h2, fun w => ?_⟩
      rw [← h3, List.mem_cons]
      by_cases hwv : w = v
      · subst hwv; simp [hs]
      · simp [hwv]
    · rw [if_neg hs] at h
      cases ht : types v with
      | none => rw [ht] at h; cases h
      | some t =>
        rw [ht] at h
        have hp' : Packed (l.insert v (Slot.of cur t.memSize)) types
            (fun o k => (lo ≤ o ∧ o + k ≤ hi) ∨ (0 ≤ o ∧ o + k ≤ ((cur + t.memSize : ℕ) : ℤ))) := by
          refine hp.insert ht (fun o n h => ?_) (.inr ⟨by omega, by push_cast; omega⟩) (fun o n h => ?_)
          · push_cast; omega
          · rcases h with h | h
            · exact .inl (by omega)
            · exact .inl (by omega)
        obtain ⟨h1, h2, h3⟩ := allocLocals_packed hhi hp' h
        refine ⟨h1, h2, fun w => ?_⟩
        rw [← h3, List.mem_cons]
        by_cases hwv : w = v
        · subst hwv; simp [insert_same]
        · rw [insert_ne _ _ hwv]; simp [hwv]

/-- C54: in the frame layout of every function, every parameter and every value defined by an instruction has
slots of the size of its type; the slots of different values do not overlap; parameters and locals overlap
neither the return slots (`-2 - retSlots` to `-3`) nor the saved registers (`-2` and `-1`), and locals stay
inside the frame. -/
theorem C54_layout (f : Function) (l : Layout) (h : Layout.new f = .ok l) :
    (∀ v, v ∈ f.params ∨ v ∈ Layout.locals f → ∃ s t, l.values v = some s ∧ f.types v = some t ∧ s.size = t.memSize) ∧
    (∀ v w s t, v ≠ w → l.values v = some s → l.values w = some t → Apart s.off s.size t.off t.size) ∧
    (∀ v s, l.values v = some s → Apart s.off s.size (-2 - l.retSlots) (l.retSlots + 2) ∧ s.off + s.size ≤ l.frame) ∧
    Layout.sizeOfAll f.types f.returns = .ok l.retSlots := by
  unfold Layout.new at h
  cases hm : Layout.sizeOfAll f.types f.params with
  | error e => rw [hm] at h; cases h
  | ok m =>
    cases hk : Layout.sizeOfAll f.types f.returns with
    | error e => rw [hm, hk] at h; cases h
    | ok k =>
      rw [hm, hk] at h
      simp only [bind, Except.bind] at h
      cases hp : Layout.allocParams f.types f.params (-(m : ℤ) - k - 2) ⟨fun _ => none, 0, k⟩ with
      | error e => simp only [hp] at h; cases h
      | ok l1 =>
        cases hl : Layout.allocLocals f.types (Layout.locals f) 0 l1 with
        | error e => simp only [hp, hl] at h; cases h
        | ok r =>
          obtain ⟨cur, l2⟩ := r
          simp only [hp, hl, pure, Except.pure, Except.ok.injEq] at h
          subst h
          have p0 : Packed ⟨fun _ => none, 0, k⟩ f.types
              (fun o j => -(m : ℤ) - k - 2 ≤ o ∧ o + j ≤ -(m : ℤ) - k - 2) :=
            ⟨fun v s hv => by simp at hv, fun v w s t _ hv => by simp at hv, fun v s hv => by simp at hv⟩
          obtain ⟨p1, -, r1, s1⟩ := allocParams_packed (hi := -(k : ℤ) - 2) hm (by omega) le_rfl p0 hp
          have p1' : Packed l1 f.types (fun o j => (-(m : ℤ) - k - 2 ≤ o ∧ o + j ≤ -(k : ℤ) - 2) ∨
              (0 ≤ o ∧ o + j ≤ ((0 : ℕ) : ℤ))) := ⟨fun v s hv => .inl (p1.range v s hv), p1.apart, p1.sized⟩
          obtain ⟨p2, r2, s2⟩ := allocLocals_packed (by omega) p1' hl
          have hret : l2.retSlots = k := by rw [r2, r1]
          refine ⟨fun v hv => ?_, p2.apart, fun v s hv => ?_, ?_⟩
          · have : (l2.values v).isSome := by
              rw [← s2, ← s1]
              rcases hv with hv | hv
              · exact .inl (.inr hv)
              · exact .inr hv
            obtain ⟨s, hs⟩ := Option.isSome_iff_exists.mp this
            obtain ⟨t, ht, hsz⟩ := p2.sized v s hs
            exact ⟨s, t, hs, ht, hsz⟩
          · dsimp only
            rw [hret]
            unfold Apart
            push_cast
            rcases p2.range v s hv with h | h
            · exact ⟨.inl (by omega), by omega⟩
            · exact ⟨.inr (by omega), by omega⟩
          · dsimp only; rw [hret]

/-- C54 (temporaries): a reserved temporary lies above the frame, so it overlaps no value, and the frame grows to
contain it. -/
theorem C54_temporary (l : Layout) (n : ℕ) (hl : ∀ v s, l.values v = some s → s.off + s.size ≤ l.frame) :
    (∀ v s, l.values v = some s → Apart s.off s.size (l.reserve n).1 n) ∧
      (l.reserve n).1 + n ≤ (l.reserve n).2.frame ∧
      (∀ v s, (l.reserve n).2.values v = some s → s.off + s.size ≤ (l.reserve n).2.frame) := by
  refine ⟨fun v s hv => .inl (hl v s hv), by simp [Layout.reserve], fun v s hv => ?_⟩
  have := hl v s hv
  simp only [Layout.reserve]
  push_cast
  omega

/-- Non-vacuity: `fn m(p: u32, x: felt) -> felt` with a local u32. -/
example : ∃ l, Layout.new ⟨['m'], [⟨[.BinaryOp .U32Add 2 (.Operand 0) (.Operand 0)], .Return [.Operand 1]⟩],
      [0, 1], [1], 3, fun v => if v = 0 ∨ v = 2 then some .U32 else if v = 1 then some .Felt else none⟩ = .ok l ∧
    l.values 0 = some (.multi (-6) 2) ∧ l.values 1 = some (.slot (-4)) ∧ l.values 2 = some (.multi 0 2) ∧
    l.frame = 2 ∧ l.retSlots = 1 := by
  refine ⟨_, rfl, ?_⟩
  decide +kernel

end Codegen
end CairoM
