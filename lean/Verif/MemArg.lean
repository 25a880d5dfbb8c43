import Verif.StepSpec
import Mathlib.Data.List.Count
import Mathlib.Data.List.Perm.Basic
import Mathlib.Data.List.Perm.Subperm

/-!
# Offline memory checking: the counting argument

Every access consumes the record of the previous access to its cell and produces a new one. If produced and consumed
records (with the initial and final ones) are the same multiset, then at every moment exactly one access to a cell is
"in flight" over that moment.
-/

namespace CairoM
namespace MemArg

/-- One access: consumes `(addr, src, old)`, produces `(addr, dst, new)`; `src` and `dst` are times. -/
structure Arc (A V : Type) where
  addr : A
  src : ℕ
  old : V
  dst : ℕ
  new : V

variable {A V : Type} [DecidableEq A]

/-- The record produced. -/
def Arc.emit (a : Arc A V) : A × ℕ × V := (a.addr, a.dst, a.new)

/-- The record consumed. -/
def Arc.consume (a : Arc A V) : A × ℕ × V := (a.addr, a.src, a.old)

/-- The access is in flight at time `t`. -/
def Arc.over (x : A) (t : ℕ) (a : Arc A V) : Bool := a.addr = x && (a.src ≤ t && t < a.dst)

/-- The record is of cell `x` and not later than `t`. -/
def upTo (x : A) (t : ℕ) (r : A × ℕ × V) : Bool := r.1 = x && r.2.1 ≤ t

/-- Records balance and every access goes forward in time; at most one initial record per cell, made at time 0. -/
structure Balanced (arcs : List (Arc A V)) (ini fin : List (A × ℕ × V)) : Prop where
  perm : (arcs.map Arc.emit ++ ini).Perm (arcs.map Arc.consume ++ fin)
  forward : ∀ a ∈ arcs, a.src < a.dst
  one_initial : ∀ x, ini.countP (fun r => r.1 = x) ≤ 1
  initial_zero : ∀ r ∈ ini, r.2.1 = 0

theorem countP_src {arcs : List (Arc A V)} (h : ∀ a ∈ arcs, a.src < a.dst) (x : A) (t : ℕ) :
    (arcs.map Arc.consume).countP (upTo x t) = arcs.countP (Arc.over x t) + (arcs.map Arc.emit).countP (upTo x t) := by
  induction arcs with
  | nil => rfl
  | cons a as ih =>
    have ih := ih fun b hb => h b (List.mem_cons_of_mem _ hb)
    have ha := h a List.mem_cons_self
    simp only [List.map_cons, List.countP_cons, ih]
    have : (if upTo x t a.consume = true then 1 else 0) =
        (if Arc.over x t a = true then 1 else 0) + (if upTo x t a.emit = true then 1 else 0) := by
      by_cases hx : a.addr = x
      · by_cases h1 : a.src ≤ t
        · by_cases h2 : a.dst ≤ t
          · have h3 : ¬ t < a.dst := by omega
            simp [upTo, Arc.over, Arc.consume, Arc.emit, hx, h1, h2]
          · have h3 : t < a.dst := by omega
            simp [upTo, Arc.over, Arc.consume, Arc.emit, hx, h1, h3]
        · have h2 : ¬ a.dst ≤ t := by omega
          simp [upTo, Arc.over, Arc.consume, Arc.emit, hx, h1, h2]
      · simp [upTo, Arc.over, Arc.consume, Arc.emit, hx]
    omega

variable {arcs : List (Arc A V)} {ini fin : List (A × ℕ × V)}

/-- Accesses in flight, plus final records already made, equal initial records. -/
theorem Balanced.count (h : Balanced arcs ini fin) (x : A) (t : ℕ) :
    arcs.countP (Arc.over x t) + fin.countP (upTo x t) = ini.countP (upTo x t) := by
  have hp := h.perm.countP_eq (upTo x t)
  rw [List.countP_append, List.countP_append, countP_src h.forward] at hp
  omega

theorem Balanced.ini_le (h : Balanced arcs ini fin) (x : A) (t : ℕ) : ini.countP (upTo x t) ≤ 1 := by
  refine le_trans (List.countP_mono_left fun r _ hr => ?_) (h.one_initial x)
  simp only [upTo, Bool.and_eq_true, decide_eq_true_eq] at hr
  simpa using hr.1

theorem eq_of_countP_le_one {α : Type} {p : α → Bool} {l : List α} (h : l.countP p ≤ 1) {a b : α} (ha : a ∈ l)
    (hb : b ∈ l) (pa : p a = true) (pb : p b = true) : a = b := by
  rw [List.countP_eq_length_filter] at h
  have h1 := List.mem_filter.2 ⟨ha, pa⟩
  have h2 := List.mem_filter.2 ⟨hb, pb⟩
  match hl : l.filter p with
  | [] => rw [hl] at h1; cases h1
  | [c] =>
    rw [hl, List.mem_singleton] at h1 h2
    rw [h1, h2]
  | c :: d :: _ => rw [hl] at h; simp at h

/-- Two accesses to the same cell in flight at the same time are the same access. -/
theorem Balanced.over_unique (h : Balanced arcs ini fin) {x : A} {t : ℕ} {a b : Arc A V} (ha : a ∈ arcs) (hb : b ∈ arcs)
    (oa : Arc.over x t a = true) (ob : Arc.over x t b = true) : a = b := by
  have := h.count x t
  have := h.ini_le x t
  exact eq_of_countP_le_one (by omega) ha hb oa ob

/-- No access is in flight once the final record of the cell has been made. -/
theorem Balanced.over_final (h : Balanced arcs ini fin) {x : A} {t : ℕ} {a : Arc A V} {r : A × ℕ × V} (ha : a ∈ arcs)
    (hr : r ∈ fin) (oa : Arc.over x t a = true) (pr : upTo x t r = true) : False := by
  have h1 := h.count x t
  have h2 := h.ini_le x t
  have h3 : 0 < arcs.countP (Arc.over x t) := List.countP_pos_iff.2 ⟨a, ha, oa⟩
  have h4 : 0 < fin.countP (upTo x t) := List.countP_pos_iff.2 ⟨r, hr, pr⟩
  omega

/-- Every consumed or final record was produced. -/
theorem Balanced.source (h : Balanced arcs ini fin) {r : A × ℕ × V} (hr : r ∈ arcs.map Arc.consume ++ fin) :
    (∃ b ∈ arcs, b.emit = r) ∨ r ∈ ini := by
  rw [← h.perm.mem_iff, List.mem_append, List.mem_map] at hr
  exact hr

theorem over_of {x : A} {t : ℕ} {a : Arc A V} (h1 : a.addr = x) (h2 : a.src ≤ t) (h3 : t < a.dst) :
    Arc.over x t a = true := by
  simp [Arc.over, h1, h2, h3]

theorem upTo_of {x : A} {t : ℕ} {r : A × ℕ × V} (h1 : r.1 = x) (h2 : r.2.1 ≤ t) : upTo x t r = true := by
  simp [upTo, h1, h2]

/-- A value in flight at time `t` in cell `x`: the value consumed by the access over `t`, or the final one. -/
inductive InFlight (arcs : List (Arc A V)) (fin : List (A × ℕ × V)) (x : A) (t : ℕ) : V → Prop
  | arc (a : Arc A V) (ha : a ∈ arcs) (hx : a.addr = x) (h1 : a.src ≤ t) (h2 : t < a.dst) : InFlight arcs fin x t a.old
  | final (r : A × ℕ × V) (hr : r ∈ fin) (hx : r.1 = x) (h1 : r.2.1 ≤ t) : InFlight arcs fin x t r.2.2

/-- The time at which the value in flight was produced. -/
theorem Balanced.inFlight_zero (h : Balanced arcs ini fin) {x : A} {v : V} (hv : InFlight arcs fin x 0 v) :
    (x, 0, v) ∈ ini := by
  have key : ∀ r : A × ℕ × V, r ∈ arcs.map Arc.consume ++ fin → r.2.1 = 0 → r ∈ ini := by
    intro r hr h0
    rcases h.source hr with ⟨b, hb, rfl⟩ | hi
    · have := h.forward b hb
      simp only [Arc.emit] at h0
      omega
    · exact hi
  cases hv with
  | arc a ha hx h1 h2 =>
    have := key a.consume (List.mem_append_left _ (List.mem_map_of_mem ha)) (by simpa [Arc.consume] using h1)
    rw [Arc.consume, hx, Nat.le_zero.1 h1] at this
    exact this
  | final r hr hx h1 =>
    have := key r (List.mem_append_right _ hr) (Nat.le_zero.1 h1)
    obtain ⟨a, c, v⟩ := r
    simp only at hx h1
    rw [hx, Nat.le_zero.1 h1] at this
    exact this

/-- What is in flight at `t + 1` is either what was in flight at `t`, the cell not being accessed at `t + 1`, or it is
the value produced by the access at `t + 1`. -/
theorem Balanced.inFlight_succ (h : Balanced arcs ini fin) {x : A} {t : ℕ} {v : V}
    (hv : InFlight arcs fin x (t + 1) v) :
    (InFlight arcs fin x t v ∧ ∀ b ∈ arcs, b.addr = x → b.dst ≠ t + 1) ∨
      ∃ b ∈ arcs, b.addr = x ∧ b.dst = t + 1 ∧ b.new = v := by
  have key : ∀ r : A × ℕ × V, r ∈ arcs.map Arc.consume ++ fin → r.1 = x → r.2.1 = t + 1 →
      ∃ b ∈ arcs, b.addr = x ∧ b.dst = t + 1 ∧ b.new = r.2.2 := by
    intro r hr hx h0
    rcases h.source hr with ⟨b, hb, rfl⟩ | hi
    · exact ⟨b, hb, hx, h0, rfl⟩
    · rw [h.initial_zero r hi] at h0; omega
  cases hv with
  | arc a ha hx h1 h2 =>
    by_cases hs : a.src = t + 1
    · right
      exact key a.consume (List.mem_append_left _ (List.mem_map_of_mem ha)) hx hs
    · left
      refine ⟨.arc a ha hx (by omega) (by omega), fun b hb hbx hbd => ?_⟩
      have hfb := h.forward b hb
      have := h.over_unique (t := t) ha hb (over_of hx (by omega) (by omega)) (over_of hbx (by omega) (by omega))
      subst this
      omega
  | final r hr hx h1 =>
    by_cases hs : r.2.1 = t + 1
    · right
      exact key r (List.mem_append_right _ hr) hx hs
    · left
      refine ⟨.final r hr hx (by omega), fun b hb hbx hbd => ?_⟩
      have hfb := h.forward b hb
      exact h.over_final (t := t) hb hr (over_of hbx (by omega) (by omega)) (upTo_of hx (by omega))

/-- At most one access to a cell at any time. -/
theorem Balanced.one_at (h : Balanced arcs ini fin) (x : A) {t : ℕ} :
    arcs.countP (fun a => a.addr = x && a.dst = t + 1) ≤ 1 := by
  have h1 := h.count x t
  have h2 := h.ini_le x t
  refine le_trans (List.countP_mono_left fun a ha hp => ?_) (show arcs.countP (Arc.over x t) ≤ 1 by omega)
  simp only [Bool.and_eq_true, decide_eq_true_eq] at hp
  have := h.forward a ha
  exact over_of hp.1 (by omega) (by omega)

/-- The previous access to the cell, or the initial record, is where an access finds its value; and nothing happens to
the cell in between. -/
theorem Balanced.previous (h : Balanced arcs ini fin) {a : Arc A V} (ha : a ∈ arcs) :
    ((a.addr, a.src, a.old) ∈ ini ∧ a.src = 0 ∧ ∀ b ∈ arcs, b.addr = a.addr → a.dst ≤ b.dst) ∨
      ∃ b ∈ arcs, b.addr = a.addr ∧ b.dst = a.src ∧ b.new = a.old ∧
        ∀ c ∈ arcs, c.addr = a.addr → c.dst < a.dst → c.dst ≤ b.dst := by
  have between : ∀ c ∈ arcs, c.addr = a.addr → c.dst < a.dst → c.dst ≤ a.src := by
    intro c hc hx hlt
    by_contra hgt
    have hf := h.forward c hc
    have := h.over_unique (x := a.addr) (t := c.dst - 1) ha hc (over_of rfl (by omega) (by omega))
      (over_of hx (by omega) (by omega))
    subst this
    omega
  rcases h.source (r := a.consume) (List.mem_append_left _ (List.mem_map_of_mem ha)) with ⟨b, hb, he⟩ | hi
  · right
    simp only [Arc.emit, Arc.consume, Prod.mk.injEq] at he
    exact ⟨b, hb, he.1, he.2.1, he.2.2, fun c hc hx hlt => by rw [he.2.1]; exact between c hc hx hlt⟩
  · left
    have h0 : a.src = 0 := h.initial_zero _ hi
    refine ⟨hi, h0, fun b hb hx => ?_⟩
    by_contra hlt
    have := between b hb hx (by omega)
    have := h.forward b hb
    omega

/-- The final record of a cell is the record of its last access, or the initial one if it was never accessed. -/
theorem Balanced.last (h : Balanced arcs ini fin) {r : A × ℕ × V} (hr : r ∈ fin) :
    (r ∈ ini ∧ ∀ b ∈ arcs, b.addr ≠ r.1) ∨
      ∃ b ∈ arcs, b.emit = r ∧ ∀ c ∈ arcs, c.addr = r.1 → c.dst ≤ b.dst := by
  have after : ∀ c ∈ arcs, c.addr = r.1 → c.dst ≤ r.2.1 := by
    intro c hc hx
    by_contra hgt
    have hf := h.forward c hc
    exact h.over_final (x := r.1) (t := c.dst - 1) hc hr (over_of hx (by omega) (by omega)) (upTo_of rfl (by omega))
  rcases h.source (List.mem_append_right _ hr) with ⟨b, hb, he⟩ | hi
  · right
    refine ⟨b, hb, he, fun c hc hx => ?_⟩
    rw [← he] at after hx
    exact after c hc hx
  · left
    refine ⟨hi, fun b hb hx => ?_⟩
    have h1 := after b hb hx
    have h2 := h.forward b hb
    rw [h.initial_zero r hi] at h1
    omega

end MemArg
end CairoM
