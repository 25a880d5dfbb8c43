import Verif.MemArg

/-!
# The register argument

Every step consumes the register state of its clock and produces one for the next clock. Clocks are counted modulo `P`;
with fewer than `P` steps, a balanced set of steps is a single path from clock 1 to the final clock.
-/

namespace CairoM
namespace RegArg

/-- A register transition at a clock. -/
structure Trans (S : Type) where
  src : S
  clock : M31
  dst : S

variable {S : Type}

/-- What is consumed. -/
def Trans.consume (t : Trans S) : S × M31 := (t.src, t.clock)

/-- What is produced. -/
def Trans.emit (t : Trans S) : S × M31 := (t.dst, t.clock + 1)

variable {ts : List (Trans S)} {s0 sF : S} {T : M31}

/-- The number of transitions at a clock. -/
def num (ts : List (Trans S)) (c : M31) : ℕ := ts.countP fun t => t.clock = c

theorem count_emit (ts : List (Trans S)) (c : M31) :
    (ts.map Trans.emit).countP (fun r => r.2 = c) = num ts (c - 1) := by
  rw [List.countP_map, num]
  congr 1
  funext t
  simp only [Function.comp, Trans.emit]
  exact decide_eq_decide.2 eq_sub_iff_add_eq.symm

theorem count_consume (ts : List (Trans S)) (c : M31) :
    (ts.map Trans.consume).countP (fun r => r.2 = c) = num ts c := by
  rw [List.countP_map, num]
  rfl

theorem num_succ (h : (ts.map Trans.emit ++ [(s0, 1)]).Perm (ts.map Trans.consume ++ [(sF, T + 1)])) (c : M31) :
    num ts (c - 1) + (if c = 1 then 1 else 0) = num ts c + (if c = T + 1 then 1 else 0) := by
  have hp := h.countP_eq (fun r => r.2 = c)
  rw [List.countP_append, List.countP_append, count_emit, count_consume] at hp
  simpa [List.countP_cons, eq_comm] using hp

theorem cast_ne {a b : ℕ} (ha : a < P) (hb : b < P) (h : a ≠ b) : (a : M31) ≠ (b : M31) := by
  intro he
  have := congrArg ZMod.val he
  rw [ZMod.val_natCast_of_lt ha, ZMod.val_natCast_of_lt hb] at this
  exact h this

theorem cast_P : ((P : ℕ) : M31) = 0 := ZMod.natCast_self P

theorem num_nat (h : (ts.map Trans.emit ++ [(s0, 1)]).Perm (ts.map Trans.consume ++ [(sF, T + 1)])) (j : ℕ)
    (hj : j + 1 ≤ P) :
    num ts (j : M31) + (if j = 0 then 1 else 0) = num ts ((j + 1 : ℕ) : M31) + (if j = T.val then 1 else 0) := by
  have hn := num_succ h ((j + 1 : ℕ) : M31)
  have hT := ZMod.val_lt T
  have e1 : (((j + 1 : ℕ) : M31) = 1) ↔ j = 0 := by
    constructor
    · intro he
      by_contra h0
      refine cast_ne (a := j) (b := 0) (by omega) (by decide) h0 ?_
      push_cast at he ⊢
      linear_combination he
    · rintro rfl; norm_num
  have e2 : (((j + 1 : ℕ) : M31) = T + 1) ↔ j = T.val := by
    constructor
    · intro he
      by_contra h0
      refine cast_ne (a := j) (b := T.val) (by omega) hT h0 ?_
      rw [ZMod.natCast_zmod_val]
      push_cast at he
      linear_combination he
    · rintro rfl
      push_cast [ZMod.natCast_zmod_val]; ring
  have e3 : ((j + 1 : ℕ) : M31) - 1 = (j : M31) := by push_cast; ring
  simp only [e1, e2, e3] at hn
  exact hn

/-- With fewer than `P` transitions some clock has none. -/
theorem exists_num_zero (ts : List (Trans S)) (hlen : ts.length < P) : ∃ j, j < P ∧ num ts (j : M31) = 0 := by
  by_contra hne
  push Not at hne
  have hsub : (List.range P).map (fun j : ℕ => (j : M31)) ⊆ ts.map (·.clock) := by
    intro c hc
    obtain ⟨j, hj, rfl⟩ := List.mem_map.1 hc
    have := hne j (List.mem_range.1 hj)
    obtain ⟨t, ht, hc⟩ := List.countP_pos_iff.1 (Nat.pos_of_ne_zero this)
    exact List.mem_map.2 ⟨t, ht, by simpa using hc⟩
  have hnd : ((List.range P).map (fun j : ℕ => (j : M31))).Nodup := by
    refine List.Nodup.map_on ?_ List.nodup_range
    intro a ha b hb he
    by_contra h
    exact cast_ne (List.mem_range.1 ha) (List.mem_range.1 hb) h he
  have := (hnd.subperm hsub).length_le
  rw [List.length_map, List.length_range, List.length_map] at this
  omega

/-- Exactly one transition at each of the clocks `1 .. T`, none at the others. -/
theorem num_eq (h : (ts.map Trans.emit ++ [(s0, 1)]).Perm (ts.map Trans.consume ++ [(sF, T + 1)]))
    (hlen : ts.length < P) (j : ℕ) (hj : j ≤ P) : num ts (j : M31) = if 1 ≤ j ∧ j ≤ T.val then 1 else 0 := by
  have hT := ZMod.val_lt T
  have rel : ∀ j : ℕ, j ≤ P → num ts (j : M31) = num ts ((0 : ℕ) : M31) + if 1 ≤ j ∧ j ≤ T.val then 1 else 0 := by
    intro j
    induction j with
    | zero => intro _; simp
    | succ j ih =>
      intro hj
      have h1 := ih (by omega)
      have h2 := num_nat h j hj
      rw [h1] at h2
      by_cases hj0 : j = 0 <;> by_cases hjT : j = T.val <;> split at h2 <;> split <;> omega
  have h0 : num ts ((0 : ℕ) : M31) = 0 := by
    obtain ⟨k, hk, hz⟩ := exists_num_zero ts hlen
    have := rel k (by omega)
    omega
  rw [rel j hj, h0, Nat.zero_add]

theorem num_val (h : (ts.map Trans.emit ++ [(s0, 1)]).Perm (ts.map Trans.consume ++ [(sF, T + 1)]))
    (hlen : ts.length < P) (c : M31) : num ts c = if 1 ≤ c.val ∧ c.val ≤ T.val then 1 else 0 := by
  have := num_eq h hlen c.val (le_of_lt (ZMod.val_lt c))
  rwa [ZMod.natCast_zmod_val] at this

/-- Whatever is produced for a clock is what is consumed at it. -/
theorem link (h : (ts.map Trans.emit ++ [(s0, 1)]).Perm (ts.map Trans.consume ++ [(sF, T + 1)]))
    (hlen : ts.length < P) {r r' : S × M31} (hr : r ∈ ts.map Trans.emit ++ [(s0, 1)])
    (hr' : r' ∈ ts.map Trans.consume ++ [(sF, T + 1)]) (hc : r.2 = r'.2) : r = r' := by
  have hle : (ts.map Trans.emit ++ [(s0, 1)]).countP (fun q : S × M31 => q.2 = r.2) ≤ 1 := by
    rw [List.countP_append, count_emit, num_val h hlen]
    by_cases h1 : r.2 = 1
    · rw [h1, sub_self]; simp
    · have : ¬ (1 : M31) = r.2 := fun h => h1 h.symm
      simp only [List.countP_cons, List.countP_nil, this, decide_false, Bool.false_eq_true, if_false]
      split <;> omega
  exact MemArg.eq_of_countP_le_one hle hr (h.mem_iff.2 hr') (by simp) (by simp [hc])

/-- The transition at clock `j + 1`. -/
theorem exists_at (h : (ts.map Trans.emit ++ [(s0, 1)]).Perm (ts.map Trans.consume ++ [(sF, T + 1)]))
    (hlen : ts.length < P) {j : ℕ} (hj : j < T.val) : ∃ t ∈ ts, t.clock = ((j + 1 : ℕ) : M31) := by
  have hT := ZMod.val_lt T
  have := num_eq h hlen (j + 1) (by omega)
  rw [if_pos ⟨by omega, by omega⟩] at this
  obtain ⟨t, ht, hc⟩ := List.countP_pos_iff.1 (show 0 < num ts ((j + 1 : ℕ) : M31) by omega)
  exact ⟨t, ht, by simpa using hc⟩

theorem unique_at (h : (ts.map Trans.emit ++ [(s0, 1)]).Perm (ts.map Trans.consume ++ [(sF, T + 1)]))
    (hlen : ts.length < P) {t u : Trans S} (ht : t ∈ ts) (hu : u ∈ ts) (hc : t.clock = u.clock) : t = u := by
  have := num_val h hlen t.clock
  refine MemArg.eq_of_countP_le_one (p := fun q => q.clock = t.clock) (l := ts) ?_ ht hu (by simp) (by simp [hc])
  change num ts t.clock ≤ 1
  rw [this]
  split <;> omega

theorem clock_range (h : (ts.map Trans.emit ++ [(s0, 1)]).Perm (ts.map Trans.consume ++ [(sF, T + 1)]))
    (hlen : ts.length < P) {t : Trans S} (ht : t ∈ ts) : 1 ≤ t.clock.val ∧ t.clock.val ≤ T.val := by
  have h1 := num_val h hlen t.clock
  have h2 : 0 < num ts t.clock := List.countP_pos_iff.2 ⟨t, ht, by simp⟩
  by_contra hne
  rw [if_neg hne] at h1
  omega

end RegArg
end CairoM
