import Verif.LsDeltaSpec
import Mathlib.Tactic.Common

/-! # Lemmas on the cached diagnostics -/

namespace CairoM
namespace LsDelta

variable {C N D : Type*} [DecidableEq N]

/-- No recorded revision exceeds the last one, which does not exceed the current one. -/
structure Bounded (w : World C N D) : Prop where
  last : ∀ l, w.tracker.last = some l → l ≤ w.db.revision
  revisions : ∀ n r, w.tracker.revisions n = some r → ∃ l, w.tracker.last = some l ∧ r ≤ l

theorem lookup_isSome {n : N} {l : List (N × List D)} (h : n ∈ l.map Prod.fst) : (l.lookup n).isSome := by
  induction l with
  | nil => simp at h
  | cons e es ih =>
    rcases e with ⟨m, d⟩
    rw [List.lookup_cons]
    by_cases hm : n = m
    · simp [hm]
    · have : (n == m) = false := by simpa using hm
      rw [this]
      refine ih ?_
      simp only [List.map_cons, List.mem_cons] at h
      exact h.resolve_left hm

/-- If all modules of the loop count as changed, everything is computed anew. -/
theorem loop_all (db : Db C N D) (c : C) (ms : List (N × List D)) (t : Tracker N D) (total : List D)
    (hn : (ms.map Prod.fst).Nodup) (hs : ∀ n ∈ ms.map Prod.fst, n ∈ (db.modules c).map Prod.fst)
    (hr : ∀ n ∈ ms.map Prod.fst, ∀ r, t.revisions n = some r → r < db.revision) :
    loop db c ms t total = (ms.foldl (fun t e => t.record db.revision e.1 e.2) t, total ++ ms.flatMap Prod.snd) := by
  induction ms generalizing t total with
  | nil => simp [loop]
  | cons e es ih =>
    rcases e with ⟨n, d⟩
    have hch : hasModuleChanged db c t n = true := by
      simp only [hasModuleChanged]
      cases h : t.revisions n with
      | none => rfl
      | some r =>
        have := hr n (by simp) r h
        simp only [gt_iff_lt, this, if_true]
        exact lookup_isSome (hs n (by simp))
    simp only [List.map_cons, List.nodup_cons] at hn
    rw [loop, if_pos hch, ih _ _ hn.2 (fun m hm => hs m (by simp [hm])) ?_]
    · simp [List.foldl_cons]
    · intro m hm r h
      have hne : m ≠ n := by rintro rfl; exact hn.1 hm
      simp only [Tracker.record, if_neg hne] at h
      exact hr m (by simp [hm]) r h

theorem loop_revisions (db : Db C N D) (c : C) (ms : List (N × List D)) (t : Tracker N D) (total : List D) (n : N) :
    (loop db c ms t total).1.revisions n = t.revisions n ∨ (loop db c ms t total).1.revisions n = some db.revision := by
  induction ms generalizing t total with
  | nil => exact Or.inl rfl
  | cons e es ih =>
    rcases e with ⟨m, d⟩
    have hrec : ∀ total', (loop db c es (t.record db.revision m d) total').1.revisions n = t.revisions n ∨
        (loop db c es (t.record db.revision m d) total').1.revisions n = some db.revision := by
      intro total'
      rcases ih (t.record db.revision m d) total' with h | h
      · by_cases hm : n = m
        · right; rw [h]; simp [Tracker.record, hm]
        · left; rw [h]; simp [Tracker.record, hm]
      · exact Or.inr h
    rw [loop]
    split
    · exact hrec _
    · split
      · exact ih _ _
      · exact hrec _

theorem Bounded.step {w : World C N D} (h : Bounded w) (e : Event C N D) (he : ∀ m, e ≠ .swap m) : Bounded (step w e).1 := by
  cases e with
  | edit m =>
    refine ⟨fun l hl => ?_, h.revisions⟩
    have := h.last l hl
    simp only [LsDelta.step]; omega
  | load m => exact ⟨h.last, h.revisions⟩
  | swap m => exact absurd rfl (he m)
  | request c =>
    simp only [LsDelta.step, getProjectDiagnostics]
    split
    · refine ⟨fun l hl => by simp only [Option.some.injEq] at hl; subst hl; exact Nat.le_refl _, fun n r hr => ⟨_, rfl, ?_⟩⟩
      rcases loop_revisions w.db c (w.db.modules c) w.tracker [] n with h1 | h1
      · simp only at hr
        rw [h1] at hr
        obtain ⟨l, h2, h3⟩ := h.revisions n r hr
        have := h.last l h2
        omega
      · simp only at hr
        rw [h1, Option.some.injEq] at hr
        omega
    · exact ⟨h.last, h.revisions⟩

/-- The state after a history. -/
def after (w : World C N D) (es : List (Event C N D)) : World C N D := es.foldl (fun w e => (step w e).1) w

theorem Bounded.after {w : World C N D} (h : Bounded w) (es : List (Event C N D)) (he : NoSwap es) : Bounded (after w es) := by
  induction es generalizing w with
  | nil => exact h
  | cons e es ih =>
    exact ih (h.step e fun m hm => he m (by rw [hm]; exact List.mem_cons_self)) fun m hm => he m (List.mem_cons_of_mem _ hm)

omit [DecidableEq N] in
theorem Bounded.start (m : C → List (N × List D)) : Bounded (World.start m) :=
  ⟨fun l h => by simp [World.start, Tracker.new] at h, fun n r h => by simp [World.start, Tracker.new] at h⟩

theorem answers_append (w : World C N D) (es fs : List (Event C N D)) :
    answers w (es ++ fs) = answers w es ++ answers (after w es) fs := by
  induction es generalizing w with
  | nil => rfl
  | cons e es ih =>
    simp only [List.cons_append, answers, after, List.foldl_cons]
    have := ih (LsDelta.step w e).1
    split <;> simp [this, after]

/-! ### One project -/

/-- The cache after recording a list of modules. -/
theorem cached_foldl (ms : List (N × List D)) (t : Tracker N D) (r : ℕ) (hn : (ms.map Prod.fst).Nodup)
    (hsub : ∀ n ∈ t.cached.map Prod.fst, n ∈ ms.map Prod.fst) :
    (ms.foldl (fun t e => t.record r e.1 e.2) t).cached.Perm ms := by
  -- generalised over the part already recorded
  suffices h : ∀ (ms done : List (N × List D)) (t : Tracker N D), ((done ++ ms).map Prod.fst).Nodup →
      (∀ n ∈ t.cached.map Prod.fst, n ∈ (done ++ ms).map Prod.fst) →
      (∃ old, t.cached.Perm (done ++ old) ∧ (∀ n ∈ old.map Prod.fst, n ∈ ms.map Prod.fst)) →
      (ms.foldl (fun t e => t.record r e.1 e.2) t).cached.Perm (done ++ ms) by
    simpa using h ms [] t (by simpa using hn) (by simpa using hsub) ⟨t.cached, by simp, hsub⟩
  intro ms
  induction ms with
  | nil =>
    intro done t hn hsub hold
    obtain ⟨old, h1, h2⟩ := hold
    cases old with
    | nil => simpa using h1
    | cons e es => exact absurd (h2 e.1 (by simp)) (by simp)
  | cons e es ih =>
    intro done t hn hsub hold
    obtain ⟨old, h1, h2⟩ := hold
    have hassoc : done ++ e :: es = (done ++ [e]) ++ es := by simp
    rw [List.foldl_cons, hassoc]
    rw [hassoc] at hn hsub
    have hd : ∀ x ∈ done, x.1 ≠ e.1 := by
      intro x hx heq
      rw [← hassoc, List.map_append, List.nodup_append] at hn
      exact hn.2.2 x.1 (List.mem_map_of_mem hx) e.1 (by simp) heq
    have hput : (t.record r e.1 e.2).cached.Perm ((done ++ [e]) ++ old.filter fun x => decide (x.1 ≠ e.1)) := by
      simp only [Tracker.record, put]
      have hf := h1.filter (fun x => decide (x.1 ≠ e.1))
      have hdone : done.filter (fun x => decide (x.1 ≠ e.1)) = done :=
        List.filter_eq_self.2 fun x hx => by simpa using hd x hx
      rw [List.filter_append, hdone] at hf
      refine (hf.cons (e.1, e.2)).trans ?_
      rw [List.append_assoc]
      exact List.perm_middle.symm
    refine ih (done ++ [e]) _ hn ?_ ⟨_, hput, ?_⟩
    · intro n hm
      have hm' := (hput.map Prod.fst).mem_iff.1 hm
      rw [List.map_append, List.mem_append] at hm'
      rcases hm' with h | h
      · rw [List.map_append, List.mem_append]; exact Or.inl h
      · obtain ⟨x, hx, rfl⟩ := List.mem_map.1 h
        have hx' := (List.mem_filter.1 hx).1
        have := h2 x.1 (List.mem_map_of_mem hx')
        have hne : x.1 ≠ e.1 := by simpa using (List.mem_filter.1 hx).2
        simp only [List.map_cons, List.mem_cons] at this
        rw [List.map_append, List.mem_append]
        exact Or.inr (this.resolve_left hne)
    · intro n hm
      obtain ⟨x, hx, rfl⟩ := List.mem_map.1 hm
      have hx' := (List.mem_filter.1 hx).1
      have hne : x.1 ≠ e.1 := by simpa using (List.mem_filter.1 hx).2
      have := h2 x.1 (List.mem_map_of_mem hx')
      simp only [List.map_cons, List.mem_cons] at this
      exact this.resolve_left hne

/-- The state in a history of one project. -/
structure One (c : C) (w : World C N D) : Prop where
  bounded : Bounded w
  distinct : Distinct c w.db.modules
  sub : ∀ n ∈ w.tracker.cached.map Prod.fst, n ∈ (w.db.modules c).map Prod.fst
  fresh : w.tracker.last = some w.db.revision → w.tracker.cached.Perm (w.db.modules c)

theorem One.request {c : C} {w : World C N D} (h : One c w) :
    One c ⟨w.db, (getProjectDiagnostics w.db w.tracker c).1⟩ ∧
      (getProjectDiagnostics w.db w.tracker c).2.Perm (current w.db c) := by
  have hb := h.bounded.step (.request c) (by simp)
  by_cases hneed : w.tracker.needsRecompute w.db.revision = true
  · have hlt : ∀ l, w.tracker.last = some l → l < w.db.revision := by
      intro l hl
      simpa [Tracker.needsRecompute, hl] using hneed
    have hloop := loop_all w.db c (w.db.modules c) w.tracker [] h.distinct (fun _ hn => hn) (by
      intro n _ r hr
      obtain ⟨l, h1, h2⟩ := h.bounded.revisions n r hr
      have := hlt l h1
      omega)
    have hperm := cached_foldl (w.db.modules c) w.tracker w.db.revision h.distinct h.sub
    refine ⟨⟨hb, h.distinct, ?_, ?_⟩, ?_⟩
    · intro n hn
      simp only [getProjectDiagnostics, if_pos hneed, hloop] at hn
      exact (hperm.map Prod.fst).mem_iff.1 hn
    · intro _
      simp only [getProjectDiagnostics, if_pos hneed, hloop]
      exact hperm
    · simp only [getProjectDiagnostics, if_pos hneed, hloop, current, List.nil_append]
      exact List.Perm.refl _
  · have hlast : w.tracker.last = some w.db.revision := by
      cases hl : w.tracker.last with
      | none => simp [Tracker.needsRecompute, hl] at hneed
      | some l =>
        have h1 := h.bounded.last l hl
        simp only [Tracker.needsRecompute, hl, decide_eq_true_eq] at hneed
        congr; omega
    simp only [getProjectDiagnostics, if_neg hneed]
    exact ⟨⟨h.bounded, h.distinct, h.sub, h.fresh⟩, (h.fresh hlast).flatMap_right _⟩

end LsDelta
end CairoM
