import Verif.LsDeltaLemmas

/-!
# Cached diagnostics: theorems (C89)
-/

namespace CairoM
namespace LsDelta

variable {C N D : Type*} [DecidableEq N]

/-- **C89** (partial: the first request after an edit, in a history without database swaps). Whatever was requested, edited and
loaded before, for any number of projects, the answer is the current diagnostics. -/
theorem C89_after_edit_partial (start m : C → List (N × List D)) (history loads : List (Event C N D)) (c : C)
    (hs : NoSwap history) (hl : ∀ e ∈ loads, ∃ m', e = .load m') {db : Db C N D} {answer : List D} {old}
    (ha : answers (World.start start) (history ++ .edit m :: loads ++ [.request c]) = old ++ [(db, c, answer)])
    (hd : Distinct c db.modules) : answer = current db c := by
  have hb := (Bounded.start start).after history hs
  -- after the edit and the loads, the last revision is an earlier one
  have hstate : ∀ (loads : List (Event C N D)), (∀ e ∈ loads, ∃ m', e = .load m') → ∀ w : World C N D,
      (after w loads).tracker = w.tracker ∧ (after w loads).db.revision = w.db.revision := by
    intro loads
    induction loads with
    | nil => intro _ w; exact ⟨rfl, rfl⟩
    | cons e es ih =>
      intro h w
      obtain ⟨m', rfl⟩ := h e (by simp)
      exact ih (fun e he => h e (by simp [he])) _
  rw [answers_append] at ha
  generalize hw : after (World.start start) (history ++ .edit m :: loads) = w at ha
  have hw' : w = after (step (after (World.start start) history) (.edit m)).1 loads := by
    rw [← hw]; simp [after, List.foldl_append]
  obtain ⟨h1, h2⟩ := hstate loads hl (step (after (World.start start) history) (.edit m)).1
  rw [← hw'] at h1 h2
  simp only [step] at h1 h2
  have hlt : ∀ l, w.tracker.last = some l → l < w.db.revision := by
    intro l hl'
    rw [h1] at hl'
    have := hb.last l hl'
    omega
  simp only [answers, step] at ha
  obtain ⟨-, ha⟩ := List.append_inj' ha rfl
  simp only [List.cons.injEq, Prod.mk.injEq, and_true] at ha
  obtain ⟨rfl, -, rfl⟩ := ha
  have hneed : w.tracker.needsRecompute w.db.revision = true := by
    cases hl' : w.tracker.last with
    | none => simp [Tracker.needsRecompute, hl']
    | some l => simpa [Tracker.needsRecompute, hl'] using hlt l hl'
  rw [getProjectDiagnostics, if_pos hneed, loop_all w.db c (w.db.modules c) w.tracker [] hd (fun _ h => h)]
  · simp [current]
  · intro n _ r hr
    rw [h1] at hr
    obtain ⟨l, h3, h4⟩ := hb.revisions n r hr
    rw [← h1] at h3
    have := hlt l h3
    omega

/-- **C89** (partial: one project that loses no module, no database swaps and no loads after the start). Every answer consists of
the current diagnostics. -/
theorem C89_one_project_partial (start : C → List (N × List D)) (history : List (Event C N D)) (c : C) (hd : Distinct c start)
    (h : OneProject c start history) : Current start history := by
  suffices H : ∀ (w : World C N D), One c w → OneProject c w.db.modules history →
      ∀ a ∈ answers w history, a.2.2.Perm (current a.1 a.2.1) by
    refine H _ ⟨Bounded.start start, hd, ?_, ?_⟩ h
    · simp [World.start, Tracker.new]
    · simp [World.start, Tracker.new]
  clear h hd
  induction history with
  | nil => intro w _ _ a ha; simp [answers] at ha
  | cons e es ih =>
    intro w hw h a ha
    cases e with
    | edit m =>
      obtain ⟨h1, h2, h3⟩ := h
      simp only [answers, step] at ha
      refine ih ⟨⟨w.db.revision + 1, m⟩, w.tracker⟩ ⟨hw.bounded.step (.edit m) (by simp), h1, ?_, ?_⟩ h3 a ha
      · exact fun n hn => h2 n (hw.sub n hn)
      · intro hl
        have := hw.bounded.last _ hl
        simp only at this
        omega
    | load m => exact absurd h (by simp [OneProject])
    | swap m => exact absurd h (by simp [OneProject])
    | request c' =>
      obtain ⟨rfl, h2⟩ := h
      obtain ⟨h3, h4⟩ := hw.request
      simp only [answers, step, List.mem_cons] at ha
      rcases ha with rfl | ha
      · exact h4
      · exact ih _ h3 h2 a ha

/-! ### Examples and violations

Projects, modules and diagnostics are numbers. -/

/-- The last answer of a history, and what it should have been. -/
def lastAnswer (start : ℕ → List (ℕ × List ℕ)) (h : List (Event ℕ ℕ ℕ)) : Option (List ℕ × List ℕ) :=
  ((answers (World.start start) h).getLast?).map fun a => (a.2.2, current a.1 a.2.1)

/-- Two modules, edited in turn: the cache is used and is right. -/
example : OneProject (N := ℕ) (D := ℕ) 0 (fun _ => [(0, [1]), (1, [])])
      [.request 0, .edit (fun _ => [(0, []), (1, [2])]), .request 0, .request 0] ∧
    lastAnswer (fun _ => [(0, [1]), (1, [])]) [.request 0, .edit (fun _ => [(0, []), (1, [2])]), .request 0, .request 0] =
      some ([2], [2]) := by
  refine ⟨by simp [OneProject, Distinct], by decide +kernel⟩

/-- **C89 violated.** Two projects: the first request for the second one is answered with the diagnostics of the first. -/
theorem C89_violated_two_projects : lastAnswer (fun c => if c = 0 then [(0, [1])] else [(0, [2])]) [.request 0, .request 1] =
    some ([1], [2]) := by decide +kernel

/-- **C89 violated.** A file of a loaded project is opened: the editor's text differs from the text on disk, but the old
diagnostics are sent until the next edit. -/
theorem C89_violated_open : lastAnswer (fun _ => [(0, [1])]) [.request 0, .load (fun _ => [(0, [])]), .request 0] =
    some ([1], []) := by decide +kernel

/-- **C89 violated.** The diagnostics of a module that no longer exists come back with the second request after an edit. -/
theorem C89_violated_removed : lastAnswer (fun _ => [(0, []), (1, [7])])
      [.request 0, .load (fun _ => [(0, [])]), .edit (fun _ => [(0, [])]), .request 0, .request 0] = some ([7], []) := by
  decide +kernel

/-- **C89 violated.** After the database has been exchanged, edits are not seen until there have been as many of them as before
the exchange. -/
theorem C89_violated_swap : lastAnswer (fun _ => [(0, [1])])
      [.edit (fun _ => [(0, [2])]), .edit (fun _ => [(0, [3])]), .request 0, .swap (fun _ => [(0, [3])]),
        .edit (fun _ => [(0, [])]), .request 0] = some ([3], []) := by
  decide +kernel

end LsDelta
end CairoM
