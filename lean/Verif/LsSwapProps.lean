import Verif.LsSwapLemmas

/-!
# Source files across database swaps: theorems (C92)
-/

namespace CairoM
namespace LsSwap

variable {U T : Type*} [DecidableEq U]

/-- **C92** (partial: histories without database swaps). Once a project has been loaded after a file was opened, the text that is
analysed for the file is the editor's, whatever is opened, edited and loaded before and afterwards. -/
theorem C92_no_swap_partial (before after : List (Event U T)) (files : List (U × Option T)) (u : U) (t : T)
    (hs : ∀ e ∈ before ++ .load files :: after, e.isSwap = false) (ho : ∀ t', Event.opened u t' ∉ after)
    (hu : u ∈ (State.start.run (before ++ .load files :: after)).project.map Prod.fst)
    (ht : editor (before ++ .load files :: after) u = some t) :
    (State.start.run (before ++ .load files :: after)).analysed u = some t := by
  have hagree : Agree (State.start.run (before ++ .load files :: after)) u := by
    clear hu ht
    induction after using List.reverseRecOn with
    | nil =>
      rw [run_append]
      exact ((Inv.run before fun e he => hs e (by simp [he])).load files).2 u
    | append_singleton after e ih =>
      have hs' : ∀ x ∈ before ++ .load files :: after, x.isSwap = false := fun x hx => hs x (by
        simp only [List.mem_append, List.mem_cons] at hx ⊢
        rcases hx with h | h | h <;> simp [h])
      have := ih hs' fun t' h => ho t' (by simp [h])
      rw [show before ++ .load files :: (after ++ [e]) = (before ++ .load files :: after) ++ [e] by simp, run_append]
      exact this.step (Inv.run _ hs') e (hs e (by simp)) fun t' h => ho t' (by simp [h])
  have hinv := Inv.run _ hs
  obtain ⟨i, hi⟩ := lookup_some hu
  simp only [State.analysed, hi, Option.bind_some]
  exact hinv.right u i t (hagree i (lookup_mem hi)) ht

/-- **C92** (partial: a swap during which nothing is edited). Right after the swap the same texts are analysed, whatever the order
of the hash maps. -/
theorem C92_swap_partial (s : State U T) (order : List U) (hv : ∀ e ∈ s.project, e.2 < s.texts.length)
    (ho : order.Perm (s.project.map Prod.fst)) (u : U) :
    (s.run [.snapshot, .tables order, .exchange]).analysed u = s.analysed u := by
  simp only [State.run, List.foldl_cons, List.foldl_nil, State.step, State.snapshot, State.tables, State.exchange, State.analysed]
  have h := (lookup_zipIdx (order.filterMap fun u =>
    ((s.project.filterMap fun e => s.texts[e.2]?.map fun t => (e.1, t)).lookup u).map fun t => (u, t)) 0 u).1
  simp only [Nat.sub_zero] at h
  rw [h]
  by_cases hu : u ∈ order
  · rw [lookup_order order _ u hu, lookup_snapshot s.project s.texts hv u]
  · have hp : u ∉ s.project.map Prod.fst := fun h' => hu (ho.mem_iff.2 h')
    rw [lookup_none hp]
    apply lookup_none
    simp only [List.mem_map, List.mem_filterMap, not_exists, not_and]
    rintro x ⟨y, hy, hx⟩ rfl
    obtain ⟨t, -, rfl⟩ := Option.map_eq_some_iff.1 hx
    exact hu hy

/-! ### Examples and violations

Addresses and texts are numbers. The results are the analysed text and the editor's text. -/

/-- What is analysed for two files after a history, and the editor's texts. -/
def outcome (h : List (Event ℕ ℕ)) : List (Option ℕ × Option ℕ) :=
  [0, 1].map fun u => (State.start.run h |>.analysed u, editor h u)

/-- A file read from disk is opened, the project is loaded again, the file is edited. -/
example : outcome [.opened 0 10, .load [(0, none), (1, some 20)], .opened 1 21, .load [(0, none), (1, some 20)], .change 0 11,
    .change 1 22] = [(some 11, some 11), (some 22, some 22)] := by decide +kernel

example : outcome [.opened 0 10, .opened 1 20, .load [(0, none), (1, none)], .snapshot, .tables [1, 0], .exchange] =
    [(some 10, some 10), (some 20, some 20)] := by decide +kernel

/-- **C92 violated.** After a swap the table of open files still has the numbers of the old database: an edit of one file
replaces the text of another one. -/
theorem C92_violated_other_file : outcome [.opened 0 10, .opened 1 20, .load [(0, none), (1, none)],
    .snapshot, .tables [1, 0], .exchange, .change 0 11] = [(some 10, some 11), (some 11, some 20)] := by decide +kernel

/-- **C92 violated.** A number that the new database does not have: all later edits of the file fail. -/
theorem C92_violated_reopened : outcome [.opened 0 10, .opened 0 12, .load [(0, none)], .snapshot, .tables [0], .exchange,
    .change 0 13] = [(some 12, some 13), (none, none)] := by decide +kernel

/-- **C92 violated.** An edit between the snapshot and the exchange is lost. -/
theorem C92_violated_lost_edit : outcome [.opened 0 10, .load [(0, none)], .snapshot, .change 0 11, .tables [0], .exchange] =
    [(some 10, some 11), (none, none)] := by decide +kernel

end LsSwap
end CairoM
