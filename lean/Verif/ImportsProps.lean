import Verif.ImportsLemmas

/-!
# C88: import cycles are found, and imported modules are analysed first
-/

namespace CairoM
namespace Imports

variable {α : Type} [DecidableEq α]

theorem good_start (g : Graph α) : Good g ⟨fun _ => none, [], none⟩ :=
  { marks := by simp, grey := by simp, nodup := by simp, chain := by simp, black := by simp, dom := by simp }

theorem detect_spec [LinearOrder α] (g : Graph α) : ∃ r, detectImportCycle g = .ok r ∧
    ((∃ c, r = some c ∧ IsCycle g c) ∨ (r = none ∧ Acyclic g)) := by
  obtain ⟨r, h1, h2⟩ := search_ok (g := g) (Nat.le_refl _) ((g.map Prod.fst).insertionSort (· ≤ ·)) _ (good_start g) rfl rfl
    (fun v hv => keys_names ((List.perm_insertionSort _ _).mem_iff.1 hv))
  exact ⟨r, h1, h2.imp id fun h => ⟨h.1, acyclic_of_ends fun v hv => h.2 v ((List.perm_insertionSort _ _).mem_iff.2 hv)⟩⟩

/-- **C88.** The search for a cycle of imports terminates without a panic on every graph. -/
theorem C88_total [LinearOrder α] (g : Graph α) : ∃ r, detectImportCycle g = .ok r := by
  obtain ⟨r, h, _⟩ := detect_spec g
  exact ⟨r, h⟩

/-- **C88.** A reported cycle is one: each module imports the next, and the last is the first. -/
theorem C88_cycle [LinearOrder α] {g : Graph α} {c : List α} (h : detectImportCycle g = .ok (some c)) : IsCycle g c := by
  obtain ⟨r, h1, h2⟩ := detect_spec g
  rw [h, Except.ok.injEq] at h1
  subst h1
  rcases h2 with ⟨c', e, h2⟩ | h2
  · rw [Option.some.injEq] at e; rw [e]; exact h2
  · simp at h2

/-- **C88.** A crate is accepted exactly if no module imports itself, directly or through others. -/
theorem C88_exact [LinearOrder α] (g : Graph α) : detectImportCycle g = .ok none ↔ Acyclic g := by
  obtain ⟨r, h1, h2⟩ := detect_spec g
  rw [h1, Except.ok.injEq]
  constructor
  · rintro rfl
    rcases h2 with ⟨c, e, _⟩ | h2
    · simp at e
    · exact h2.2
  · intro ha
    rcases h2 with ⟨c, rfl, hc⟩ | h2
    · obtain ⟨a, _, hcyc⟩ := hc.transGen
      exact absurd hcyc (ha a)
    · exact h2.1

/-- **C88.** Which cycle is reported does not depend on the order of the hash map. -/
theorem C88_deterministic [LinearOrder α] {g g' : Graph α} (h : g.Perm g') (hn : (g.map Prod.fst).Nodup) :
    detectImportCycle g = detectImportCycle g' := by
  have hs : (g.map Prod.fst).insertionSort (· ≤ ·) = (g'.map Prod.fst).insertionSort (· ≤ ·) := by
    have hp : ((g.map Prod.fst).insertionSort (· ≤ ·)).Perm ((g'.map Prod.fst).insertionSort (· ≤ ·)) :=
      (List.perm_insertionSort _ _).trans ((h.map Prod.fst).trans (List.perm_insertionSort _ _).symm)
    exact hp.eq_of_pairwise (fun a b _ _ h1 h2 => le_antisymm h1 h2) (List.pairwise_insertionSort _ _)
      (List.pairwise_insertionSort _ _)
  have hl : (names g).length = (names g').length := (h.flatMap_right _).length_eq
  simp only [detectImportCycle, hs, hl]
  exact search_congr (lookup_perm h hn) _ _ _

/-- **C88.** If no module imports itself, every module is analysed, once, and after the modules it imports, whatever the order
of the hash map. -/
theorem C88_order [LinearOrder α] {g : Graph α} (hn : (g.map Prod.fst).Nodup) (ha : Acyclic g) :
    ∃ order, analysisOrder g = .ok (.inr order) ∧ order.Perm (g.map Prod.fst) ∧
      ∀ before a after, order = before ++ a :: after → ∀ b ∈ g.map Prod.fst, Imported g a b → b ∈ before := by
  have hd := (C88_exact g).2 ha
  obtain ⟨topo, e1, e2, e3, _, e5⟩ := sortAll_ok ha (Nat.le_refl (names g).length) (g.map Prod.fst) ⟨[], []⟩
    { nodup := by simp, topoNodup := by simp, sub := by simp, first := by intro b a c h; simp at h, dom := by simp }
    (by simp) (fun v hv => keys_names hv)
  have hrest : ((g.map Prod.fst).insertionSort (· ≤ ·)).filter
      (fun v => decide (v ∉ topo.filter fun v => decide (v ∈ g.map Prod.fst))) = [] := by
    rw [List.filter_eq_nil_iff]
    intro v hv
    have hk := (List.perm_insertionSort _ _).mem_iff.1 hv
    simp only [decide_eq_true_eq, not_not, List.mem_filter]
    exact ⟨e5 v hk, hk⟩
  refine ⟨topo.filter fun v => decide (v ∈ g.map Prod.fst), ?_, ?_, ?_⟩
  · simp only [analysisOrder, hd, topologicalSort, e1, hrest, List.append_nil]
  · rw [List.perm_ext_iff_of_nodup (e2.filter _) hn]
    intro v
    simp only [List.mem_filter, decide_eq_true_eq]
    exact ⟨fun h => h.2, fun h => ⟨e5 v h, h⟩⟩
  · intro before a after e b hb hi
    obtain ⟨l₁, l₂, rfl, f1, f2⟩ := List.filter_eq_append_iff.1 e
    rw [List.filter_eq_cons_iff] at f2
    obtain ⟨m₁, m₂, rfl, f3, f4, f5⟩ := f2
    have hmem := e3 (l₁ ++ m₁) a m₂ (by simp) b hi
    rw [List.mem_append] at hmem
    rcases hmem with hm | hm
    · rw [← f1, List.mem_filter]; exact ⟨hm, by simpa using hb⟩
    · exact absurd (by simpa using hb) (f3 b hm)

/-! ### Examples -/

/-- `main` imports `a` and `b`, `a` imports `b` and a module that does not exist. -/
private def good : Graph ℕ := [(0, [1, 2]), (1, [2, 9]), (2, [])]

example : (good.map Prod.fst).Nodup ∧ detectImportCycle good = .ok none := by decide +kernel

example : analysisOrder good = .ok (.inr [2, 1, 0]) := by decide +kernel

/-- `main` imports `a`, `a` imports `b`, `b` imports `a`. -/
example : detectImportCycle ([(0, [1]), (1, [2]), (2, [1])] : Graph ℕ) = .ok (some [1, 2, 1]) := by decide +kernel

/-- A module that imports itself. -/
example : detectImportCycle ([(0, [0])] : Graph ℕ) = .ok (some [0, 0]) := by decide +kernel

end Imports
end CairoM
