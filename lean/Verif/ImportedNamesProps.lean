import Verif.ImportedNamesLemmas
import Mathlib.Data.String.Basic

/-!
# C97: imports that lead nowhere are reported, and the others lead to a definition
-/

namespace CairoM.Syntax

/-- **C97.** A missing module is reported exactly if the file imports something from it. -/
theorem C97_module (P : Project) (is : List Item) (m : String) :
    .module m ∈ importReports P is ↔ (∃ i ∈ is, ∃ x, Asks i m x) ∧ ∀ js, (m, js) ∉ P := by
  have hl : P.lookup m = none ↔ ∀ js, (m, js) ∉ P := by
    rw [List.lookup_eq_none_iff]
    exact ⟨fun h js hj => by simpa using h _ hj, fun h p hp => by
      obtain ⟨a, b⟩ := p
      simp only [bne_iff_ne, ne_eq]
      rintro rfl
      exact h b hp⟩
  rw [← hl, importReports, List.mem_flatMap]
  constructor
  · rintro ⟨⟨m', x⟩, hi, hr⟩
    obtain ⟨i, hii, hx⟩ := List.mem_flatMap.mp hi
    rw [importReport] at hr
    split at hr
    · split at hr <;> simp at hr
    · simp only [List.mem_singleton, ImportReport.module.injEq] at hr
      subst hr
      exact ⟨⟨i, hii, x, (imports_iff i _ _).mp hx⟩, by assumption⟩
  · rintro ⟨⟨i, hi, x, hx⟩, hn⟩
    exact ⟨(m, x), List.mem_flatMap.mpr ⟨i, hi, (imports_iff i _ _).mpr hx⟩, by simp [importReport, hn]⟩

/-- **C97.** An imported name is reported exactly if the module is there and does not define it at its top level. -/
theorem C97_item (P : Project) (hP : (P.map (·.1)).Nodup) (is : List Item) (m x : String) :
    .item m x ∈ importReports P is ↔
      (∃ i ∈ is, Asks i m x) ∧ ∃ js, (m, js) ∈ P ∧ ∀ j ∈ js, ∀ kind, ¬ Defines j x kind := by
  rw [importReports, List.mem_flatMap]
  constructor
  · rintro ⟨⟨m', x'⟩, hi, hr⟩
    obtain ⟨i, hii, hx⟩ := List.mem_flatMap.mp hi
    rw [importReport] at hr
    split at hr
    · rename_i js hjs
      split at hr
      · simp at hr
      · rename_i hn
        simp only [List.mem_singleton, ImportReport.item.injEq] at hr
        obtain ⟨rfl, rfl⟩ := hr
        exact ⟨⟨i, hii, (imports_iff i _ _).mp hx⟩, js, mem_of_lookup hjs,
          fun j hj kind hd => Builder.latest_none hn kind ⟨j, hj, hd⟩⟩
    · simp at hr
  · rintro ⟨⟨i, hi, hx⟩, js, hjs, hn⟩
    refine ⟨(m, x), List.mem_flatMap.mpr ⟨i, hi, (imports_iff i _ _).mpr hx⟩, ?_⟩
    simp only [importReport, lookup_of_mem hP hjs]
    split
    · rename_i n hs
      obtain ⟨d, _, j, hj, hd⟩ := Builder.latest_some hs
      exact absurd hd (hn j hj _)
    · simp

/-- **C97.** What the compiler finds behind a name of a module is a function, struct or constant that the name stands for. -/
theorem C97_sound (P : Project) : ∀ (n : ℕ) (m x k : String) (kind : DefKind), follow P n m x = some (k, kind) →
    Means P m x k kind ∧ kind ≠ .use
  | 0, _, _, _, _, h => by simp [follow] at h
  | n + 1, m, x, k, kind, h => by
    rw [follow] at h
    split at h
    · simp at h
    · rename_i is his
      split at h
      · simp at h
      · rename_i d hd
        obtain ⟨a, ha, hd⟩ := Option.bind_eq_some_iff.mp hd
        obtain ⟨d', hd', i, hi, hdef⟩ := Builder.latest_some ha
        rw [hd, Option.some.injEq] at hd'
        subst hd'
        split at h
        · split at h
          · simp at h
          · rename_i j hj
            have hmem := List.mem_reverse.mp (List.mem_of_find?_eq_some hj)
            have hx : j.2 = x := by simpa using List.find?_some hj
            obtain ⟨i', hi', hji⟩ := List.mem_flatMap.mp hmem
            obtain ⟨h1, h2⟩ := C97_sound P n _ _ _ _ h
            exact ⟨.via (mem_of_lookup his) hi' (hx ▸ (imports_iff i' _ _).mp hji) h1, h2⟩
        · rename_i hk
          simp only [Option.some.injEq, Prod.mk.injEq] at h
          obtain ⟨rfl, rfl⟩ := h
          exact ⟨.own (mem_of_lookup his) hi hdef hk, hk⟩

theorem follow_ends (P : Project) (hr : ∀ m is, (m, is) ∈ P → importReports P is = []) (m : String)
    (he : Imports.Ends (importGraph P) m) : ∀ (x : String) (is : List Item), P.lookup m = some is →
      (∃ kind, Builder.Top is x kind) → ∃ n k kind, follow P n m x = some (k, kind) := by
  induction he with
  | intro m _ ih =>
    rintro x is his ⟨kind, ht⟩
    cases hl : (Builder.build is).latest 0 x with
    | none => exact absurd ht (Builder.latest_none hl kind)
    | some a =>
      obtain ⟨d, hd, i, hi, hdef⟩ := Builder.latest_some hl
      by_cases hk : d.kind = .use
      · rw [hk] at hdef
        obtain ⟨m₀, hm₀⟩ := defines_use hdef
        cases hf : (is.flatMap Item.imports).reverse.find? (fun i => i.2 = x) with
        | none =>
          have := List.find?_eq_none.mp hf (m₀, x)
            (List.mem_reverse.mpr (List.mem_flatMap.mpr ⟨i, hi, (imports_iff i _ _).mpr hm₀⟩))
          simp at this
        | some j =>
          have hmem := List.mem_reverse.mp (List.mem_of_find?_eq_some hf)
          have hx : j.2 = x := by simpa using List.find?_some hf
          obtain ⟨i', hi', hji⟩ := List.mem_flatMap.mp hmem
          have hask : Asks i' j.1 x := hx ▸ (imports_iff i' _ _).mp hji
          have hrep : importReport P j.1 j.2 = [] :=
            List.flatMap_eq_nil_iff.mp (hr m is (mem_of_lookup his)) j hmem
          rw [hx, importReport] at hrep
          split at hrep
          · rename_i js hjs
            split at hrep
            · rename_i b hb
              obtain ⟨d', _, ht'⟩ := Builder.latest_some hb
              obtain ⟨n, k, kind', hn⟩ := ih j.1 (asks_imported his hi' hask) x js hjs ⟨_, ht'⟩
              exact ⟨n + 1, k, kind', by simp [follow, his, hl, hd, hk, hf, hn]⟩
            · simp at hrep
          · simp at hrep
      · exact ⟨1, m, d.kind, by simp [follow, his, hl, hd, hk]⟩

/-- **C97.** If no import of the crate is reported and no cycle of imports is found, the compiler gets from every imported name,
through however many modules, to the function, struct or constant it stands for. -/
theorem C97_resolved (P : Project) (hc : Imports.detectImportCycle (importGraph P) = .ok none)
    (hr : ∀ m is, (m, is) ∈ P → importReports P is = []) {m m' x : String} {is : List Item} {i : Item} (hm : (m, is) ∈ P)
    (hi : i ∈ is) (ha : Asks i m' x) :
    ∃ n k kind, follow P n m' x = some (k, kind) ∧ Means P m' x k kind ∧ kind ≠ .use := by
  have hmem : (m', x) ∈ is.flatMap Item.imports := List.mem_flatMap.mpr ⟨i, hi, (imports_iff i _ _).mpr ha⟩
  have hrep : importReport P m' x = [] := List.flatMap_eq_nil_iff.mp (hr m is hm) _ hmem
  rw [importReport] at hrep
  split at hrep
  · rename_i js hjs
    split at hrep
    · rename_i b hb
      obtain ⟨d, _, ht⟩ := Builder.latest_some hb
      obtain ⟨n, k, kind, hn⟩ := follow_ends P hr m' (detect_ends hc m') x js hjs ⟨_, ht⟩
      exact ⟨n, k, kind, hn, C97_sound P n _ _ _ _ hn⟩
    · simp at hrep
  · simp at hrep

/-- **C97.** If moreover no module defines a name twice at its top level, a name stands for one definition only, so what the
compiler finds is the meaning of the name. -/
theorem C97_unique (P : Project) (hP : (P.map (·.1)).Nodup)
    (hd : ∀ m is, (m, is) ∈ P → Distinct (is.map Item.defines).flatten) {m x k k' : String} {kind kind' : DefKind}
    (h : Means P m x k kind) (h' : Means P m x k' kind') : k = k' ∧ kind = kind' := by
  have same : ∀ {m : String} {is js : List Item}, (m, is) ∈ P → (m, js) ∈ P → is = js := fun a b =>
    Option.some.inj ((lookup_of_mem hP a).symm.trans (lookup_of_mem hP b))
  induction h with
  | own hm hi hdef hk =>
    cases h' with
    | own hm' hi' hdef' hk' =>
      have := same hm hm'; subst this
      have := same_item (hd _ _ hm) hi hi' (defines_mem hdef) (defines_mem hdef'); subst this
      exact ⟨rfl, defines_kind hdef hdef'⟩
    | via hm' hi' ha' _ =>
      have := same hm hm'; subst this
      have := same_item (hd _ _ hm) hi hi' (defines_mem hdef) (defines_mem (asks_defines ha')); subst this
      exact absurd (defines_kind hdef (asks_defines ha')) hk
  | via hm hi ha _ ih =>
    cases h' with
    | own hm' hi' hdef' hk' =>
      have := same hm hm'; subst this
      have := same_item (hd _ _ hm) hi hi' (defines_mem (asks_defines ha)) (defines_mem hdef'); subst this
      exact absurd (defines_kind hdef' (asks_defines ha)) hk'
    | via hm' hi' ha' hr' =>
      have := same hm hm'; subst this
      have := same_item (hd _ _ hm) hi hi' (defines_mem (asks_defines ha)) (defines_mem (asks_defines ha')); subst this
      have := asks_module ha ha'; subst this
      exact ih hr'

/-! ### Examples -/

private def fn (x : String) : Item := .function ⟨x, [], .tuple [], [.return_ none]⟩

/-- `main` imports `f` from `lib::api`, which imports it from `lib::core`, where it is a function. -/
private def crate : Project :=
  [("main", [.use ["lib", "api"] (.single "f"), fn "main"]),
   ("lib::api", [.use ["lib", "core"] (.list ["f", "N"])]),
   ("lib::core", [fn "f", .const ⟨"N", none, .literal 3 none⟩])]

example : (crate.map (·.1)).Nodup := by decide +kernel
example : Imports.detectImportCycle (importGraph crate) = .ok none := by decide +kernel
example : ∀ m is, (m, is) ∈ crate → importReports crate is = [] := by
  have : ∀ q ∈ crate, importReports crate q.2 = [] := by decide +kernel
  exact fun m is h => this _ h
example : follow crate 3 "main" "f" = some ("lib::core", .function) := by decide +kernel
example : ∀ q ∈ crate, (q.2.map Item.defines).flatten.Nodup := by decide +kernel

/-- A missing module and a missing name. -/
example : importReports crate [.use ["lib", "io"] (.single "f"), .use ["lib", "core"] (.list ["N", "g"])] =
    [.module "lib::io", .item "lib::core" "g"] := by decide +kernel

/-- Two modules that import a name from each other: no import is reported, the cycle is. -/
private def ring : Project := [("a", [.use ["b"] (.single "f")]), ("b", [.use ["a"] (.single "f")])]

example : (∀ q ∈ ring, importReports ring q.2 = []) ∧ follow ring 9 "a" "f" = none ∧
    Imports.detectImportCycle (importGraph ring) = .ok (some ["a", "b", "a"]) := by decide +kernel

end CairoM.Syntax
