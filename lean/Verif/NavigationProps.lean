import Verif.Navigation
import Verif.ModulesProps

/-!
# C99: navigation in the editor looks into the file of the request
-/

namespace CairoM
namespace Modules

theorem lookup_put {V : Type} (n m : Component) (v : V) (l : List (Component × V)) :
    (put n v l).lookup m = if m = n then some v else l.lookup m := by
  rw [put, List.lookup_cons]
  by_cases h : m = n
  · simp [h]
  · simp only [beq_eq_false_iff_ne.mpr h, if_neg h]
    induction l with
    | nil => rfl
    | cons e l ih =>
      obtain ⟨a, b⟩ := e
      by_cases ha : a = n
      · subst ha
        rw [List.filter_cons_of_neg (by simp), ih, List.lookup_cons, beq_eq_false_iff_ne.mpr h]
      · rw [List.filter_cons_of_pos (by simpa using ha), List.lookup_cons, List.lookup_cons]
        cases m == a
        · exact ih
        · rfl

theorem crateName_source (src dirs : Path) (stem : Component) (h : stem ≠ []) :
    crateName src (sourcePath src dirs stem) = some (join (dirs ++ [stem])) := by
  rw [crateName, sourcePath, List.append_assoc, moduleName_eq, splitName_source stem h]

/-- The module of a name is the file of that name, if there is one. -/
theorem semanticCrate_lookup {T : Type} (src : Path) (n : Component) : ∀ (files : List (Path × T)) (modules : List (Component × Path × T)),
    (∀ f ∈ files, ∀ g ∈ files, crateName src f.1 = some n → crateName src g.1 = some n → f = g) →
    (∀ f ∈ files, crateName src f.1 = some n → (semanticCrate src files modules).lookup n = some f) ∧
    ((∀ f ∈ files, crateName src f.1 ≠ some n) → (semanticCrate src files modules).lookup n = modules.lookup n)
  | [], modules, _ => ⟨by simp, fun _ => rfl⟩
  | f :: fs, modules, hu => by
    have ih := fun ms => semanticCrate_lookup src n fs ms fun a ha b hb =>
      hu a (List.mem_cons_of_mem _ ha) b (List.mem_cons_of_mem _ hb)
    rw [semanticCrate]
    cases hf : crateName src f.1 with
    | none =>
      refine ⟨fun g hg hn => ?_, fun h => (ih modules).2 fun g hg => h g (List.mem_cons_of_mem _ hg)⟩
      rcases List.mem_cons.mp hg with rfl | hg
      · rw [hf] at hn; simp at hn
      · exact (ih modules).1 g hg hn
    | some k =>
      refine ⟨fun g hg hn => ?_, fun h => ?_⟩
      · by_cases hin : ∃ g' ∈ fs, crateName src g'.1 = some n
        · obtain ⟨g', hg', hn'⟩ := hin
          rw [hu g hg g' (List.mem_cons_of_mem _ hg') hn hn']
          exact (ih _).1 g' hg' hn'
        · have hnot : ∀ g' ∈ fs, crateName src g'.1 ≠ some n := fun g' hg' e => hin ⟨g', hg', e⟩
          rcases List.mem_cons.mp hg with rfl | hg
          · rw [hf, Option.some.injEq] at hn
            dsimp only
            rw [(ih _).2 hnot, lookup_put, if_pos hn.symm]
          · exact absurd hn (hnot g hg)
      · dsimp only
        rw [(ih _).2 fun g hg => h g (List.mem_cons_of_mem _ hg), lookup_put, if_neg]
        rintro rfl
        exact h f List.mem_cons_self hf

/-- The files of a crate: source files below the source directory, without colons in their names, each once. -/
def CrateFiles {T : Type} (src : Path) (files : List (Path × T)) : Prop :=
  (files.map Prod.fst).Nodup ∧
    ∀ f ∈ files, ∃ dirs stem, stem ≠ [] ∧ f.1 = sourcePath src dirs stem ∧ ':' ∉ stem ∧ ∀ c ∈ dirs, ':' ∉ c

/-- **C99, what the server does.** A request in the file `src/d₁/…/dₙ/s.cm` is answered from the file `src/s.cm`, if there is one,
and not at all otherwise. -/
theorem C99_navigation {T : Type} (src : Path) (files : List (Path × T)) (h : CrateFiles src files) (dirs : List Component)
    (stem : Component) (h0 : stem ≠ []) (hs : ':' ∉ stem) :
    (∀ text, (sourcePath src [] stem, text) ∈ files →
      navigationFile (semanticCrate src files []) (sourcePath src dirs stem) = some (sourcePath src [] stem, text)) ∧
    ((∀ text, (sourcePath src [] stem, text) ∉ files) →
      navigationFile (semanticCrate src files []) (sourcePath src dirs stem) = none) := by
  have hnav : navigationFile (semanticCrate src files []) (sourcePath src dirs stem) =
      (semanticCrate src files []).lookup stem := by
    simp [navigationFile, sourcePath, splitName_source stem h0]
  have hname : ∀ f ∈ files, crateName src f.1 = some stem → f.1 = sourcePath src [] stem := by
    intro f hf hn
    obtain ⟨ds, s, hne, e, c1, c2⟩ := h.2 f hf
    rw [e, crateName_source src ds s hne, Option.some.injEq] at hn
    have := join_inj (a := ds ++ [s]) (b := [stem]) (fun c hc => by
      rcases List.mem_append.mp hc with hc | hc
      · exact c2 c hc
      · rw [List.mem_singleton.mp hc]; exact c1) (by simpa using hs) (by simp) (by simp) hn
    cases ds with
    | nil => simp at this; rw [e, this]
    | cons d ds => simp at this
  have hu : ∀ f ∈ files, ∀ g ∈ files, crateName src f.1 = some stem → crateName src g.1 = some stem → f = g := fun f hf g hg a b =>
    List.inj_on_of_nodup_map h.1 hf hg ((hname f hf a).trans (hname g hg b).symm)
  obtain ⟨k1, k2⟩ := semanticCrate_lookup src stem files [] hu
  rw [hnav]
  refine ⟨fun text ht => k1 _ ht (crateName_source src [] stem h0), fun hno => ?_⟩
  rw [k2 fun f hf e => hno f.2 (by rw [← hname f hf e]; exact hf)]
  rfl

/-- **C99, in part.** A request in a file directly in the source directory is answered from that file. Missing: files in
subdirectories, see `C99_violated`. -/
theorem C99_partial {T : Type} (src : Path) (files : List (Path × T)) (h : CrateFiles src files) (stem : Component) (text : T)
    (h0 : stem ≠ []) (hs : ':' ∉ stem) (hf : (sourcePath src [] stem, text) ∈ files) :
    navigationFile (semanticCrate src files []) (sourcePath src [] stem) = some (sourcePath src [] stem, text) :=
  (C99_navigation src files h [] stem h0 hs).1 text hf

/-- The files `src/main.cm`, `src/util.cm`, `src/a/util.cm` and `src/a/b.cm`. -/
def navFiles : List (Path × ℕ) :=
  [(sourcePath src [] "main".toList, 0), (sourcePath src [] "util".toList, 1), (sourcePath src ["a".toList] "util".toList, 2),
   (sourcePath src ["a".toList] "b".toList, 3)]

theorem navFiles_ok : CrateFiles src navFiles := by
  refine ⟨by decide +kernel, fun f hf => ?_⟩
  simp only [navFiles, List.mem_cons, List.not_mem_nil, or_false] at hf
  rcases hf with rfl | rfl | rfl | rfl
  · exact ⟨[], "main".toList, by decide +kernel⟩
  · exact ⟨[], "util".toList, by decide +kernel⟩
  · exact ⟨["a".toList], "util".toList, by decide +kernel⟩
  · exact ⟨["a".toList], "b".toList, by decide +kernel⟩

/-- **C99 does not hold in subdirectories.** A request in `src/a/util.cm` is answered from `src/util.cm`, and one in `src/a/b.cm`
is not answered, although both are modules of the crate. -/
theorem C99_violated :
    navigationFile (semanticCrate src navFiles []) (sourcePath src ["a".toList] "util".toList) =
        some (sourcePath src [] "util".toList, 1) ∧
      navigationFile (semanticCrate src navFiles []) (sourcePath src ["a".toList] "b".toList) = none ∧
      (semanticCrate src navFiles []).lookup "a::util".toList = some (sourcePath src ["a".toList] "util".toList, 2) ∧
      (semanticCrate src navFiles []).lookup "a::b".toList = some (sourcePath src ["a".toList] "b".toList, 3) := by
  decide +kernel

/-! ### Example -/

example : navigationFile (semanticCrate src navFiles []) (sourcePath src [] "main".toList) = some (sourcePath src [] "main".toList, 0) :=
  C99_partial src navFiles navFiles_ok _ _ (by decide +kernel) (by decide +kernel) (by decide +kernel)

end Modules
end CairoM
