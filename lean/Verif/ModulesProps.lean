import Verif.ModulesLemmas
import Mathlib.Data.List.Nodup

/-! # Properties of the modules of a project (C93) -/

namespace CairoM
namespace Modules

theorem rootFile_plain (folder : Path) (stem : Component) :
    rootFile folder [stem ++ ['.', 'c', 'm']] = sourcePath (folder ++ [['s', 'r', 'c']]) [] stem := by
  have h : stem ++ ['.', 'c', 'm'] ≠ ['s', 'r', 'c'] := by
    intro h
    have := congrArg List.getLast? h
    simp at this
  simp [rootFile, sourcePath, h]

theorem rootFile_src (folder : Path) (stem : Component) :
    rootFile folder [['s', 'r', 'c'], stem ++ ['.', 'c', 'm']] = sourcePath (folder ++ [['s', 'r', 'c']]) [] stem := by
  simp [rootFile, sourcePath]

/-- C93: for an entry point directly in the source directory, file and directory names without colons and readable source files,
each source file becomes a module of its own under the name of its path, and the entry point is the module of the entry file,
whether or not the manifest writes `src/` before it. Missing: other entry points, colons, directories named like source files
(see the violations). -/
theorem C93_partial {T : Type} (folder : Path) (entry : Component) (walk : List Path) (read : Path → Option T) (root : Path)
    (hroot : root = rootFile folder [entry ++ ['.', 'c', 'm']] ∨ root = rootFile folder [['s', 'r', 'c'], entry ++ ['.', 'c', 'm']])
    (hentry : entry ≠ [] ∧ sourcePath (folder ++ [['s', 'r', 'c']]) [] entry ∈ walk) (hn : walk.Nodup)
    (hwalk : ∀ p ∈ walk, ∃ rel, p = folder ++ [['s', 'r', 'c']] ++ rel ∧ ∀ c ∈ rel, ':' ∉ c)
    (hread : ∀ dirs stem, stem ≠ [] → sourcePath (folder ++ [['s', 'r', 'c']]) dirs stem ∈ walk →
      (read (sourcePath (folder ++ [['s', 'r', 'c']]) dirs stem)).isSome) :
    ∃ modules, crateFromProject root walk read = some (some (modules, entry)) ∧
      Faithful (folder ++ [['s', 'r', 'c']]) walk read modules ∧
      ∃ text, (entry, sourcePath (folder ++ [['s', 'r', 'c']]) [] entry, text) ∈ modules := by
  rw [rootFile_plain, rootFile_src, or_self] at hroot
  generalize hsrc : folder ++ [['s', 'r', 'c']] = src at *
  have hlast : src.getLast? = some ['s', 'r', 'c'] := by simp [← hsrc]
  have hdrop : root.dropLast = src := by rw [hroot]; simp [sourcePath]
  have hrl : root.getLast? = some (entry ++ ['.', 'c', 'm']) := by rw [hroot]; simp [sourcePath]
  have hform : ∀ p ∈ walk, isSource p = true → ∃ dirs stem, stem ≠ [] ∧ p = sourcePath src dirs stem ∧ Below src p := by
    intro p hp hs
    obtain ⟨rel, rfl, hc⟩ := hwalk p hp
    obtain ⟨dirs, stem, h0, rfl⟩ := isSource_inv hlast hs
    exact ⟨dirs, stem, h0, by simp [sourcePath],
      ⟨dirs, _, rfl, hc _ (by simp), fun c h => hc c (by simp [h])⟩⟩
  have hin : ∀ dirs stem, stem ≠ [] → sourcePath src dirs stem ∈ walk → sourcePath src dirs stem ∈ walk.filter isSource :=
    fun dirs stem h0 h => List.mem_filter.2 ⟨h, isSource_path src dirs stem h0⟩
  have hfiles : walk.filter isSource ≠ [] := List.ne_nil_of_mem (hin [] entry hentry.1 hentry.2)
  have hsome : ∀ p ∈ walk.filter isSource, (read p).isSome := by
    intro p hp
    obtain ⟨h1, h2⟩ := List.mem_filter.1 hp
    obtain ⟨dirs, stem, h0, rfl, -⟩ := hform p h1 h2
    exact hread dirs stem h0 h1
  obtain ⟨t0, ht0⟩ := Option.isSome_iff_exists.1 (hread [] entry hentry.1 hentry.2)
  obtain ⟨modules, e1, e2, e3⟩ := collect_ok src (fun p => (read p).getD t0) read (walk.filter isSource)
    (fun p hp => by
      obtain ⟨h1, h2⟩ := List.mem_filter.1 hp
      obtain ⟨_, _, _, _, h⟩ := hform p h1 h2
      exact h)
    (fun p hp => (List.mem_filter.1 hp).2)
    (fun p hp => by
      obtain ⟨t, ht⟩ := Option.isSome_iff_exists.1 (hsome p hp)
      simp [ht])
    (hn.filter _) [] (by simp)
  rw [List.append_nil] at e1
  have hpaths : (modules.map fun e => e.2.1).Perm (walk.filter isSource) := by
    have := e3.map Prod.fst
    simpa [List.map_map, Function.comp_def] using this
  have hpn : (modules.map fun e => e.2.1).Nodup := hpaths.nodup_iff.2 (hn.filter _)
  have hname : ∀ e ∈ modules, ∃ dirs stem, stem ≠ [] ∧ e.1 = qualified dirs stem ∧ e.2.1 = sourcePath src dirs stem ∧
      Below src e.2.1 ∧ e.2.1 ∈ walk := by
    intro e he
    have hm := hpaths.mem_iff.1 (List.mem_map.2 ⟨e, he, rfl⟩)
    obtain ⟨h1, h2⟩ := List.mem_filter.1 hm
    obtain ⟨dirs, stem, h0, h, hb⟩ := hform _ h1 h2
    refine ⟨dirs, stem, h0, ?_, h, hb, h1⟩
    have h4 := e2 e he
    rw [h, sourcePath, List.append_assoc, moduleName_eq, splitName_source stem h0, join_qualified, Option.some.injEq] at h4
    exact h4.symm
  have hmem : ∀ dirs stem, stem ≠ [] → sourcePath src dirs stem ∈ walk → ∃ text,
      read (sourcePath src dirs stem) = some text ∧ (qualified dirs stem, sourcePath src dirs stem, text) ∈ modules := by
    intro dirs stem h0 h
    obtain ⟨t, ht⟩ := Option.isSome_iff_exists.1 (hread dirs stem h0 h)
    have h5 : (sourcePath src dirs stem, t) ∈ modules.map Prod.snd :=
      e3.mem_iff.2 (List.mem_map.2 ⟨_, hin dirs stem h0 h, by simp [ht]⟩)
    obtain ⟨⟨n, q⟩, he, rfl⟩ := List.mem_map.1 h5
    have h4 := e2 _ he
    simp only [sourcePath] at h4
    rw [List.append_assoc, moduleName_eq, splitName_source stem h0, join_qualified, Option.some.injEq] at h4
    exact ⟨t, ht, by rw [h4]; exact he⟩
  refine ⟨modules, ?_, ⟨?_, hpn, hmem, fun e he => ?_⟩, ?_⟩
  · have hsf : sourceFiles root walk = some (walk.filter isSource) := by
      have hr0 : root ≠ [] := by rintro rfl; simp at hrl
      simp [sourceFiles, hr0, hdrop, hlast, hfiles]
    simp [crateFromProject, hsf, hdrop, e1, hrl, splitName_source entry hentry.1]
  · refine List.Nodup.map_on (fun a ha b hb hab => ?_) (List.Nodup.of_map _ hpn)
    obtain ⟨_, _, _, _, _, b1, w1⟩ := hname a ha
    obtain ⟨_, _, _, _, _, b2, w2⟩ := hname b hb
    have s1 := (List.mem_filter.1 (hpaths.mem_iff.1 (List.mem_map.2 ⟨a, ha, rfl⟩))).2
    have s2 := (List.mem_filter.1 (hpaths.mem_iff.1 (List.mem_map.2 ⟨b, hb, rfl⟩))).2
    exact List.inj_on_of_nodup_map hpn ha hb (moduleName_inj b1 b2 s1 s2 (by rw [e2 a ha, e2 b hb, hab]))
  · obtain ⟨dirs, stem, _, h1, h2, _, h3⟩ := hname e he
    exact ⟨h3, dirs, stem, h1, h2⟩
  · obtain ⟨t, _, h⟩ := hmem [] entry hentry.1 hentry.2
    exact ⟨t, h⟩

/-! Paths for the examples: the project folder is `p`. -/

def src : Path := ["p".toList, "src".toList]
def main : Path := src ++ ["main.cm".toList]
/-- All files are readable; the text of a file is the number of its path components. -/
def readAll (p : Path) : Option Nat := some p.length

instance : DecidableEq (Option (List (Component × Path × Nat) × Component)) := fun a b => Option.instDecidableEq a b

example : crateFromProject (rootFile ["p".toList] ["main.cm".toList])
    [src, main, src ++ ["a".toList], src ++ ["a".toList, "b.cm".toList], src ++ ["a".toList, "notes.txt".toList]] readAll =
    some (some ([("a::b".toList, src ++ ["a".toList, "b.cm".toList], 4), ("main".toList, main, 3)], "main".toList)) := by
  decide +kernel

/-- The hypotheses of `C93_partial` hold for this project. -/
example : ∃ modules, crateFromProject (rootFile ["p".toList] ["main".toList ++ ['.', 'c', 'm']])
    [src, main, src ++ ["a".toList], src ++ ["a".toList, "b.cm".toList]] readAll = some (some (modules, "main".toList)) ∧
    ("a::b".toList, src ++ ["a".toList, "b.cm".toList], 4) ∈ modules := by
  obtain ⟨modules, h, ⟨-, -, hf, -⟩, -⟩ := C93_partial ["p".toList] "main".toList
    [src, main, src ++ ["a".toList], src ++ ["a".toList, "b.cm".toList]] readAll _ (.inl rfl) (by decide +kernel) (by decide +kernel)
    (fun p hp => by
      simp only [List.mem_cons, List.not_mem_nil, or_false] at hp
      rcases hp with rfl | rfl | rfl | rfl
      · exact ⟨[], by decide +kernel⟩
      · exact ⟨["main.cm".toList], by decide +kernel⟩
      · exact ⟨["a".toList], by decide +kernel⟩
      · exact ⟨["a".toList, "b.cm".toList], by decide +kernel⟩) (fun _ _ _ _ => rfl)
  obtain ⟨t, h1, h2⟩ := hf ["a".toList] "b".toList (by decide +kernel) (by decide +kernel)
  refine ⟨modules, h, ?_⟩
  cases h1
  exact h2

/-- Two source files of which only one is compiled, without a diagnostic: `src/a/b.cm` and `src/a::b.cm`. -/
theorem C93_violated_colon : ∃ (walk : List Path) (modules : List (Component × Path × Nat)) (entry : Component),
    crateFromProject main walk readAll = some (some (modules, entry)) ∧ src ++ ["a".toList, "b.cm".toList] ∈ walk ∧
    src ++ ["a".toList, "b.cm".toList] ∉ modules.map fun e => e.2.1 :=
  ⟨[main, src ++ ["a".toList, "b.cm".toList], src ++ ["a::b.cm".toList]],
    [("a::b".toList, src ++ ["a::b.cm".toList], 3), ("main".toList, main, 3)], "main".toList, by decide +kernel⟩

/-- With the entry point `sub/main.cm` only that file is compiled, whatever else is below the source directory. -/
theorem C93_violated_subdirectory (walk : List Path) : crateFromProject (rootFile ["p".toList] ["sub".toList, "main.cm".toList])
    walk readAll = some (some ([("main".toList, src ++ ["sub".toList, "main.cm".toList], 4)], "main".toList)) := by
  have h : sourceFiles (rootFile ["p".toList] ["sub".toList, "main.cm".toList]) walk =
      some [src ++ ["sub".toList, "main.cm".toList]] := by
    have h1 : (rootFile ["p".toList] ["sub".toList, "main.cm".toList]) = src ++ ["sub".toList, "main.cm".toList] := by
      decide +kernel
    have h2 : (src ++ ["sub".toList, "main.cm".toList]).dropLast.getLast? = some "sub".toList := by decide +kernel
    have h3 : "sub".toList ≠ ['s', 'r', 'c'] := by decide +kernel
    have h4 : src ++ ["sub".toList, "main.cm".toList] ≠ [] := by decide +kernel
    rw [h1, sourceFiles, if_neg h4, h2]
    simp only [if_pos h3]
  rw [crateFromProject, h]
  decide +kernel

/-- A directory named like a source file: the project is not compiled at all, since the directory cannot be read as a text. -/
theorem C93_violated_directory : ∃ (walk : List Path) (read : Path → Option Nat),
    (∀ p ∈ walk, (read p = none ↔ ∃ c, p ++ [c] ∈ walk)) ∧ crateFromProject main walk read = some none :=
  ⟨[main, src ++ ["old.cm".toList], src ++ ["old.cm".toList, "x.cm".toList]],
    fun p => if p = src ++ ["old.cm".toList] then none else some 0, by
      refine ⟨fun p hp => ?_, by decide +kernel⟩
      simp only [List.mem_cons, List.not_mem_nil, or_false] at hp
      rcases hp with rfl | rfl | rfl
      · refine ⟨fun h => absurd h (by decide +kernel), fun ⟨c, hc⟩ => ?_⟩
        simp [main, src] at hc
      · exact ⟨fun _ => ⟨"x.cm".toList, by simp⟩, fun _ => by simp⟩
      · refine ⟨fun h => absurd h (by decide +kernel), fun ⟨c, hc⟩ => ?_⟩
        simp [main, src] at hc⟩

end Modules
end CairoM
