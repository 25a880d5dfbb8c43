import Verif.DuplicatesLemmas

/-!
# C96: names defined twice are reported
-/

namespace CairoM.Syntax

/-- C96, no false alarm: a file that defines no name twice gets no diagnostic about a name defined twice. -/
theorem C96_no_false_alarm (is : List Item) (h : DefinedOnce is) : duplicates is = [] := by
  rw [duplicates, List.append_eq_nil_iff, List.append_eq_nil_iff, topLevelDuplicates_nil, modulePatternDuplicates_nil]
  refine ⟨⟨h.top, ?_⟩, fun f hf => stmts_sound f.body fun s hs p ty e hi => h.patterns f hf s hs p ty e hi⟩
  rw [List.flatMap_eq_nil_iff]
  intro d _
  rw [definitionDuplicates]
  split
  · split
    · rename_i f hf
      exact (parameterDuplicates_nil _).mpr (h.params f (findFunction_mem hf))
    · rfl
  · split
    · rename_i fs hf
      obtain ⟨y, hy⟩ := findStruct_mem hf
      exact (fieldDuplicates_nil _).mpr (h.fields y fs hy)
    · rfl
  · rfl

/-- C96, in files without `for` loops: exactly the files that define no name twice get no diagnostic about a name defined
twice. Missing: patterns inside `for` loops (`C96_violated`). -/
theorem C96_partial (is : List Item) (hn : NoFor is) : duplicates is = [] ↔ DefinedOnce is := by
  refine ⟨fun h => ?_, C96_no_false_alarm is⟩
  rw [duplicates, List.append_eq_nil_iff, List.append_eq_nil_iff, topLevelDuplicates_nil, modulePatternDuplicates_nil,
    List.flatMap_eq_nil_iff] at h
  obtain ⟨⟨ht, hd⟩, hp⟩ := h
  have hnd : (is.flatMap Item.topNames).Nodup := by
    rw [List.flatMap_def, funext topNames_eq]; exact (distinct_iff _).mp ht
  refine ⟨ht, fun f hf => ?_, fun x fs hf => ?_, fun f hf s hs => stmts_complete f.body (hn f hf) (hp f hf) s hs⟩
  · obtain ⟨d, hm, hx, hk⟩ := Builder.build_declares is _ hf (f.name, .function) (by simp [Item.declared])
    have := hd d hm
    simp only [definitionDuplicates, hk, hx, findFunction_self hf hnd] at this
    exact (parameterDuplicates_nil _).mp this
  · obtain ⟨d, hm, hx, hk⟩ := Builder.build_declares is _ hf (x, .struct) (by simp [Item.declared])
    have := hd d hm
    simp only [definitionDuplicates, hk, hx, findStruct_self hf hnd] at this
    exact (fieldDuplicates_nil _).mp this

/-- C96 at the top level, in every file: a name that is defined `n` times is reported `n - 1` times. -/
theorem C96_top_level (is : List Item) (x : String) :
    (duplicates is).count (.definition x) = (is.map Item.defines).flatten.count x - 1 := by
  have inj : Function.Injective Duplicate.definition := fun a b h => by injection h
  have h₁ : ((Builder.build is).defs.flatMap (definitionDuplicates is)).count (.definition x) = 0 := by
    rw [List.count_eq_zero]
    intro hm
    obtain ⟨d, _, hm⟩ := List.mem_flatMap.mp hm
    rw [definitionDuplicates] at hm
    split at hm
    · split at hm
      · rw [parameterDuplicates] at hm; split at hm <;> simp at hm
      · simp at hm
    · split at hm
      · simp [fieldDuplicates] at hm
      · simp at hm
    · simp at hm
  have h₂ : (modulePatternDuplicates is).count (.definition x) = 0 := by
    rw [List.count_eq_zero]
    intro hm
    obtain ⟨i, _, hm⟩ := List.mem_flatMap.mp hm
    cases i with
    | function f => exact not_definition_all x f.body hm
    | _ => simp at hm
  rw [duplicates, List.count_append, List.count_append, h₁, h₂, topLevelDuplicates,
    List.count_map_of_injective _ _ inj, repeats_count, List.flatMap_def, funext topNames_eq]
  simp

/-! ## Witnesses -/

/-- A function with a struct beside it, nested patterns and a loop; nothing is defined twice. -/
def tidy : List Item :=
  [.struct "Point" [("x", .named .felt), ("y", .named .felt)],
   .function ⟨"main", [("a", .named .felt), ("b", .named .felt)], .named .felt,
     [.while_ (.boolean true) (.block [.let_ (.tuple [.ident "x", .tuple [.ident "y", .ident "z"]]) none (.ident "a")]),
      .let_ (.ident "x") none (.ident "b"), .return_ (some (.ident "x"))]⟩]

theorem inside_block {s : Stmt} {ss : List Stmt} (h : Inside s (.block ss)) : s = .block ss ∨ ∃ t ∈ ss, Inside s t := by
  cases h with
  | self => exact .inl rfl
  | block h hs => exact .inr ⟨_, h, hs⟩

theorem tidy_noFor : NoFor tidy := by
  intro f hf s hs i c st b hi
  simp only [tidy, List.mem_cons, Item.function.injEq, List.not_mem_nil, or_false, reduceCtorEq, false_or] at hf
  subst hf
  simp only [List.mem_cons, List.not_mem_nil, or_false] at hs
  rcases hs with rfl | rfl | rfl
  · cases hi with
    | while_ hi =>
      rcases inside_block hi with h | ⟨t, ht, hi⟩
      · cases h
      · simp only [List.mem_cons, List.not_mem_nil, or_false] at ht
        subst ht
        cases hi
  · cases hi
  · cases hi

example : DefinedOnce tidy := (C96_partial tidy tidy_noFor).mp (by decide +kernel)

/-- Every kind of repetition, outside `for` loops. -/
def untidy : List Item :=
  [.struct "Point" [("x", .named .felt), ("x", .named .felt)],
   .function ⟨"main", [("a", .named .felt), ("a", .named .felt)], .named .felt,
     [.loop_ (.block [.let_ (.tuple [.ident "x", .tuple [.ident "y", .ident "x"]]) none (.ident "a")])]⟩,
   .const ⟨"main", none, .literal 1 none⟩]

example : duplicates untidy = [.definition "main", .field "x", .parameter "a", .pattern "x"] := by decide +kernel

/-- `for (let i = 0; i != 2; i = i + 1) { let (a, a) = (1, 2); }`. -/
def inFor : List Item :=
  [.function ⟨"main", [], .named .felt,
    [.for_ (.let_ (.ident "i") none (.literal 0 none)) (.binary .neq (.ident "i") (.literal 2 none))
      (.assign (.ident "i") (.binary .add (.ident "i") (.literal 1 none)))
      (.block [.let_ (.tuple [.ident "a", .ident "a"]) none (.tuple [.literal 1 none, .literal 2 none])]),
     .return_ (some (.literal 0 none))]⟩]

/-- C96 fails inside `for` loops: a name that one pattern binds twice is not reported there. -/
theorem C96_violated : duplicates inFor = [] ∧ ¬ DefinedOnce inFor := by
  refine ⟨by decide +kernel, fun h => ?_⟩
  have := h.patterns _ (List.mem_singleton.mpr rfl) _ List.mem_cons_self (.tuple [.ident "a", .ident "a"]) none _
    (.forBody (.block (List.mem_singleton.mpr rfl) (.self _)))
  have := this [0] [1] "a" (.tuple rfl (.ident _)) (.tuple rfl (.ident _))
  simp at this

end CairoM.Syntax
