import Verif.TypeChecksLemmas

/-!
# C104: type expressions without errors
-/

namespace CairoM
namespace TypeChecks

open Mir Syntax TypeNames

/-- **C104, undeclared names.** If nothing is reported, every name in a signature or a struct has a declaration. -/
theorem C104_declared {P : Project} (h : reports P = []) {m x : String} {t : TypeExpr} (ht : Signature P m t) (hx : Names x t) :
    ∃ d, declOf P (m, x) = some d := by
  cases hd : declOf P (m, x) with
  | some d => exact ⟨d, rfl⟩
  | none =>
    obtain ⟨is, h1, i, h2, h3, h4⟩ := ht
    have hv : t ∈ visited i := by
      cases i with
      | const c => exact absurd rfl (h3 c)
      | _ => exact h4
    have : .undeclaredType x ∈ reports P := List.mem_flatMap.2 ⟨_, h1, List.mem_flatMap.2 ⟨_, h2,
      List.mem_append_left _ (List.mem_flatMap.2 ⟨_, hv, undeclared_names hx.occurs hd⟩)⟩⟩
    simp [h] at this

/-- **C104, no false alarm.** Reported as unknown are exactly the names without a declaration. -/
theorem C104_undeclared (P : Project) (x : String) : .undeclaredType x ∈ reports P ↔
    ∃ m t, Signature P m t ∧ Occurs x t ∧ declOf P (m, x) = none := by
  constructor
  · intro h
    obtain ⟨⟨m, is⟩, h1, h⟩ := List.mem_flatMap.1 h
    obtain ⟨i, h2, h⟩ := List.mem_flatMap.1 h
    rcases List.mem_append.1 h with h | h
    · obtain ⟨t, h3, h⟩ := List.mem_flatMap.1 h
      obtain ⟨y, h4, h5, h6⟩ := names_undeclared t h
      cases h4
      refine ⟨m, t, ⟨is, h1, i, h2, ?_, ?_⟩, h5, h6⟩
      · rintro c rfl
        simp [visited] at h3
      · cases i with
        | const c => simp [visited] at h3
        | _ => exact h3
    · obtain ⟨t, -, h⟩ := List.mem_flatMap.1 h
      exact absurd (nestedArrays_only t h) (by simp)
  · rintro ⟨m, t, ⟨is, h1, i, h2, h3, h4⟩, h5, h6⟩
    have hv : t ∈ visited i := by
      cases i with
      | const c => exact absurd rfl (h3 c)
      | _ => exact h4
    exact List.mem_flatMap.2 ⟨_, h1, List.mem_flatMap.2 ⟨_, h2,
      List.mem_append_left _ (List.mem_flatMap.2 ⟨_, hv, undeclared_names h5 h6⟩)⟩⟩

/-- **C104, arrays of arrays.** A type expression in the signature of a function is reported exactly if it is an array of arrays or a
tuple, of any depth, with an array of arrays in it. -/
theorem C104_nested (t : TypeExpr) : nestedArrays t ≠ [] ↔ Shown t :=
  ⟨fun h => by
    obtain ⟨r, hr⟩ := List.exists_mem_of_ne_nil _ h
    exact shown_nestedArrays t hr, fun h => List.ne_nil_of_mem (nestedArrays_shown h)⟩

/-- **C104, in part.** If nothing is reported, the type of every type expression in a signature or struct has no error in it, as long as
its names stand for structs and arrays of arrays are written in signatures only, outside pointers and arrays. Missing: the other names
and places (`C104_violated_…`); type expressions of constants and in function bodies. -/
theorem C104_proper_partial {P : Project} (h : reports P = []) (himp : ∀ k k', declOf P k = some (.use k') → ∃ d, declOf P k' = some d)
    (hstr : ∀ m t x d, Signature P m t → Names x t → StandsFor P (m, x) d → ∃ fs, d = .struct fs)
    (hnest : ∀ m is i t, (m, is) ∈ P → i ∈ is → t ∈ written i → Nested t → (∃ f, i = .function f) ∧ Shown t)
    {m : String} {t : TypeExpr} {u : MirType} (ht : Signature P m t) (hu : typeOfExpr P m t = .ok u) : Proper u := by
  have hn : ∀ m t, Signature P m t → ¬ Nested t := by
    rintro m t ⟨is, h1, i, h2, -, h4⟩ hc
    obtain ⟨⟨f, rfl⟩, h5⟩ := hnest m is i t h1 h2 h4 hc
    have : .nestedArray ∈ reports P := List.mem_flatMap.2 ⟨_, h1, List.mem_flatMap.2 ⟨_, h2,
      List.mem_append_right _ (List.mem_flatMap.2 ⟨_, h4, nestedArrays_shown h5⟩)⟩⟩
    simp [h] at this
  have hd : ∀ m t x, Signature P m t → Names x t → ∃ d, declOf P (m, x) = some d := fun _ _ _ => C104_declared h
  exact resolve_proper t (hn m t ht) (fun x hx v hv => typeOf_proper himp hd hstr hn hv (hd m t x ht hx)
    fun d h => hstr m t x d ht hx h) hu

/-! ## Examples -/

/-- `struct Point { x: felt, y: felt }` in `lib`; `use lib::Point; fn f(p: Point, q: [Point*; 3]) -> (felt, Point)` in `main`. -/
def plane (body : List Stmt) : Project :=
  [("lib", [.struct "Point" [("x", .named .felt), ("y", .named .felt)]]),
   ("main", [.use ["lib"] (.single "Point"),
     .function ⟨"f", [("p", .named (.custom "Point")), ("q", .fixedArray (.pointer (.named (.custom "Point"))) 3)],
       .tuple [.named .felt, .named (.custom "Point")], body⟩])]

example (body : List Stmt) : reports (plane body) = [] := rfl

example (body : List Stmt) : typeOfExpr (plane body) "main" (.fixedArray (.pointer (.named (.custom "Point"))) 3) =
    .ok (.FixedArray (.Pointer (.Struct "Point".toList [("x".toList, .Felt), ("y".toList, .Felt)])) 3) := rfl

theorem plane_written {body : List Stmt} {m : String} {is : List Item} {i : Item} {t : TypeExpr} (h1 : (m, is) ∈ plane body) (h2 : i ∈ is)
    (h3 : t ∈ written i) : t = .named .felt ∨ m = "main" ∧ (t = .named (.custom "Point") ∨
      t = .fixedArray (.pointer (.named (.custom "Point"))) 3 ∨ t = .tuple [.named .felt, .named (.custom "Point")]) := by
  simp only [plane, List.mem_cons, Prod.mk.injEq, List.not_mem_nil, or_false] at h1
  rcases h1 with ⟨rfl, rfl⟩ | ⟨rfl, rfl⟩
  · simp only [List.mem_singleton] at h2
    subst h2
    simp only [written, List.map_cons, List.map_nil, List.mem_cons, List.not_mem_nil, or_false, or_self] at h3
    exact .inl h3
  · simp only [List.mem_cons, List.not_mem_nil, or_false] at h2
    rcases h2 with rfl | rfl
    · simp [written] at h3
    · simp only [written, List.map_cons, List.map_nil, List.mem_cons, List.not_mem_nil, or_false] at h3
      rcases h3 with rfl | rfl | rfl <;> simp

theorem plane_use {body : List Stmt} {k k' : Key} (h : declOf (plane body) k = some (.use k')) : k' = ("lib", "Point") := by
  simp only [declOf, Option.bind_eq_some_iff] at h
  obtain ⟨is, h1, h2⟩ := h
  have h3 := lookup_mem h1
  have h4 := List.mem_reverse.1 (lookup_mem h2)
  simp only [plane, List.mem_cons, Prod.mk.injEq, List.not_mem_nil, or_false] at h3
  rcases h3 with ⟨-, rfl⟩ | ⟨-, rfl⟩
  · simp [decls] at h4
  · rcases List.mem_cons.1 (h4 : _ ∈ [("Point", Decl.use ("lib", "Point")), _]) with h | h
    · have h5 := congrArg Prod.snd h
      simp only [Decl.use.injEq] at h5
      exact h5.trans rfl
    · simp [decls] at h

/-- The hypotheses of `C104_proper_partial` are met by the example. -/
example (body : List Stmt) {t : TypeExpr} {u : MirType} (ht : Signature (plane body) "main" t)
    (hu : typeOfExpr (plane body) "main" t = .ok u) : Proper u := by
  refine C104_proper_partial rfl (fun k k' h => ?_) (fun m t x d ht hx hs => ?_) (fun m is i t h1 h2 h3 hn => ?_) ht hu
  · rw [plane_use h]
    exact ⟨_, rfl⟩
  · obtain ⟨is, h1, i, h2, -, h3⟩ := ht
    have hm : m = "main" ∧ x = "Point" := by
      rcases plane_written h1 h2 h3 with rfl | ⟨rfl, rfl | rfl | rfl⟩
      · cases hx
      · cases hx; exact ⟨rfl, rfl⟩
      · cases hx with | array _ hx => cases hx with | pointer hx => cases hx; exact ⟨rfl, rfl⟩
      · cases hx with
        | tuple ht hx =>
          simp only [List.mem_cons, List.not_mem_nil, or_false] at ht
          rcases ht with rfl | rfl <;> cases hx
          exact ⟨rfl, rfl⟩
    obtain ⟨rfl, rfl⟩ := hm
    have hd : declOf (plane body) ("main", "Point") = some (.use ("lib", "Point")) := rfl
    have hl : declOf (plane body) ("lib", "Point") = some (.struct [("x", .named .felt), ("y", .named .felt)]) := rfl
    cases hs with
    | here h hne =>
      rw [hd] at h
      exact absurd (Option.some.inj h).symm (hne _)
    | use h hs =>
      rw [hd] at h
      cases h
      cases hs with
      | here h _ =>
        rw [hl] at h
        exact ⟨_, (Option.some.inj h).symm⟩
      | use h _ =>
        rw [hl] at h
        cases h
  · exfalso
    rcases plane_written h1 h2 h3 with rfl | ⟨rfl, rfl | rfl | rfl⟩
    · cases hn
    · cases hn
    · cases hn with
      | here h => simp [isArrayExpr] at h
      | array h => cases h with | pointer h => cases h
    · cases hn with
      | tuple ht h =>
        simp only [List.mem_cons, List.not_mem_nil, or_false] at ht
        rcases ht with rfl | rfl <;> cases h

/-! ## Disagreements -/

/-- **C104, violated.** The name of a function is accepted as a type: `fn g() -> felt { … }  fn f(x: g) -> felt { … }`. The parameter has
the error type, to which values of every type can be passed. -/
theorem C104_violated_function (b b' : List Stmt) :
    let P : Project := [("main", [.function ⟨"g", [], .named .felt, b⟩, .function ⟨"f", [("x", .named (.custom "g"))], .named .felt, b'⟩])]
    reports P = [] ∧ Signature P "main" (.named (.custom "g")) ∧ typeOfExpr P "main" (.named (.custom "g")) = .ok .Error :=
  ⟨rfl, ⟨_, List.mem_singleton.2 rfl, _, List.mem_cons_of_mem _ (List.mem_singleton.2 rfl), by simp, by simp [written]⟩, rfl⟩

/-- **C104, violated.** The annotation of a constant is not checked: `const C: Missing = …;`. -/
theorem C104_violated_const (e : Expr) :
    let P : Project := [("main", [.const ⟨"C", some (.named (.custom "Missing")), e⟩])]
    reports P = [] ∧ WrittenIn P "main" (.named (.custom "Missing")) ∧ declOf P ("main", "Missing") = none ∧
      typeOfExpr P "main" (.named (.custom "Missing")) = .ok .Error :=
  ⟨rfl, ⟨_, List.mem_singleton.2 rfl, _, List.mem_singleton.2 rfl, by simp [written]⟩, rfl, rfl⟩

/-- **C104, violated.** Arrays of arrays are not reported in structs nor behind pointers:
`struct Matrix { rows: [[felt; 2]; 2] }  fn f(m: [[felt; 2]; 2]*) -> felt { … }`. -/
theorem C104_violated_nested (b : List Stmt) :
    let a : TypeExpr := .fixedArray (.fixedArray (.named .felt) 2) 2
    let P : Project := [("main", [.struct "Matrix" [("rows", a)], .function ⟨"f", [("m", .pointer a)], .named .felt, b⟩])]
    reports P = [] ∧ Signature P "main" (.pointer a) ∧ typeOfExpr P "main" (.pointer a) = .ok (.Pointer .Error) ∧
      typeOfExpr P "main" (.named (.custom "Matrix")) = .ok (.Struct "Matrix".toList [("rows".toList, .Error)]) :=
  ⟨rfl, ⟨_, List.mem_singleton.2 rfl, _, List.mem_cons_of_mem _ (List.mem_singleton.2 rfl), by simp, by simp [written]⟩, rfl, rfl⟩

end TypeChecks
end CairoM
