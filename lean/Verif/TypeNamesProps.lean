import Verif.TypeNamesLemmas

/-!
# C103: types of declarations
-/

namespace CairoM
namespace TypeNames

open Mir Syntax Relation

/-- **C103, when the compiler panics.** The type of a type expression is computed, or the compiler panics with a cycle; it panics
exactly if a name in the expression is that of a declaration that depends on a circular one. -/
theorem C103_exact (P : Project) (m : String) (t : TypeExpr) :
    typeOfExpr P m t = .error .cycle ↔ ∃ x, Names x t ∧ Circular P (m, x) := by
  constructor
  · intro h
    obtain ⟨x, h1, h2⟩ := resolve_error t h
    exact ⟨x, h1, typeOf_cycle (by simp) h2⟩
  · rintro ⟨x, h1, h2⟩
    cases hr : typeOfExpr P m t with
    | ok u =>
      obtain ⟨v, hv⟩ := resolve_ok h1 hr
      exact absurd h2 (not_circular (typeOf_acc hv))
    | error e =>
      cases e with
      | cycle => rfl
      | bound =>
        obtain ⟨y, -, h4⟩ := resolve_error t hr
        exact absurd h4 (typeOf_bound List.nodup_nil (by simp) (by simp))

/-- **C103, in part.** A type expression that depends on no circular declaration has a type, the one it denotes. Missing: structs that
refer to themselves, even behind a pointer (`C103_violated_pointer`). -/
theorem C103_resolves_partial (P : Project) (m : String) (t : TypeExpr) (h : ∀ x, Names x t → ¬ Circular P (m, x)) :
    ∃ u, typeOfExpr P m t = .ok u ∧ Denotes P m t u := by
  cases hr : typeOfExpr P m t with
  | ok u => exact ⟨u, rfl, resolve_denotes (fun _ _ h => typeOf_declares h) t hr⟩
  | error e =>
    cases e with
    | cycle =>
      obtain ⟨x, h1, h2⟩ := (C103_exact P m t).1 hr
      exact absurd h2 (h x h1)
    | bound =>
      obtain ⟨y, -, h4⟩ := resolve_error t hr
      exact absurd h4 (typeOf_bound List.nodup_nil (by simp) (by simp))

/-- **C103, in part: layered declarations.** If the declarations of a crate can be numbered so that each depends only on ones with a
smaller number, every type expression has a type, the one it denotes. -/
theorem C103_layered_partial (P : Project) (number : Key → ℕ) (h : ∀ k k', Uses P k k' → number k' < number k) (m : String) (t : TypeExpr) :
    ∃ u, typeOfExpr P m t = .ok u ∧ Denotes P m t u := by
  refine C103_resolves_partial P m t fun x _ => not_circular ?_
  exact Subrelation.accessible (fun {a b} hu => h b a hu) ((measure number).wf.apply (m, x))

/-- **C103, the type is determined.** A type expression denotes at most one type; the one computed is the one denoted. -/
theorem C103_determined {P : Project} {m : String} {t : TypeExpr} {u u' : MirType} (h : typeOfExpr P m t = .ok u) (hd : Denotes P m t u') :
    u = u' :=
  (resolve_denotes (fun _ _ h => typeOf_declares h) t h).unique hd

/-! ## Examples -/

/-- Two modules: `struct Point { x: felt, y: felt }` in `lib`, and `use lib::Point; struct Line { from: Point, to: Point* }` in `main`. -/
def lines : Project :=
  [("lib", [.struct "Point" [("x", .named .felt), ("y", .named .felt)]]),
   ("main", [.use ["lib"] (.single "Point"),
     .struct "Line" [("from", .named (.custom "Point")), ("to", .pointer (.named (.custom "Point")))]])]

/-- `struct Node { value: felt, next: Node* }`. -/
def node : Project := [("main", [.struct "Node" [("value", .named .felt), ("next", .pointer (.named (.custom "Node")))]])]

/-- `struct Box { inner: Box }`. -/
def box : Project := [("main", [.struct "Box" [("inner", .named (.custom "Box"))]])]

/-- `struct Even { odd: Odd* }` and `struct Odd { even: Even* }`. -/
def parity : Project := [("main", [.struct "Even" [("odd", .pointer (.named (.custom "Odd")))],
  .struct "Odd" [("even", .pointer (.named (.custom "Even")))]])]

example : typeOfExpr lines "main" (.tuple [.named (.custom "Line"), .named .felt]) = .ok (.Tuple [
    .Struct "Line".toList [("from".toList, .Struct "Point".toList [("x".toList, .Felt), ("y".toList, .Felt)]),
      ("to".toList, .Pointer (.Struct "Point".toList [("x".toList, .Felt), ("y".toList, .Felt)]))], .Felt]) := rfl

/-- The hypothesis of `C103_resolves_partial` is met by the example. -/
example : ∀ x, Names x (.named (.custom "Line")) → ¬ Circular lines ("main", x) := by
  intro x hx hc
  have h := (C103_exact lines "main" (.named (.custom "Line"))).2 ⟨x, hx, hc⟩
  have h' : typeOfExpr lines "main" (.named (.custom "Line")) = .ok (.Struct "Line".toList
    [("from".toList, .Struct "Point".toList [("x".toList, .Felt), ("y".toList, .Felt)]),
      ("to".toList, .Pointer (.Struct "Point".toList [("x".toList, .Felt), ("y".toList, .Felt)]))]) := rfl
  rw [h'] at h
  cases h

example : typeOfExpr parity "main" (.tuple [.named .felt, .named (.custom "Odd")]) = .error .cycle := rfl

theorem node_contains {k k' : Key} : ¬ Contains node k k' := by
  intro h
  cases h with
  | @field m x fs f t y hd hf hn =>
    simp only [node, declOf, Option.bind_eq_some_iff] at hd
    obtain ⟨is, h1, h2⟩ := hd
    have h3 := lookup_mem h1
    simp only [List.mem_singleton, Prod.mk.injEq] at h3
    obtain ⟨-, rfl⟩ := h3
    have h4 := lookup_mem h2
    simp only [List.flatMap_cons, List.flatMap_nil, decls, List.append_nil, List.reverse_singleton, List.mem_singleton, Prod.mk.injEq,
      Decl.struct.injEq] at h4
    obtain ⟨-, rfl⟩ := h4
    simp only [List.mem_cons, Prod.mk.injEq, List.not_mem_nil, or_false] at hf
    rcases hf with ⟨-, rfl⟩ | ⟨-, rfl⟩ <;> cases hn
  | use hd =>
    simp only [node, declOf, Option.bind_eq_some_iff] at hd
    obtain ⟨is, h1, h2⟩ := hd
    have h3 := lookup_mem h1
    simp only [List.mem_singleton, Prod.mk.injEq] at h3
    obtain ⟨-, rfl⟩ := h3
    have h4 := lookup_mem h2
    simp [decls] at h4

/-- **C103, violated.** A struct that refers to itself through a pointer holds no value of its own type, yet the compiler panics when it
is used: `struct Node { value: felt, next: Node* }`. -/
theorem C103_violated_pointer : (∀ k, ¬ TransGen (Contains node) k k) ∧ typeOfExpr node "main" (.named (.custom "Node")) = .error .cycle := by
  refine ⟨fun k h => ?_, rfl⟩
  obtain ⟨_, h1, -⟩ := TransGen.head'_iff.1 h
  exact node_contains h1

/-- **C103, violated.** A struct that holds itself is not reported: the compiler panics. -/
theorem C103_violated_direct : TransGen (Contains box) ("main", "Box") ("main", "Box") ∧
    typeOfExpr box "main" (.named (.custom "Box")) = .error .cycle :=
  ⟨.single (.field (fs := [("inner", .named (.custom "Box"))]) (f := "inner") rfl (by simp) .named), rfl⟩

/-- **C103, violated.** The name of a constant is accepted as a type, if the constant is a struct: with `const ORIGIN: Point = …;`,
`ORIGIN*` is the type `Point*`. -/
theorem C103_violated_const (c : ConstDef) (hn : c.name = "ORIGIN") (ht : c.ty = some (.named (.custom "Point"))) :
    typeOfExpr [("main", [.struct "Point" [("x", .named .felt)], .const c])] "main" (.pointer (.named (.custom "ORIGIN"))) =
      .ok (.Pointer (.Struct "Point".toList [("x".toList, .Felt)])) := by
  obtain ⟨x, t, v⟩ := c
  simp only at hn ht
  subst hn ht
  rfl

end TypeNames
end CairoM
