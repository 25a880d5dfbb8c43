import Verif.Syntax

/-!
# Specification: names are defined once

What it means that a file defines no name twice where that is not allowed: at the top level, among the parameters of a
function, among the fields of a struct and inside one pattern. Statements are reached through a relation, not through a
walk.
-/

namespace CairoM.Syntax

/-- A name is bound at some place of a pattern. Two different places may bind the same name. -/
inductive Binds : Pattern → List Nat → String → Prop
  | ident (x : String) : Binds (.ident x) [] x
  | tuple {ps : List Pattern} {i : Nat} {p : Pattern} {path : List Nat} {x : String} (h : ps[i]? = some p)
      (hp : Binds p path x) : Binds (.tuple ps) (i :: path) x

/-- A statement is part of another one, or that statement itself. -/
inductive Inside : Stmt → Stmt → Prop
  | self (s : Stmt) : Inside s s
  | block {s t : Stmt} {ss : List Stmt} (h : t ∈ ss) (hs : Inside s t) : Inside s (.block ss)
  | then_ {s t : Stmt} {c : Expr} {e : Option Stmt} (hs : Inside s t) : Inside s (.if_ c t e)
  | else_ {s t : Stmt} {c : Expr} {e : Stmt} (hs : Inside s e) : Inside s (.if_ c t (some e))
  | loop_ {s t : Stmt} (hs : Inside s t) : Inside s (.loop_ t)
  | while_ {s t : Stmt} {c : Expr} (hs : Inside s t) : Inside s (.while_ c t)
  | forInit {s i st b : Stmt} {c : Expr} (hs : Inside s i) : Inside s (.for_ i c st b)
  | forStep {s i st b : Stmt} {c : Expr} (hs : Inside s st) : Inside s (.for_ i c st b)
  | forBody {s i st b : Stmt} {c : Expr} (hs : Inside s b) : Inside s (.for_ i c st b)

/-- A pattern binds every name at one place. -/
def Pattern.Once (p : Pattern) : Prop :=
  ∀ (path path' : List Nat) (x : String), Binds p path x → Binds p path' x → path = path'

/-- The top-level names of an item. -/
def Item.defines : Item → List String
  | .function f => [f.name]
  | .struct x _ => [x]
  | .const c => [c.name]
  | .use _ (.single x) => [x]
  | .use _ (.list xs) => xs

/-- Two equal names are at the same place. -/
def Distinct (xs : List String) : Prop :=
  ∀ (i j : Nat) (x : String), xs[i]? = some x → xs[j]? = some x → i = j

/-- No name is defined twice where that is not allowed. -/
structure DefinedOnce (is : List Item) : Prop where
  top : Distinct (is.map Item.defines).flatten
  params : ∀ f, Item.function f ∈ is → Distinct (f.params.map (·.1))
  fields : ∀ x fs, Item.struct x fs ∈ is → Distinct (fs.map (·.1))
  patterns : ∀ f, Item.function f ∈ is → ∀ s ∈ f.body, ∀ p ty e, Inside (.let_ p ty e) s → p.Once

/-- The file has no `for` loop. -/
def NoFor (is : List Item) : Prop :=
  ∀ f, Item.function f ∈ is → ∀ s ∈ f.body, ∀ i c st b, ¬ Inside (.for_ i c st b) s

end CairoM.Syntax
