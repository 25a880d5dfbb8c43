import Verif.TypeChecks
import Verif.TypeNamesSpec

/-!
# Specification: type expressions that make sense
-/

namespace CairoM
namespace TypeChecks

open Mir Syntax TypeNames

/-- All type expressions in the declaration of an item. -/
def written : Item → List TypeExpr
  | .function f => f.returnType :: f.params.map Prod.snd
  | .struct _ fs => fs.map Prod.snd
  | .const c => c.ty.toList
  | .use _ _ => []

/-- `t` is written in module `m`. -/
def WrittenIn (P : Project) (m : String) (t : TypeExpr) : Prop := ∃ is, (m, is) ∈ P ∧ ∃ i ∈ is, t ∈ written i

/-- `t` is written in a signature or a struct of module `m`. -/
def Signature (P : Project) (m : String) (t : TypeExpr) : Prop := ∃ is, (m, is) ∈ P ∧ ∃ i ∈ is, (∀ c, i ≠ .const c) ∧ t ∈ written i

/-- A type with no error in it. -/
inductive Proper : MirType → Prop
  | felt : Proper .Felt
  | bool : Proper .Bool
  | u32 : Proper .U32
  | pointer {t} : Proper t → Proper (.Pointer t)
  | tuple {ts} : (∀ t ∈ ts, Proper t) → Proper (.Tuple ts)
  | array {t n} : Proper t → Proper (.FixedArray t n)
  | struct {x fs} : (∀ f ∈ fs, Proper f.2) → Proper (.Struct x fs)

/-- What a name stands for, through any number of imports. -/
inductive StandsFor (P : Project) : Key → Decl → Prop
  | here {k d} : declOf P k = some d → (∀ k', d ≠ .use k') → StandsFor P k d
  | use {k k' d} : declOf P k = some (.use k') → StandsFor P k' d → StandsFor P k d

/-- Somewhere in the type expression is an array of arrays. -/
inductive Nested : TypeExpr → Prop
  | here {t n} : isArrayExpr t = true → Nested (.fixedArray t n)
  | pointer {t} : Nested t → Nested (.pointer t)
  | tuple {ts t} : t ∈ ts → Nested t → Nested (.tuple ts)
  | array {t n} : Nested t → Nested (.fixedArray t n)

/-- An array of arrays that is the type expression itself or an element of a tuple in it. -/
inductive Shown : TypeExpr → Prop
  | here {t n} : isArrayExpr t = true → Shown (.fixedArray t n)
  | tuple {ts t} : t ∈ ts → Shown t → Shown (.tuple ts)

/-- The name `x` occurs in the type expression. -/
inductive Occurs (x : String) : TypeExpr → Prop
  | named : Occurs x (.named (.custom x))
  | pointer {t} : Occurs x t → Occurs x (.pointer t)
  | tuple {ts t} : t ∈ ts → Occurs x t → Occurs x (.tuple ts)
  | array {t n} : Occurs x t → Occurs x (.fixedArray t n)

end TypeChecks
end CairoM
