import Verif.Imports
import Mathlib.Logic.Relation

/-!
# Specification: imports and cycles

Written without reference to the search.
-/

namespace CairoM
namespace Imports

variable {α : Type} [DecidableEq α]

/-- Module `a` imports module `b`. -/
def Imported (g : Graph α) (a b : α) : Prop := ∃ bs, g.lookup a = some bs ∧ b ∈ bs

/-- A list of modules, each importing the next, that ends where it starts. -/
def IsCycle (g : Graph α) (c : List α) : Prop := 2 ≤ c.length ∧ c.IsChain (Imported g) ∧ c.head? = c.getLast?

/-- No module imports itself, directly or through others. -/
def Acyclic (g : Graph α) : Prop := ∀ a, ¬ Relation.TransGen (Imported g) a a

/-- Every module comes after the modules it imports. -/
def DependenciesFirst (g : Graph α) (order : List α) : Prop :=
  ∀ before a after, order = before ++ a :: after → ∀ b, Imported g a b → b ∈ before

end Imports
end CairoM
