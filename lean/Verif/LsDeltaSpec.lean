import Verif.LsDelta

/-!
# Specification: current diagnostics
-/

namespace CairoM
namespace LsDelta

variable {C N D : Type*}

/-- The diagnostics of the current texts of a project. -/
def current (db : Db C N D) (c : C) : List D := (db.modules c).flatMap Prod.snd

/-- Every answer of a history consists of the current diagnostics, in some order. -/
def Current [DecidableEq N] (start : C → List (N × List D)) (history : List (Event C N D)) : Prop :=
  ∀ a ∈ answers (World.start start) history, a.2.2.Perm (current a.1 a.2.1)

/-- The names of the modules of a project are distinct (they are the keys of a map). -/
def Distinct (c : C) (modules : C → List (N × List D)) : Prop := ((modules c).map Prod.fst).Nodup

/-- A history of edits and requests for one project, in which the project loses no module. -/
def OneProject (c : C) : (C → List (N × List D)) → List (Event C N D) → Prop
  | _, [] => True
  | m, .edit m' :: es => Distinct c m' ∧ (∀ n ∈ (m c).map Prod.fst, n ∈ (m' c).map Prod.fst) ∧ OneProject c m' es
  | m, .request c' :: es => c' = c ∧ OneProject c m es
  | _, _ :: _ => False

/-- The database is not exchanged. -/
def NoSwap (history : List (Event C N D)) : Prop := ∀ m, Event.swap m ∉ history

end LsDelta
end CairoM
