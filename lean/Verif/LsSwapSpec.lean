import Verif.LsSwap

/-!
# Specification: the texts of the editor
-/

namespace CairoM
namespace LsSwap

variable {U T : Type*}

/-- The text that the editor last sent for each file; `none` for files that it has not opened. -/
def editor [DecidableEq U] (history : List (Event U T)) : U → Option T :=
  history.foldl (fun text e => match e with
    | .opened u t => fun v => if v = u then some t else text v
    | .change u t => fun v => if v = u ∧ (text u).isSome then some t else text v
    | _ => text) fun _ => none

/-- A step of a database swap. -/
def Event.isSwap : Event U T → Bool
  | .snapshot | .tables _ | .exchange => true
  | _ => false

/-- The text analysed for every opened file of the projects is the editor's. -/
def UpToDate [DecidableEq U] (s : State U T) (text : U → Option T) : Prop :=
  ∀ u ∈ s.project.map Prod.fst, ∀ t, text u = some t → s.analysed u = some t

end LsSwap
end CairoM
