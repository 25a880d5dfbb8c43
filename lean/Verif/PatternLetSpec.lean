import Verif.PatternLet
import Verif.ComponentAssignSpec

/-!
# Specification: what a `let` with a pattern binds
-/

namespace CairoM
namespace PatternLet

open Mir Syntax Agg

mutual
/-- The pattern has the shape of the type: where it is a tuple, the type is a tuple of as many elements, at every depth. -/
def Matches : Pattern → MirType → Prop
  | .ident _, _ => True
  | .tuple ps, .Tuple ts => MatchesAll ps ts
  | .tuple _, _ => False
/-- Element by element. -/
def MatchesAll : List Pattern → List MirType → Prop
  | [], [] => True
  | p :: ps, t :: ts => Matches p t ∧ MatchesAll ps ts
  | _, _ => False
end

mutual
/-- The names of a pattern, each with the path of its component. -/
def bindings : Pattern → List (String × List ℕ)
  | .ident x => [(x, [])]
  | .tuple ps => elementBindings ps 0
/-- The names of the elements from number `i`. -/
def elementBindings : List Pattern → ℕ → List (String × List ℕ)
  | [], _ => []
  | p :: ps, i => (bindings p).map (fun b => (b.1, i :: b.2)) ++ elementBindings ps (i + 1)
end

mutual
/-- A value of a tuple type has a component for each element of the type. -/
def Fits : MirType → AVal → Prop
  | .Tuple ts, .agg xs => FitsAll ts xs
  | .Tuple _, .scalar _ => False
  | _, _ => True
/-- Element by element. -/
def FitsAll : List MirType → List AVal → Prop
  | [], [] => True
  | t :: ts, x :: xs => Fits t x ∧ FitsAll ts xs
  | _, _ => False
end

/-- Which names the variables stand for after the bindings; the last binding of a name counts. -/
def after (vars : String → Option ValueId) (bound : List (String × ValueId)) (y : String) : Option ValueId :=
  bound.foldl (fun acc b => if y = b.1 then some b.2 else acc) (vars y)

mutual
/-- How deeply tuple patterns are nested. -/
def depth : Pattern → ℕ
  | .ident _ => 0
  | .tuple ps => 1 + depths ps
def depths : List Pattern → ℕ
  | [] => 0
  | p :: ps => max (depth p) (depths ps)
end

end PatternLet
end CairoM
