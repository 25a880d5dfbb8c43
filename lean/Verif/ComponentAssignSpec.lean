import Verif.ComponentAssign

/-!
# Specification: what an assignment to a component does

Values are trees (`Agg.AVal`). A target names a variable and a path into its value. The assignment puts the new value there and
leaves everything else as it was.
-/

namespace CairoM
namespace ComponentAssign

open Mir Syntax Agg

/-- The component of a value at a path. -/
def get : List ℕ → AVal → Option AVal
  | [], v => some v
  | i :: p, .agg xs => (xs[i]?).bind (get p)
  | _ :: _, .scalar _ => none

/-- `new` is `old` with `r` at the path: `r` is found there, and at every path that neither leads to it nor starts with it the two
values are the same. -/
structure Updated (old : AVal) (path : List ℕ) (r new : AVal) : Prop where
  there : get path new = some r
  elsewhere : ∀ q, ¬ q <+: path → ¬ path <+: q → get q new = get q old

/-- The variable that a target is a component of. -/
def root : Expr → Option String
  | .ident x => some x
  | .member o _ | .tupleIndex o _ | .paren o => root o
  | _ => none

/-- The path of a target into the value of its variable. -/
def pathOf (ty : Expr → Option MirType) : Expr → Option (List ℕ)
  | .ident _ => some []
  | .member o f => (pathOf ty o).bind fun p => (exprTy ty o).bind fun t => (component t (.field f.toList)).map fun c => p ++ [c.1]
  | .tupleIndex o i => (pathOf ty o).bind fun p => (exprTy ty o).bind fun t => (component t (.tuple i)).map fun c => p ++ [c.1]
  | .paren e => pathOf ty e
  | _ => none

/-- The types of the names after new ones have been added. -/
def addTypes (types : ValueId → Option MirType) (next : ValueId) (tys : List MirType) (v : ValueId) : Option MirType :=
  if v < next then types v else tys[v - next]?

/-- Which name a variable stands for after the binding. -/
def rebind (vars : String → Option ValueId) : Option (String × ValueId) → String → Option ValueId
  | some (x, v), y => if y = x then some v else vars y
  | none, y => vars y

end ComponentAssign
end CairoM
