import Verif.ConstInline

/-!
# What constants mean (C95)

A constant is a name for the value its expression has where it is defined: in the meaning of a function
(`Source.run`), a constant definition is a `let` of a variable that is never assigned again.
-/

namespace CairoM
namespace Source

open Lang

mutual
/-- All variables of an expression satisfy `p`. -/
def Expr.all (p : Var → Bool) : Expr → Bool
  | .int _ _ | .bool _ => true
  | .var x => p x
  | .un _ e | .cast e _ => Expr.all p e
  | .bin _ l r => Expr.all p l && Expr.all p r
  | .call _ args => Expr.alls p args
/-- All variables of the arguments satisfy `p`. -/
def Expr.alls (p : Var → Bool) : List Expr → Bool
  | [] => true
  | e :: es => Expr.all p e && Expr.alls p es
end

/-- The expressions of the constants mention constants only, and have the types of the constants. -/
def Consts.Closed (S : Sem) (K : Consts) : Prop :=
  ∀ x c, K x = some c → c.all (fun y => (K y).isSome) = true ∧ c.ok S (S.varTy x) = true

mutual
/-- The definitions of constants give them the recorded expressions, and no constant is assigned (the type validator
reports such assignments). -/
def Stmt.Defines (K : Consts) : Stmt → Prop
  | .letS x e => ∀ c, K x = some c → e = c
  | .assign x _ => K x = none
  | .ret | .retE _ | .expr _ | .call _ _ | .assert _ | .break | .continue => True
  | .ifThen _ t => Stmt.Defines K t
  | .ifElse _ t e => Stmt.Defines K t ∧ Stmt.Defines K e
  | .block ss => Stmt.DefinesAll K ss
  | .while _ b | .loop b => Stmt.Defines K b
  | .for i _ s b => Stmt.Defines K i ∧ Stmt.Defines K s ∧ Stmt.Defines K b
/-- Every statement of a list. -/
def Stmt.DefinesAll (K : Consts) : List Stmt → Prop
  | [] => True
  | s :: ss => Stmt.Defines K s ∧ Stmt.DefinesAll K ss
end

/-- A function whose parameters are not constants and whose body defines the constants as recorded. -/
def Fn.Defines (K : Consts) (f : Fn) : Prop := (∀ x ∈ f.params, K x = none) ∧ Stmt.DefinesAll K f.body

end Source
end CairoM
