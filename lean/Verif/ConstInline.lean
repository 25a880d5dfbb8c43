import Verif.Lowering

/-!
# Constants in the lowering (C95)

`const` items and statements. A constant is a definition with a value expression. The lowering emits nothing for the
definition and lowers the value expression again wherever the constant is used. The lowering of a function with
constants is therefore that of the function in which they are replaced by their expressions.
-/

namespace CairoM
namespace Source

open Lang

/-- The definitions that are constants, with their value expressions (`DefinitionKind::Const`,
`semantic/src/definition.rs`). -/
abbrev Consts := Var → Option Expr

mutual
/-- An expression with its identifiers replaced. -/
def Expr.subst (σ : Var → Option Expr) : Expr → Option Expr
  | .int n t => some (.int n t)
  | .bool b => some (.bool b)
  | .var x => σ x
  | .un op e => do some (.un op (← Expr.subst σ e))
  | .bin op l r => do some (.bin op (← Expr.subst σ l) (← Expr.subst σ r))
  | .call f args => do some (.call f (← Expr.substs σ args))
  | .cast e t => do some (.cast (← Expr.subst σ e) t)
/-- The arguments of a call. -/
def Expr.substs (σ : Var → Option Expr) : List Expr → Option (List Expr)
  | [] => some []
  | e :: es => do some ((← Expr.subst σ e) :: (← Expr.substs σ es))
end

/-- `lower_identifier` (`mir/src/lowering/expr.rs:168-216`): an identifier that refers to a constant is lowered by
lowering the value expression of the constant (`189-205`), recursively. `none` when the recursion is deeper than the
fuel (the code would overflow the stack on a constant that refers to itself). -/
def Consts.use (K : Consts) : ℕ → Var → Option Expr
  | 0, x =>
    match K x with
    | none => some (.var x)
    | some _ => none
  | n + 1, x =>
    match K x with
    | none => some (.var x)
    | some c => c.subst (Consts.use K n)

/-- `lower_expression` (`mir/src/lowering/expr.rs:65-166`) reaches every identifier of an expression. -/
def Expr.expand (K : Consts) (n : ℕ) (e : Expr) : Option Expr := e.subst (K.use n)

mutual
/-- The statements: the definition of a constant is lowered to nothing (`lower_const_statement`,
`mir/src/lowering/stmt.rs:753-756`), written here as an expression statement that emits nothing. A constant
definition is a `let` of a variable that is a constant. -/
def Stmt.expand (K : Consts) (n : ℕ) : Stmt → Option Stmt
  | .letS x e => if (K x).isSome then some (.expr (.bool true)) else do some (.letS x (← e.expand K n))
  | .assign x e => do some (.assign x (← e.expand K n))
  | .ret => some .ret
  | .retE e => do some (.retE (← e.expand K n))
  | .expr e => do some (.expr (← e.expand K n))
  | .call f args => do some (.call f (← Expr.substs (K.use n) args))
  | .assert e => do some (.assert (← e.expand K n))
  | .ifThen c t => do some (.ifThen (← c.expand K n) (← Stmt.expand K n t))
  | .ifElse c t e => do some (.ifElse (← c.expand K n) (← Stmt.expand K n t) (← Stmt.expand K n e))
  | .block ss => do some (.block (← Stmt.expands K n ss))
  | .while c b => do some (.while (← c.expand K n) (← Stmt.expand K n b))
  | .loop b => do some (.loop (← Stmt.expand K n b))
  | .for i c s b => do
    some (.for (← Stmt.expand K n i) (← c.expand K n) (← Stmt.expand K n s) (← Stmt.expand K n b))
  | .break => some .break
  | .continue => some .continue
/-- Every statement of a list. -/
def Stmt.expands (K : Consts) (n : ℕ) : List Stmt → Option (List Stmt)
  | [] => some []
  | s :: ss => do some ((← Stmt.expand K n s) :: (← Stmt.expands K n ss))
end

/-- A function with its constants replaced. -/
def Fn.expand (K : Consts) (n : ℕ) (f : Fn) : Option Fn := do
  some { f with body := ← Stmt.expands K n f.body }

end Source
end CairoM
