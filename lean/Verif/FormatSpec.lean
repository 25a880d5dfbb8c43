import Verif.SyntaxSpec

/-!
# Programs that the formatter keeps

The formatter changes programs with certain constructs (`C75_violated_*`). This is the condition that they do not
occur. Nothing here refers to the formatter.
-/

namespace CairoM.Syntax

mutual
/-- There is no tuple type with one component. -/
def TypeExpr.plain : TypeExpr → Bool
  | .named _ => true
  | .pointer t => t.plain
  | .tuple ts => ts.length ≠ 1 && typesPlain ts
  | .fixedArray t _ => t.plain
def typesPlain : List TypeExpr → Bool
  | [] => true
  | t :: ts => t.plain && typesPlain ts
end

mutual
/-- There is no tuple (and no tuple type) with one component. -/
def Expr.plain : Expr → Bool
  | .literal _ _ | .boolean _ | .ident _ => true
  | .unary _ e => e.plain
  | .binary _ l r => l.plain && r.plain
  | .call f es => f.plain && exprsPlain es
  | .member e _ => e.plain
  | .index e i => e.plain && i.plain
  | .structLit _ fs => fieldsPlain fs
  | .tuple es => es.length ≠ 1 && exprsPlain es
  | .tupleIndex e _ => e.plain
  | .array es => exprsPlain es
  | .arrayRepeat e _ => e.plain
  | .cast e t => e.plain && t.plain
  | .new t n => t.plain && n.plain
  | .paren e => e.plain
def exprsPlain : List Expr → Bool
  | [] => true
  | e :: es => e.plain && exprsPlain es
def fieldsPlain : List (String × Expr) → Bool
  | [] => true
  | (_, e) :: fs => e.plain && fieldsPlain fs
end

/-- Constants have no type annotation. -/
def ConstDef.plain (c : ConstDef) : Bool := c.ty.isNone && c.value.plain

mutual
/-- Conditions of `if` and `while` can be written without parentheses. -/
def Stmt.plain : Stmt → Bool
  | .let_ _ t e => t.all TypeExpr.plain && e.plain
  | .const c => c.plain
  | .assign l r => l.plain && r.plain
  | .return_ e => e.all Expr.plain
  | .if_ c t none => !needsParens c t.toks && c.plain && t.plain
  | .if_ c t (some e) => !needsParens c (t.toks ++ .else_ :: e.toks) && c.plain && t.plain && e.plain
  | .expr e => e.plain
  | .block ss => stmtsPlain ss
  | .loop_ b => b.plain
  | .while_ c b => !needsParens c b.toks && c.plain && b.plain
  | .for_ i c s b => i.plain && c.plain && s.plain && b.plain
  | .break_ | .continue_ => true
def stmtsPlain : List Stmt → Bool
  | [] => true
  | s :: ss => s.plain && stmtsPlain ss
end

/-- Imports name a module. -/
def Item.plain : Item → Bool
  | .function f => f.params.all (fun p => p.2.plain) && f.returnType.plain && stmtsPlain f.body
  | .struct _ fs => fs.all (fun p => p.2.plain)
  | .const c => c.plain
  | .use p _ => p ≠ []

def programPlain (is : List Item) : Bool := is.all Item.plain

end CairoM.Syntax
