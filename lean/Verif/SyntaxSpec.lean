import Verif.Syntax

/-!
# Specification of the concrete syntax

How a syntax tree is written as a sequence of tokens, and which trees can be written without additional
parentheses. Nothing here refers to the parser.
-/

namespace CairoM.Syntax

/-- The token of a binary operator. -/
def BinaryOp.tok : BinaryOp → Token
  | .add => .plus | .sub => .minus | .mul => .mul | .div => .div | .mod => .mod_
  | .eq => .eqEq | .neq => .neq | .less => .less | .greater => .greater
  | .lessEqual => .lessEqual | .greaterEqual => .greaterEqual
  | .and => .andAnd | .or => .orOr | .bitAnd => .bitAnd | .bitOr => .bitOr | .bitXor => .bitXor

def UnaryOp.tok : UnaryOp → Token
  | .not => .not_ | .neg => .minus

def NamedType.name : NamedType → String
  | .felt => "felt" | .bool => "bool" | .u32 => "u32" | .custom s => s

/-! ## Precedence -/

/-- Precedence of the binary operators, higher binds tighter. -/
def BinaryOp.prec : BinaryOp → Nat
  | .and | .or => 0
  | .bitAnd | .bitOr | .bitXor => 1
  | .eq | .neq | .less | .greater | .lessEqual | .greaterEqual => 2
  | .add | .sub => 3
  | .mul | .div | .mod => 4

/-- The documented precedence (`parser.rs:57-65`): `||` binds weaker than `&&`. Bitwise operators and `%` are
placed as in the documented grammar (`parser.rs:32-40`). -/
def BinaryOp.documentedPrec : BinaryOp → Nat
  | .or => 0
  | .and => 1
  | .bitAnd | .bitOr | .bitXor => 2
  | .eq | .neq | .less | .greater | .lessEqual | .greaterEqual => 3
  | .add | .sub => 4
  | .mul | .div | .mod => 5

/-- Precedence of an expression: binary operators, then casts, prefix operators, postfix operators, and
expressions that are closed by themselves. -/
def Expr.prec : Expr → Nat
  | .binary op _ _ => op.prec
  | .cast _ _ => 5
  | .unary _ _ => 6
  | .call _ _ | .member _ _ | .index _ _ | .tupleIndex _ _ => 7
  | _ => 8

/-! ## Writing trees -/

mutual
/-- A type, as tokens. A tuple of one component needs a trailing comma. -/
def TypeExpr.toks : TypeExpr → List Token
  | .named n => [.identifier n.name]
  | .pointer t => t.toks ++ [.mul]
  | .tuple [] => [.lParen, .rParen]
  | .tuple [t] => .lParen :: t.toks ++ [.comma, .rParen]
  | .tuple (t :: ts) => .lParen :: t.toks ++ typesToks ts ++ [.rParen]
  | .fixedArray t n => .lBrack :: t.toks ++ [.semicolon, .number n none, .rBrack]
/-- Further components, each after a comma. -/
def typesToks : List TypeExpr → List Token
  | [] => []
  | t :: ts => .comma :: t.toks ++ typesToks ts
end

mutual
/-- An expression, as tokens. No parentheses are added: parentheses are part of the tree. -/
def Expr.toks : Expr → List Token
  | .literal v s => [.number v s]
  | .boolean b => [if b then .true_ else .false_]
  | .ident s => [.identifier s]
  | .unary op e => op.tok :: e.toks
  | .binary op l r => l.toks ++ op.tok :: r.toks
  | .call f [] => f.toks ++ [.lParen, .rParen]
  | .call f (e :: es) => f.toks ++ .lParen :: e.toks ++ exprsToks es ++ [.rParen]
  | .member e f => e.toks ++ [.dot, .identifier f]
  | .index e i => e.toks ++ .lBrack :: i.toks ++ [.rBrack]
  | .structLit n [] => [.identifier n, .lBrace, .rBrace]
  | .structLit n ((f, e) :: fs) =>
      .identifier n :: .lBrace :: .identifier f :: .colon :: e.toks ++ fieldsToks fs ++ [.rBrace]
  | .tuple [] => [.lParen, .rParen]
  | .tuple [e] => .lParen :: e.toks ++ [.comma, .rParen]
  | .tuple (e :: es) => .lParen :: e.toks ++ exprsToks es ++ [.rParen]
  | .tupleIndex e i => e.toks ++ [.dot, .number i none]
  | .array [] => [.lBrack, .rBrack]
  | .array (e :: es) => .lBrack :: e.toks ++ exprsToks es ++ [.rBrack]
  | .arrayRepeat e n => .lBrack :: e.toks ++ [.semicolon, .number n none, .rBrack]
  | .cast e t => e.toks ++ .as_ :: t.toks
  | .new t n => .new_ :: t.toks ++ .lBrack :: n.toks ++ [.rBrack]
  | .paren e => .lParen :: e.toks ++ [.rParen]
/-- Further list elements, each after a comma. -/
def exprsToks : List Expr → List Token
  | [] => []
  | e :: es => .comma :: e.toks ++ exprsToks es
/-- Further fields of a struct literal. -/
def fieldsToks : List (String × Expr) → List Token
  | [] => []
  | (f, e) :: fs => .comma :: .identifier f :: .colon :: e.toks ++ fieldsToks fs
end

mutual
def Pattern.toks : Pattern → List Token
  | .ident s => [.identifier s]
  | .tuple [] => [.lParen, .rParen]
  | .tuple (p :: ps) => .lParen :: p.toks ++ patternsToks ps ++ [.rParen]
def patternsToks : List Pattern → List Token
  | [] => []
  | p :: ps => .comma :: p.toks ++ patternsToks ps
end

/-- The last token of the expression is the name of a variable. -/
def Expr.endsIdent : Expr → Bool
  | .ident _ => true
  | .unary _ e => e.endsIdent
  | .binary _ _ r => r.endsIdent
  | _ => false

/-- After the name of a variable these tokens begin the fields of a struct literal. -/
def structAhead : List Token → Bool
  | .lBrace :: .rBrace :: _ => true
  | .lBrace :: .identifier _ :: .colon :: _ => true
  | _ => false

/-- How tightly a token binds that continues an expression to its left; `none` for the other tokens. -/
def Token.cont : Token → Option Nat
  | .andAnd | .orOr => some 0
  | .bitAnd | .bitOr | .bitXor => some 1
  | .eqEq | .neq | .less | .greater | .lessEqual | .greaterEqual => some 2
  | .plus | .minus => some 3
  | .mul | .div | .mod_ => some 4
  | .as_ => some 5
  | .lParen | .lBrack | .dot => some 7
  | _ => none

/-- A condition must be written in parentheses if it begins with a parenthesis itself, or if what follows would be
read as a part of it. -/
def needsParens (cond : Expr) (body : List Token) : Bool :=
  cond.toks.head? = some .lParen
    || (cond.endsIdent && structAhead body)
    || body.head?.any (fun t => t.cont.isSome)

def condToks (cond : Expr) (body : List Token) : List Token :=
  if needsParens cond body then .lParen :: cond.toks ++ .rParen :: body else cond.toks ++ body

/-- `: type`, if there is one. -/
def annotToks : Option TypeExpr → List Token
  | none => []
  | some t => .colon :: t.toks

def ConstDef.toks (c : ConstDef) : List Token :=
  .const_ :: .identifier c.name :: annotToks c.ty ++ .eq_ :: c.value.toks ++ [.semicolon]

mutual
/-- A statement, as tokens. -/
def Stmt.toks : Stmt → List Token
  | .let_ p t e => .let_ :: p.toks ++ annotToks t ++ .eq_ :: e.toks ++ [.semicolon]
  | .const c => c.toks
  | .assign l r => l.toks ++ .eq_ :: r.toks ++ [.semicolon]
  | .return_ none => [.return_, .semicolon]
  | .return_ (some e) => .return_ :: e.toks ++ [.semicolon]
  | .if_ c t none => .if_ :: condToks c t.toks
  | .if_ c t (some e) => .if_ :: condToks c (t.toks ++ .else_ :: e.toks)
  | .expr e => e.toks ++ [.semicolon]
  | .block ss => .lBrace :: stmtsToks ss ++ [.rBrace]
  | .loop_ b => .loop_ :: b.toks
  | .while_ c b => .while_ :: condToks c b.toks
  | .for_ i c s b => .for_ :: .lParen :: i.toks ++ c.toks ++ .semicolon :: s.toks.dropLast ++ .rParen :: b.toks
  | .break_ => [.break_, .semicolon]
  | .continue_ => [.continue_, .semicolon]
def stmtsToks : List Stmt → List Token
  | [] => []
  | s :: ss => s.toks ++ stmtsToks ss
end

/-- `name: type` pairs after the first. -/
def typedToks : List (String × TypeExpr) → List Token
  | [] => []
  | (s, t) :: r => .comma :: .identifier s :: .colon :: t.toks ++ typedToks r

/-- `name: type, …` without trailing comma. -/
def paramsToks : List (String × TypeExpr) → List Token
  | [] => []
  | (s, t) :: r => .identifier s :: .colon :: t.toks ++ typedToks r

/-- `name: type,` for every field. -/
def structToks : List (String × TypeExpr) → List Token
  | [] => []
  | (s, t) :: r => .identifier s :: .colon :: t.toks ++ .comma :: structToks r

def TypeExpr.isUnit : TypeExpr → Bool
  | .tuple [] => true
  | _ => false

/-- The return type is left out if it is the unit type. -/
def FunctionDef.toks (f : FunctionDef) : List Token :=
  .function_ :: .identifier f.name :: .lParen :: paramsToks f.params ++ .rParen ::
    (if f.returnType.isUnit then [] else .arrow :: f.returnType.toks) ++ .lBrace :: stmtsToks f.body ++ [.rBrace]

/-- `a::b::` for every segment of a path. -/
def pathToks : List String → List Token
  | [] => []
  | s :: r => .identifier s :: .colonColon :: pathToks r

def namesToks : List String → List Token
  | [] => []
  | s :: r => .comma :: .identifier s :: namesToks r

def UseItems.toks : UseItems → List Token
  | .single s => [.identifier s]
  | .list [] => [.lBrace, .rBrace]
  | .list (s :: r) => .lBrace :: .identifier s :: namesToks r ++ [.rBrace]

def Item.toks : Item → List Token
  | .function f => f.toks
  | .struct n fs => .struct_ :: .identifier n :: .lBrace :: structToks fs ++ [.rBrace]
  | .const c => c.toks
  | .use p items => .use_ :: pathToks p ++ items.toks ++ [.semicolon]

/-- A program, as tokens. -/
def programToks : List Item → List Token
  | [] => []
  | i :: is => i.toks ++ programToks is

/-- Tokens that carry more than grouping and separation. The arrow is left out as well: it only separates the
parameters from the return type, and `-> ()` means the same as no return type. -/
def Token.significant : Token → Bool
  | .comma | .lParen | .rParen | .arrow => false
  | _ => true

/-! ## Trees that can be written -/

def NamedType.shaped : NamedType → Bool
  | .custom s => s ≠ "felt" && s ≠ "bool" && s ≠ "u32"
  | _ => true

mutual
/-- A custom type has another name than the built-in types. -/
def TypeExpr.shaped : TypeExpr → Bool
  | .named n => n.shaped
  | .pointer t => t.shaped
  | .tuple ts => typesShaped ts
  | .fixedArray t _ => t.shaped
def typesShaped : List TypeExpr → Bool
  | [] => true
  | t :: ts => t.shaped && typesShaped ts
end

mutual
/-- Element types of allocations are not arrays and do not contain arrays. -/
def TypeExpr.noArray : TypeExpr → Bool
  | .named _ => true
  | .pointer t => t.noArray
  | .tuple ts => typesNoArray ts
  | .fixedArray _ _ => false
def typesNoArray : List TypeExpr → Bool
  | [] => true
  | t :: ts => t.noArray && typesNoArray ts
end

def TypeExpr.isNamed : TypeExpr → Bool
  | .named _ => true
  | _ => false

mutual
/-- The tree needs no further parentheses: the operands of every operator bind tighter than the operator, the
left operand of a binary operator, of a cast and of a postfix operator may bind as tightly (these associate to
the left), and so may the operand of a prefix operator. Casts are to named types, allocations of types without
arrays. -/
def Expr.shaped : Expr → Bool
  | .literal _ _ | .boolean _ | .ident _ => true
  | .unary _ e => 6 ≤ e.prec && e.shaped
  | .binary op l r => op.prec ≤ l.prec && op.prec < r.prec && l.shaped && r.shaped
  | .call f es => 7 ≤ f.prec && f.shaped && exprsShaped es
  | .member e _ => 7 ≤ e.prec && e.shaped
  | .index e i => 7 ≤ e.prec && e.shaped && i.shaped
  | .structLit _ fs => fieldsShaped fs
  | .tuple es => exprsShaped es
  | .tupleIndex e _ => 7 ≤ e.prec && e.shaped
  | .array es => exprsShaped es
  | .arrayRepeat e _ => e.shaped
  | .cast e t => 5 ≤ e.prec && e.shaped && t.isNamed && t.shaped
  | .new t n => t.noArray && t.shaped && n.shaped
  | .paren e => e.shaped
def exprsShaped : List Expr → Bool
  | [] => true
  | e :: es => e.shaped && exprsShaped es
def fieldsShaped : List (String × Expr) → Bool
  | [] => true
  | (_, e) :: fs => e.shaped && fieldsShaped fs
end

mutual
/-- Tuple patterns have at least two components. -/
def Pattern.shaped : Pattern → Bool
  | .ident _ => true
  | .tuple ps => 2 ≤ ps.length && patternsShaped ps
def patternsShaped : List Pattern → Bool
  | [] => true
  | p :: ps => p.shaped && patternsShaped ps
end

def annotShaped : Option TypeExpr → Bool
  | none => true
  | some t => t.shaped

def ConstDef.shaped (c : ConstDef) : Bool := annotShaped c.ty && c.value.shaped

/-- A following `else` would belong to this statement. -/
def Stmt.openIf : Stmt → Bool
  | .if_ _ _ none => true
  | .if_ _ _ (some e) => e.openIf
  | .loop_ b => b.openIf
  | .while_ _ b => b.openIf
  | .for_ _ _ _ b => b.openIf
  | _ => false

def Stmt.isInit : Stmt → Bool
  | .let_ _ _ _ | .assign _ _ | .expr _ => true
  | _ => false

def Stmt.isStep : Stmt → Bool
  | .assign _ _ | .expr _ => true
  | _ => false

mutual
/-- All expressions are shaped, `else` belongs to the last open `if`, and the parts of a `for` are of the kinds
the syntax allows. -/
def Stmt.shaped : Stmt → Bool
  | .let_ p t e => p.shaped && annotShaped t && e.shaped
  | .const c => c.shaped
  | .assign l r => l.shaped && r.shaped
  | .return_ none => true
  | .return_ (some e) => e.shaped
  | .if_ c t none => c.shaped && t.shaped
  | .if_ c t (some e) => c.shaped && t.shaped && !t.openIf && e.shaped
  | .expr e => e.shaped
  | .block ss => stmtsShaped ss
  | .loop_ b => b.shaped
  | .while_ c b => c.shaped && b.shaped
  | .for_ i c s b => i.isInit && i.shaped && c.shaped && s.isStep && s.shaped && b.shaped
  | .break_ | .continue_ => true
def stmtsShaped : List Stmt → Bool
  | [] => true
  | s :: ss => s.shaped && stmtsShaped ss
end

def typedShaped (l : List (String × TypeExpr)) : Bool := l.all (fun x => x.2.shaped)

def Item.shaped : Item → Bool
  | .function f => typedShaped f.params && f.returnType.shaped && stmtsShaped f.body
  | .struct _ fs => typedShaped fs
  | .const c => c.shaped
  | .use p items => match items with
    | .single _ => true
    | .list _ => p ≠ []

def programShaped (is : List Item) : Bool := is.all Item.shaped

end CairoM.Syntax
