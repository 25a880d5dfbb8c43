/-!
# Tokens and syntax trees of the source language

Model of `crates/compiler/parser/src/lexer.rs` (`TokenType`) and of the syntax trees of
`crates/compiler/parser/src/parser.rs`. Source positions (`Spanned`) are left out: they do not influence
what is parsed, only diagnostics and the attachment of comments.
-/

namespace CairoM.Syntax

/-- `TokenType` (`lexer.rs:160-269`). A number carries its value and its suffix. -/
inductive Token where
  | number (value : Nat) (suffix : Option String)
  | as_ | const_ | else_ | false_ | function_ | if_ | let_ | new_ | return_ | struct_ | true_ | while_
  | loop_ | for_ | in_ | break_ | continue_ | use_
  | identifier (name : String)
  | not_ | andAnd | orOr | bitAnd | bitOr | bitXor | eqEq | neq | lessEqual | greaterEqual | less | greater
  | plus | minus | mul | div | mod_ | eq_
  | arrow | lParen | rParen | lBrace | rBrace | lBrack | rBrack | comma | semicolon | colon | colonColon | dot
  deriving DecidableEq, Repr, Inhabited

/-- `NamedType` (`parser.rs:134-139`). -/
inductive NamedType where
  | felt | bool | u32 | custom (name : String)
  deriving DecidableEq, Repr, Inhabited

/-- `TypeExpr` (`parser.rs:158-170`). -/
inductive TypeExpr where
  | named (n : NamedType)
  | pointer (t : TypeExpr)
  | tuple (ts : List TypeExpr)
  | fixedArray (t : TypeExpr) (size : Nat)
  deriving Repr, Inhabited

/-- `UnaryOp` (`parser.rs:174-179`). -/
inductive UnaryOp where
  | not | neg
  deriving DecidableEq, Repr, Inhabited

/-- `BinaryOp` (`parser.rs:195-228`). -/
inductive BinaryOp where
  | add | sub | mul | div | mod | eq | neq | less | greater | lessEqual | greaterEqual | and | or
  | bitAnd | bitOr | bitXor
  deriving DecidableEq, Repr, Inhabited

/-- `Expression` (`parser.rs:258-326`). -/
inductive Expr where
  | literal (value : Nat) (suffix : Option String)
  | boolean (b : Bool)
  | ident (name : String)
  | unary (op : UnaryOp) (e : Expr)
  | binary (op : BinaryOp) (l r : Expr)
  | call (callee : Expr) (args : List Expr)
  | member (object : Expr) (field : String)
  | index (array idx : Expr)
  | structLit (name : String) (fields : List (String × Expr))
  | tuple (es : List Expr)
  | tupleIndex (tuple : Expr) (index : Nat)
  | array (es : List Expr)
  | arrayRepeat (element : Expr) (count : Nat)
  | cast (e : Expr) (target : TypeExpr)
  | new (elem : TypeExpr) (count : Expr)
  | paren (e : Expr)
  deriving Repr, Inhabited

/-- `Pattern` (`parser.rs:343-348`). -/
inductive Pattern where
  | ident (name : String)
  | tuple (ps : List Pattern)
  deriving Repr, Inhabited

/-- `ConstDef` (`parser.rs:426-433`). -/
structure ConstDef where
  name : String
  ty : Option TypeExpr
  value : Expr
  deriving Repr, Inhabited

/-- `Statement` (`parser.rs:355-403`). -/
inductive Stmt where
  | let_ (pattern : Pattern) (ty : Option TypeExpr) (value : Expr)
  | const (c : ConstDef)
  | assign (lhs rhs : Expr)
  | return_ (value : Option Expr)
  | if_ (cond : Expr) (then_ : Stmt) (else_ : Option Stmt)
  | expr (e : Expr)
  | block (ss : List Stmt)
  | loop_ (body : Stmt)
  | while_ (cond : Expr) (body : Stmt)
  | for_ (init : Stmt) (cond : Expr) (step : Stmt) (body : Stmt)
  | break_
  | continue_
  deriving Repr, Inhabited

/-- `FunctionDef` (`parser.rs:462-471`) with `Parameter` (`parser.rs:332-337`). -/
structure FunctionDef where
  name : String
  params : List (String × TypeExpr)
  returnType : TypeExpr
  body : List Stmt
  deriving Repr, Inhabited

/-- `UseItems` (`parser.rs:484-489`). -/
inductive UseItems where
  | single (name : String)
  | list (names : List String)
  deriving Repr, Inhabited

/-- `TopLevelItem` (`parser.rs:410-419`), `StructDef` (`parser.rs:475-480`), `UseStmt` (`parser.rs:511-516`). -/
inductive Item where
  | function (f : FunctionDef)
  | struct (name : String) (fields : List (String × TypeExpr))
  | const (c : ConstDef)
  | use (path : List String) (items : UseItems)
  deriving Repr, Inhabited

end CairoM.Syntax
