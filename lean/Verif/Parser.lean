import Verif.Syntax

/-!
# The parser

Model of `crates/compiler/parser/src/parser.rs`. The parser is written with the combinators of the chumsky
library; the combinators are modelled first, then every parser of the file, rule by rule.

A parser takes the remaining tokens and returns a result with the rest, or fails. Failing alternatives are
rewound. Ordered choice commits to the first alternative that succeeds. Rust's `recursive` becomes recursion
on a depth bound; `parseTokens` starts with more than the number of tokens, which every nested call exceeds
(each recursive call is preceded by a consumed token).
-/

namespace CairoM.Syntax

/-- A chumsky parser: remaining tokens to result and rest, `none` for failure (error values are dropped). -/
def P (α : Type) : Type := List Token → Option (α × List Token)

namespace P

variable {α β : Type}

instance : Monad P where
  pure a := fun ts => some (a, ts)
  bind p f := fun ts =>
    match p ts with
    | none => none
    | some (a, r) => f a r

/-- Always fails. -/
def fail : P α := fun _ => none

/-- `p.or(q)`, and `choice((p, q))`: ordered choice. -/
def alt (p q : P α) : P α := fun ts =>
  match p ts with
  | some x => some x
  | none => q ts

/-- `p.or_not()`. -/
def opt (p : P α) : P (Option α) := fun ts =>
  match p ts with
  | some (a, r) => some (some a, r)
  | none => some (none, ts)

/-- `p.repeated().collect()`, at most `n` times. -/
def manyN (p : P α) : Nat → P (List α)
  | 0 => fun ts => some ([], ts)
  | n + 1 => fun ts =>
    match p ts with
    | none => some ([], ts)
    | some (a, r) =>
      match manyN p n r with
      | none => none
      | some (as, r') => some (a :: as, r')

/-- `p.repeated().collect()`. Every parser that is repeated consumes a token, so the number of tokens bounds the
number of repetitions. -/
def many (p : P α) : P (List α) := fun ts => manyN p ts.length ts

/-- `p.separated_by(sep).collect()` after the first item, at most `n` times. With `allow_trailing` a separator
that no item follows is consumed, otherwise the parser is rewound to before it. -/
def sepRest (trailing : Bool) (sep : P Unit) (p : P α) : Nat → P (List α)
  | 0 => fun ts => some ([], ts)
  | n + 1 => fun ts =>
    match sep ts with
    | none => some ([], ts)
    | some (_, r) =>
      match p r with
      | none => some ([], if trailing then r else ts)
      | some (a, r') =>
        match sepRest trailing sep p n r' with
        | none => none
        | some (as, r'') => some (a :: as, r'')

/-- `p.separated_by(sep)` (no minimum), optionally with `.allow_trailing()`. -/
def sepBy (trailing : Bool) (sep : P Unit) (p : P α) : P (List α) := fun ts =>
  match p ts with
  | none => some ([], ts)
  | some (a, r) =>
    match sepRest trailing sep p r.length r with
    | none => none
    | some (as, r') => some (a :: as, r')

/-- `just(t)`. -/
def just (t : Token) : P Unit := fun ts =>
  match ts with
  | t' :: r => if t' = t then some ((), r) else none
  | [] => none

/-- `just(t).rewind()`: look at the next token without consuming it. -/
def peek (t : Token) : P Unit := fun ts =>
  match ts with
  | t' :: _ => if t' = t then some ((), ts) else none
  | [] => none

/-- `p.delimited_by(just(a), just(b))`. -/
def between (a b : Token) (p : P α) : P α := do
  just a
  let x ← p
  just b
  pure x

/-- `p.try_map(f)`: fails where `f` rejects. -/
def tryMap (p : P α) (f : α → Option β) : P β := do
  let x ← p
  match f x with
  | some y => pure y
  | none => fail

end P

open P

/-- `ident_parser`, `spanned_ident_parser` (`parser.rs:649-666`). -/
def ident : P String := fun ts =>
  match ts with
  | .identifier s :: r => some (s, r)
  | _ => none

/-- `select! { TokenType::LiteralNumber(lit) => lit }`. -/
def number : P (Nat × Option String) := fun ts =>
  match ts with
  | .number v s :: r => some ((v, s), r)
  | _ => none

/-- Named types of `type_expr_parser` (`parser.rs:678-687`), `simple_named_type` (`parser.rs:818-827`). -/
def namedOf (name : String) : TypeExpr :=
  .named (if name = "felt" then .felt else if name = "bool" then .bool else if name = "u32" then .u32
    else .custom name)

def namedType : P TypeExpr := do
  let name ← ident
  pure (namedOf name)

/-- Tuple types (`parser.rs:690-710`, `parser.rs:842-858`): one element without trailing comma is a parenthesised
type. -/
def tupleType (ty : P TypeExpr) : P TypeExpr := do
  just .lParen
  let types ← sepBy false (just .comma) ty
  let trailing ← opt (just .comma)
  just .rParen
  pure (match types, trailing with
    | [t], none => t
    | ts, _ => .tuple ts)

/-- Pointer suffixes (`parser.rs:742-754`, `parser.rs:862-872`). -/
def stars (base : P TypeExpr) : P TypeExpr := do
  let t ← base
  let ss ← many (just .mul)
  pure (ss.foldl (fun t _ => .pointer t) t)

/-- `alloc_type_expr` (`parser.rs:830-873`): named and tuple types with pointer suffixes. -/
def allocBody (ty : P TypeExpr) : P TypeExpr := stars (alt namedType (tupleType ty))

def parseAlloc : Nat → P TypeExpr
  | 0 => fail
  | n + 1 => allocBody (parseAlloc n)

/-- Integer and boolean literals (`parser.rs:769-792`). Unknown suffixes are reported by `validate`, which does
not make the parser fail: see `suffixesOk`. -/
def literal : P Expr := do
  let (v, s) ← number
  pure (.literal v s)

def boolean : P Expr := alt (do just .true_; pure (.boolean true)) (do just .false_; pure (.boolean false))

def identExpr : P Expr := do
  let s ← ident
  pure (.ident s)

/-- Fields of a struct literal (`parser.rs:801-808`). -/
def structFields (expr : P Expr) : P (List (String × Expr)) :=
  between .lBrace .rBrace (sepBy true (just .comma) (do
    let f ← ident
    just .colon
    let e ← expr
    pure (f, e)))

/-- Struct literals (`parser.rs:811-815`). -/
def structLit (expr : P Expr) : P Expr := do
  let name ← ident
  let fields ← structFields expr
  pure (.structLit name fields)

/-- `new T[n]` (`parser.rs:876-890`). -/
def newExpr (expr : P Expr) (alloc : P TypeExpr) : P Expr := do
  just .new_
  let t ← alloc
  let n ← between .lBrack .rBrack expr
  pure (.new t n)

/-- `paren_or_tuple` (`parser.rs:893-930`): `()`, `(e)` or a tuple, decided by the token after the first inner
expression. -/
def parenOrTuple (expr : P Expr) : P Expr := do
  just .lParen
  alt (do just .rParen; pure (.tuple []))
    (do
      let first ← expr
      let tail ← alt
        (do
          peek .comma
          let rest ← many (do just .comma; expr)
          let _ ← opt (just .comma)
          just .rParen
          pure (some rest))
        (do just .rParen; pure none)
      pure (match tail with
        | none => .paren first
        | some rest => .tuple (first :: rest)))

/-- `[e; n]` (`parser.rs:933-956`): the length is an unsuffixed number. -/
def arrayRepeat (expr : P Expr) : P Expr :=
  tryMap (do
    just .lBrack
    let e ← expr
    just .semicolon
    let (v, s) ← number
    just .rBrack
    pure (e, v, s))
    (fun (e, v, s) => match s with
      | none => some (.arrayRepeat e v)
      | some _ => none)

/-- `[e, ...]` (`parser.rs:959-966`). -/
def arrayLit (expr : P Expr) : P Expr := do
  let es ← between .lBrack .rBrack (sepBy true (just .comma) expr)
  pure (.array es)

/-- `atom` (`parser.rs:969-976`). -/
def atom (expr : P Expr) (alloc : P TypeExpr) : P Expr :=
  alt literal (alt boolean (alt (newExpr expr alloc) (alt (structLit expr) (alt (arrayRepeat expr) (alt (arrayLit expr)
    (alt identExpr (parenOrTuple expr)))))))

/-- `PostfixOp` (`parser.rs:630-642`). -/
inductive PostOp where
  | call (args : List Expr)
  | member (field : String)
  | index (e : Expr)
  | tupleIndex (i : Nat)

/-- `postfix_op` (`parser.rs:979-1011`). -/
def postOp (expr : P Expr) : P PostOp :=
  alt (do let args ← between .lParen .rParen (sepBy true (just .comma) expr); pure (.call args))
    (alt (do
        just .dot
        tryMap number (fun (v, s) => match s with
          | none => some (.tupleIndex v)
          | some _ => none))
      (alt (do just .dot; let f ← ident; pure (.member f))
        (do let e ← between .lBrack .rBrack expr; pure (.index e))))

def applyPost (e : Expr) : PostOp → Expr
  | .call args => .call e args
  | .member f => .member e f
  | .index i => .index e i
  | .tupleIndex i => .tupleIndex e i

/-- `call` (`parser.rs:1014-1073`): postfix operators from left to right. -/
def callTier (expr : P Expr) (alloc : P TypeExpr) : P Expr := do
  let e ← atom expr alloc
  let ops ← many (postOp expr)
  pure (ops.foldl applyPost e)

/-- `unary` (`parser.rs:1080-1100`): prefix operators from right to left. -/
def unaryOp : P UnaryOp := alt (do just .not_; pure .not) (do just .minus; pure .neg)

def unaryTier (lower : P Expr) : P Expr := do
  let ops ← many unaryOp
  let e ← lower
  pure (ops.foldr (fun op e => .unary op e) e)

/-- `cast` (`parser.rs:1103-1120`): only named types. -/
def castTier (lower : P Expr) : P Expr := do
  let e ← lower
  let tys ← many (do just .as_; namedType)
  pure (tys.foldl (fun e t => .cast e t) e)

/-- `choice` of operator tokens. -/
def opOf : List (Token × BinaryOp) → P BinaryOp
  | [] => fail
  | (t, op) :: rest => alt (do just t; pure op) (opOf rest)

/-- A tier of left-associative binary operators: `lower.foldl(op.then(lower).repeated(), …)`. -/
def binTier (ops : List (Token × BinaryOp)) (lower : P Expr) : P Expr := do
  let e ← lower
  let rest ← many (do
    let op ← opOf ops
    let r ← lower
    pure (op, r))
  pure (rest.foldl (fun l (x : BinaryOp × Expr) => .binary x.1 l x.2) e)

/-- Multiplicative operators (`parser.rs:1123-1145`). -/
def mulOps : List (Token × BinaryOp) := [(.mul, .mul), (.div, .div), (.mod_, .mod)]
/-- Additive operators (`parser.rs:1148-1169`). -/
def addOps : List (Token × BinaryOp) := [(.plus, .add), (.minus, .sub)]
/-- Comparison operators (`parser.rs:1172-1196`). -/
def cmpOps : List (Token × BinaryOp) :=
  [(.eqEq, .eq), (.neq, .neq), (.less, .less), (.greater, .greater), (.lessEqual, .lessEqual),
    (.greaterEqual, .greaterEqual)]
/-- Bitwise operators (`parser.rs:1199-1220`). -/
def bitOps : List (Token × BinaryOp) := [(.bitAnd, .bitAnd), (.bitOr, .bitOr), (.bitXor, .bitXor)]
/-- Logical operators (`parser.rs:1222-1243`). -/
def logicOps : List (Token × BinaryOp) := [(.andAnd, .and), (.orOr, .or)]

/-- `expression_parser` (`parser.rs:758-1245`), given the parser of nested expressions. -/
def exprBody (expr : P Expr) (alloc : P TypeExpr) : P Expr :=
  binTier logicOps (binTier bitOps (binTier cmpOps (binTier addOps (binTier mulOps
    (castTier (unaryTier (callTier expr alloc)))))))

/-- `expression_parser` with recursion depth at most `n`. -/
def parseExpr : Nat → P Expr
  | 0 => fail
  | n + 1 => exprBody (parseExpr n) (parseAlloc n)

/-- Fixed-size array types (`parser.rs:713-738`): the size is any expression, which must be an unsuffixed
literal. -/
def arrayType (expr : P Expr) (ty : P TypeExpr) : P TypeExpr := do
  just .lBrack
  let t ← ty
  just .semicolon
  let n ← tryMap expr (fun e => match e with
    | .literal v none => some v
    | _ => none)
  just .rBrack
  pure (.fixedArray t n)

/-- `type_expr_parser` (`parser.rs:669-755`). -/
def typeBody (expr : P Expr) (ty : P TypeExpr) : P TypeExpr :=
  stars (alt (alt namedType (arrayType expr ty)) (tupleType ty))

def parseType : Nat → P TypeExpr
  | 0 => fail
  | n + 1 => typeBody (parseExpr n) (parseType n)

/-- Patterns (`parser.rs:1274-1289`): a tuple pattern has at least two components and no trailing comma. -/
def patternBody (pattern : P Pattern) : P Pattern :=
  alt (tryMap (between .lParen .rParen (sepBy false (just .comma) pattern))
      (fun ps => if 2 ≤ ps.length then some (.tuple ps) else none))
    (do let s ← ident; pure (.ident s))

def parsePattern : Nat → P Pattern
  | 0 => fail
  | n + 1 => patternBody (parsePattern n)

/-- `just(Colon).ignore_then(type_expr).or_not()`. -/
def typeAnnot (ty : P TypeExpr) : P (Option TypeExpr) := opt (do just .colon; ty)

/-- Let statements (`parser.rs:1302-1317`, `parser.rs:1389-1404`). -/
def letStmt (expr : P Expr) (ty : P TypeExpr) (pattern : P Pattern) : P Stmt := do
  just .let_
  let p ← pattern
  let t ← typeAnnot ty
  just .eq_
  let e ← expr
  just .semicolon
  pure (.let_ p t e)

/-- Constant definitions (`parser.rs:1320-1331`, `parser.rs:1617-1634`). -/
def constDef (expr : P Expr) (ty : P TypeExpr) : P ConstDef := do
  just .const_
  let s ← ident
  let t ← typeAnnot ty
  just .eq_
  let e ← expr
  just .semicolon
  pure ⟨s, t, e⟩

/-- Conditions of `if` and `while` (`parser.rs:1334-1338`, `parser.rs:1371-1375`): in parentheses or bare. -/
def condition (expr : P Expr) : P Expr := alt (between .lParen .rParen expr) expr

def ifStmt (expr : P Expr) (stmt : P Stmt) : P Stmt := do
  just .if_
  let c ← condition expr
  let t ← stmt
  let e ← opt (do just .else_; stmt)
  pure (.if_ c t e)

def returnStmt (expr : P Expr) : P Stmt := do
  just .return_
  let e ← opt expr
  just .semicolon
  pure (.return_ e)

def loopStmt (stmt : P Stmt) : P Stmt := do
  just .loop_
  let b ← stmt
  pure (.loop_ b)

def whileStmt (expr : P Expr) (stmt : P Stmt) : P Stmt := do
  just .while_
  let c ← condition expr
  let b ← stmt
  pure (.while_ c b)

/-- `lhs = rhs` or an expression (`parser.rs:1405-1414`, `parser.rs:1421-1428`, `parser.rs:1460-1468`). -/
def assignOrExpr (expr : P Expr) : P Stmt := do
  let l ← expr
  let r ← opt (do just .eq_; expr)
  pure (match r with
    | some r => .assign l r
    | none => .expr l)

def assignStmt (expr : P Expr) : P Stmt := do
  let s ← assignOrExpr expr
  just .semicolon
  pure s

/-- `for (init; condition; step) body` (`parser.rs:1387-1445`). -/
def forStmt (expr : P Expr) (ty : P TypeExpr) (pattern : P Pattern) (stmt : P Stmt) : P Stmt := do
  just .for_
  just .lParen
  let i ← alt (letStmt expr ty pattern) (assignStmt expr)
  let c ← expr
  just .semicolon
  let s ← assignOrExpr expr
  just .rParen
  let b ← stmt
  pure (.for_ i c s b)

def blockOf (stmt : P Stmt) : P (List Stmt) := between .lBrace .rBrace (many stmt)

/-- `statement_parser` (`parser.rs:1264-1483`). -/
def stmtBody (expr : P Expr) (ty : P TypeExpr) (pattern : P Pattern) (stmt : P Stmt) : P Stmt :=
  alt (do let ss ← blockOf stmt; pure (.block ss))
    (alt (ifStmt expr stmt)
      (alt (loopStmt stmt)
        (alt (whileStmt expr stmt)
          (alt (forStmt expr ty pattern stmt)
            (alt (do just .break_; just .semicolon; pure .break_)
              (alt (do just .continue_; just .semicolon; pure .continue_)
                (alt (letStmt expr ty pattern)
                  (alt (do let c ← constDef expr ty; pure (.const c))
                    (alt (returnStmt expr) (assignStmt expr))))))))))

def parseStmt : Nat → P Stmt
  | 0 => fail
  | n + 1 => stmtBody (parseExpr n) (parseType n) (parsePattern n) (parseStmt n)

/-- `name: type`, for parameters and struct fields (`parser.rs:1248-1261`, `parser.rs:1545-1548`). -/
def typedName (ty : P TypeExpr) : P (String × TypeExpr) := do
  let s ← ident
  just .colon
  let t ← ty
  pure (s, t)

/-- `function_def_parser` (`parser.rs:1486-1533`). -/
def functionDef (n : Nat) : P FunctionDef := do
  just .function_
  let name ← ident
  let params ← between .lParen .rParen (sepBy true (just .comma) (typedName (parseType n)))
  let ret ← opt (do just .arrow; parseType n)
  let body ← blockOf (parseStmt n)
  pure ⟨name, params, ret.getD (.tuple []), body⟩

/-- `struct_def_parser` (`parser.rs:1536-1561`). -/
def structDef (n : Nat) : P Item := do
  just .struct_
  let name ← ident
  let fields ← between .lBrace .rBrace (sepBy true (just .comma) (typedName (parseType n)))
  pure (.struct name fields)

/-- `module_path` (`parser.rs:1571-1575`): at least one segment. -/
def modulePath : P (List String) :=
  tryMap (sepBy false (just .colonColon) ident) (fun p => if p = [] then none else some p)

/-- `use_stmt_parser` (`parser.rs:1564-1614`). -/
def useStmt : P Item := do
  just .use_
  alt
    (do
      let p ← modulePath
      just .semicolon
      pure (.use p.dropLast (.single (p.getLast?.getD ""))))
    (do
      let p ← modulePath
      just .colonColon
      let names ← between .lBrace .rBrace (sepBy true (just .comma) ident)
      just .semicolon
      pure (.use p (.list names)))

/-- `top_level_item_parser` (`parser.rs:1637-1651`). -/
def item (n : Nat) : P Item :=
  alt (do let f ← functionDef n; pure (.function f))
    (alt (structDef n)
      (alt (do let c ← constDef (parseExpr n) (parseType n); pure (.const c)) useStmt))

/-- `parser().then_ignore(end())` (`parser.rs:1686-1693`, `parser.rs:604-609`). -/
def parseTokens (ts : List Token) : Option (List Item) :=
  match many (item (ts.length + 1)) ts with
  | some (items, []) => some items
  | _ => none

end CairoM.Syntax
