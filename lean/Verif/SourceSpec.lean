import Verif.MirSem

/-!
# Specification: what a source function means

The scalar fragment of the source language (`crates/compiler/parser/src/parser.rs`, `enum Expression`,
`enum Statement`) and an interpreter for it, written without reference to the lowering. Identifiers are already
resolved to the definition they refer to (the semantic index does that), so a variable is a number and shadowing
declarations are different variables. Constants, structs, tuples, arrays, pointers and `new` are left out.

Calls are interpreted by an arbitrary table, as in the meaning of the mid-level representation.
-/

namespace CairoM
namespace Source

open Lang

/-- A definition of a variable (`MirDefinitionId`, `mir/src/function.rs:16-26`). -/
abbrev Var := ℕ

/-- `BinaryOp` (`parser/src/parser.rs:195-228`). -/
inductive BinOp where
  | Add | Sub | Mul | Div | Mod
  | Eq | Neq | Less | Greater | LessEqual | GreaterEqual
  | And | Or
  | BitwiseAnd | BitwiseOr | BitwiseXor
deriving DecidableEq

/-- `Expression` (`parser/src/parser.rs:258-326`), scalar fragment. An integer literal carries the type the
semantic analysis gives it; parentheses are dropped. -/
inductive Expr where
  | int (n : ℕ) (t : Ty)
  | bool (b : Bool)
  | var (x : Var)
  | un (op : Mir.UnaryOp) (e : Expr)
  | bin (op : BinOp) (l r : Expr)
  | call (f : ℕ) (args : List Expr)
  | cast (e : Expr) (t : Ty)

/-- `Statement` (`parser/src/parser.rs:355-403`), scalar fragment. `call` is an expression statement that is a
call. -/
inductive Stmt where
  | letS (x : Var) (e : Expr)
  | assign (x : Var) (e : Expr)
  | ret
  | retE (e : Expr)
  | expr (e : Expr)
  | call (f : ℕ) (args : List Expr)
  | assert (e : Expr)
  | ifThen (c : Expr) (t : Stmt)
  | ifElse (c : Expr) (t e : Stmt)
  | block (ss : List Stmt)
  | while (c : Expr) (body : Stmt)
  | loop (body : Stmt)
  | for (init : Stmt) (c : Expr) (step body : Stmt)
  | break
  | continue

/-- `FunctionDef` (`parser/src/parser.rs`): the parameters, the types of the returned values, the body. -/
structure Fn where
  params : List Var
  rets : List Ty
  body : List Stmt

/-- What the semantic analysis knows: the types of the variables and the signatures of the functions. -/
structure Sem where
  varTy : Var → Ty
  sig : ℕ → Option (List Ty × List Ty)

/-! ### Meaning -/

/-- Values of the variables. -/
abbrev Store := Var → Option Val

/-- Meaning of the binary operators on values; `none` is a fault or an ill-typed application. -/
def binop : BinOp → Val → Val → Option Val
  | .Add, .felt x, .felt y => some (.felt (x + y))
  | .Sub, .felt x, .felt y => some (.felt (x - y))
  | .Mul, .felt x, .felt y => some (.felt (x * y))
  | .Div, .felt x, .felt y => if y = 0 then none else some (.felt (x / y))
  | .Eq, .felt x, .felt y => some (.bool (decide (x = y)))
  | .Neq, .felt x, .felt y => some (.bool (decide (x ≠ y)))
  | .Add, .u32 x, .u32 y => some (.u32 ((x + y) % 2 ^ 32))
  | .Sub, .u32 x, .u32 y => some (.u32 ((x + 2 ^ 32 - y) % 2 ^ 32))
  | .Mul, .u32 x, .u32 y => some (.u32 ((x * y) % 2 ^ 32))
  | .Div, .u32 x, .u32 y => if y = 0 then none else some (.u32 (x / y))
  | .Mod, .u32 x, .u32 y => if y = 0 then none else some (.u32 (x % y))
  | .Eq, .u32 x, .u32 y => some (.bool (decide (x = y)))
  | .Neq, .u32 x, .u32 y => some (.bool (decide (x ≠ y)))
  | .Less, .u32 x, .u32 y => some (.bool (decide (x < y)))
  | .Greater, .u32 x, .u32 y => some (.bool (decide (x > y)))
  | .LessEqual, .u32 x, .u32 y => some (.bool (decide (x ≤ y)))
  | .GreaterEqual, .u32 x, .u32 y => some (.bool (decide (x ≥ y)))
  | .BitwiseAnd, .u32 x, .u32 y => some (.u32 (Nat.land x y))
  | .BitwiseOr, .u32 x, .u32 y => some (.u32 (Nat.lor x y))
  | .BitwiseXor, .u32 x, .u32 y => some (.u32 (Nat.xor x y))
  | .Eq, .bool x, .bool y => some (.bool (decide (x = y)))
  | .Neq, .bool x, .bool y => some (.bool (decide (x ≠ y)))
  | .And, .bool x, .bool y => some (.bool (x && y))
  | .Or, .bool x, .bool y => some (.bool (x || y))
  | _, _, _ => none

/-- Meaning of an integer literal. -/
def integer (n : ℕ) : Ty → Option Val
  | .felt => some (.felt (residue n))
  | .u32 => if n < 2 ^ 32 then some (.u32 n) else none
  | _ => none

/-- Meaning of `as`: the only conversion is from u32 to felt, for representable values. -/
def convert : Ty → Val → Option Val
  | .felt, .u32 n => if n < P then some (.felt (residue n)) else none
  | _, _ => none

/-- The left operand decides the result of `&&` and `||`. -/
def decides : BinOp → Val → Bool
  | .And, .bool false => true
  | .Or, .bool true => true
  | _, _ => false

mutual
/-- Value of an expression; `none` is a fault. With `lazy`, `&&` and `||` do not evaluate the right operand when
the left one decides the result; without it both operands are evaluated, from left to right. -/
def eval (lazy : Bool) (calls : Calls) (st : Store) : Expr → Option Val
  | .int n t => integer n t
  | .bool b => some (.bool b)
  | .var x => st x
  | .un op e => (eval lazy calls st e).bind (unary op)
  | .bin op l r =>
    (eval lazy calls st l).bind fun x =>
      if lazy && decides op x then some x else (eval lazy calls st r).bind fun y => binop op x y
  | .call f args =>
    (evalArgs lazy calls st args).bind fun xs => (calls f xs).bind fun
      | [y] => some y
      | _ => none
  | .cast e t => (eval lazy calls st e).bind (convert t)
/-- Values of the arguments, from left to right. -/
def evalArgs (lazy : Bool) (calls : Calls) (st : Store) : List Expr → Option (List Val)
  | [] => some []
  | e :: es => (eval lazy calls st e).bind fun x => (evalArgs lazy calls st es).map fun xs => x :: xs
end

/-- How a statement ends. -/
inductive Outcome where
  | normal (st : Store)
  | brk (st : Store)
  | cont (st : Store)
  | ret (vs : List Val)
  | fault
  | timeout

/-- Statements one after the other. -/
def execList (ex : Stmt → Store → Outcome) : List Stmt → Store → Outcome
  | [], st => .normal st
  | s :: ss, st =>
    match ex s st with
    | .normal st' => execList ex ss st'
    | o => o

/-- Effect of a statement, with at most `n` nested or successive executions of loop bodies and blocks. -/
def exec (lazy : Bool) (calls : Calls) : ℕ → Stmt → Store → Outcome
  | 0, _, _ => .timeout
  | _ + 1, .letS x e, st | _ + 1, .assign x e, st =>
    match eval lazy calls st e with
    | some v => .normal (Function.update st x (some v))
    | none => .fault
  | _ + 1, .ret, _ => .ret []
  | _ + 1, .retE e, st =>
    match eval lazy calls st e with
    | some v => .ret [v]
    | none => .fault
  | _ + 1, .expr e, st =>
    match eval lazy calls st e with
    | some _ => .normal st
    | none => .fault
  | _ + 1, .call f args, st =>
    match (evalArgs lazy calls st args).bind (calls f) with
    | some _ => .normal st
    | none => .fault
  | _ + 1, .assert e, st =>
    match eval lazy calls st e with
    | some (.bool true) => .normal st
    | _ => .fault
  | n + 1, .ifThen c t, st =>
    match eval lazy calls st c with
    | some (.bool true) => exec lazy calls n t st
    | some (.bool false) => .normal st
    | _ => .fault
  | n + 1, .ifElse c t e, st =>
    match eval lazy calls st c with
    | some (.bool true) => exec lazy calls n t st
    | some (.bool false) => exec lazy calls n e st
    | _ => .fault
  | n + 1, .block ss, st => execList (exec lazy calls n) ss st
  | n + 1, .while c body, st =>
    match eval lazy calls st c with
    | some (.bool true) =>
      match exec lazy calls n body st with
      | .normal st' | .cont st' => exec lazy calls n (.while c body) st'
      | .brk st' => .normal st'
      | o => o
    | some (.bool false) => .normal st
    | _ => .fault
  | n + 1, .loop body, st =>
    match exec lazy calls n body st with
    | .normal st' | .cont st' => exec lazy calls n (.loop body) st'
    | .brk st' => .normal st'
    | o => o
  | n + 1, .for init c step body, st =>
    match exec lazy calls n init st with
    | .normal st' => forLoop (eval lazy calls · c) (exec lazy calls n body) (exec lazy calls n step) n st'
    | o => o
  | _ + 1, .break, st => .brk st
  | _ + 1, .continue, st => .cont st
where
  /-- The iterations of a `for` loop: condition, body, step. -/
  forLoop (cond : Store → Option Val) (body step : Store → Outcome) : ℕ → Store → Outcome
    | 0, _ => .timeout
    | n + 1, st =>
      match cond st with
      | some (.bool true) =>
        match body st with
        | .normal st' | .cont st' =>
          match step st' with
          | .normal st'' => forLoop cond body step n st''
          | o => o
        | .brk st' => .normal st'
        | o => o
      | some (.bool false) => .normal st
      | _ => .fault

/-- Values of the parameters. -/
def bindParams (st : Store) : List Var → List Val → Option Store
  | [], [] => some st
  | x :: xs, v :: vs => bindParams (Function.update st x (some v)) xs vs
  | _, _ => none

/-- Result of a function on arguments. A function that ends without a `return` has no meaning: the semantic
analysis requires one on every path. -/
def run (lazy : Bool) (calls : Calls) (f : Fn) (n : ℕ) (args : List Val) : Result :=
  match bindParams (fun _ => none) f.params args with
  | none => .fault
  | some st =>
    match exec lazy calls n (.block f.body) st with
    | .ret vs => .returned vs
    | .timeout => .unfinished
    | _ => .fault

/-! ### Types -/

/-- Type of a value. -/
def valTy : Val → Ty
  | .felt _ => .felt
  | .u32 _ => .u32
  | .bool _ => .bool
  | .unit => .unit

/-- Operator and operand type that the language supports, with the type of the result. -/
def binTy : BinOp → Ty → Option Ty
  | .Add, .felt | .Sub, .felt | .Mul, .felt | .Div, .felt => some .felt
  | .Add, .u32 | .Sub, .u32 | .Mul, .u32 | .Div, .u32 | .Mod, .u32 => some .u32
  | .BitwiseAnd, .u32 | .BitwiseOr, .u32 | .BitwiseXor, .u32 => some .u32
  | .Eq, .felt | .Neq, .felt | .Eq, .u32 | .Neq, .u32 | .Eq, .bool | .Neq, .bool => some .bool
  | .Less, .u32 | .Greater, .u32 | .LessEqual, .u32 | .GreaterEqual, .u32 => some .bool
  | .And, .bool | .Or, .bool => some .bool
  | _, _ => none

mutual
/-- Type of an expression; `none` when it is ill-typed. Unary minus is on felts only: the semantic analysis also
accepts it on `u32` (`semantic/src/type_resolution.rs:1052-1063`), but the later stages read it as felt
subtraction. -/
def Expr.ty (S : Sem) : Expr → Option Ty
  | .int _ .felt => some .felt
  | .int _ .u32 => some .u32
  | .int _ _ => none
  | .bool _ => some .bool
  | .var x => some (S.varTy x)
  | .un .Neg e =>
    match Expr.ty S e with
    | some .felt => some .felt
    | _ => none
  | .un .Not e =>
    match Expr.ty S e with
    | some .bool => some .bool
    | _ => none
  | .bin op l r =>
    match Expr.ty S l, Expr.ty S r with
    | some a, some b => if a = b then binTy op a else none
    | _, _ => none
  | .call f args =>
    match S.sig f, Expr.tys S args with
    | some (ps, [r]), some ts => if ts = ps then some r else none
    | _, _ => none
  | .cast e .felt =>
    match Expr.ty S e with
    | some .u32 => some .felt
    | _ => none
  | .cast _ _ => none
/-- Types of the arguments. -/
def Expr.tys (S : Sem) : List Expr → Option (List Ty)
  | [] => some []
  | e :: es =>
    match Expr.ty S e, Expr.tys S es with
    | some t, some ts => some (t :: ts)
    | _, _ => none
end

mutual
/-- The integer literals of an expression are below `2^32`. -/
def Expr.small : Expr → Bool
  | .int n _ => decide (n < 2 ^ 32)
  | .bool _ | .var _ => true
  | .un _ e | .cast e _ => Expr.small e
  | .bin _ l r => Expr.small l && Expr.small r
  | .call _ args => Expr.smalls args
/-- The integer literals of the arguments are below `2^32`. -/
def Expr.smalls : List Expr → Bool
  | [] => true
  | e :: es => Expr.small e && Expr.smalls es
end

/-- Well-typed, with literals below `2^32`. -/
def Expr.ok (S : Sem) (e : Expr) (t : Ty) : Bool := decide (e.ty S = some t) && e.small

/-- A statement allowed as the step of a `for` loop. -/
def Stmt.simple : Stmt → Bool
  | .letS _ _ | .assign _ _ | .expr _ | .call _ _ | .assert _ => true
  | _ => false

mutual
/-- A statement is well-typed in a function that returns values of the types `rets`. -/
def Stmt.ok (S : Sem) (rets : List Ty) : Stmt → Bool
  | .letS x e | .assign x e => e.ok S (S.varTy x)
  | .ret => rets.isEmpty
  | .retE e =>
    match rets with
    | [t] => e.ok S t
    | _ => false
  | .expr e => (e.ty S).isSome && e.small
  | .call f args =>
    match S.sig f, Expr.tys S args with
    | some (ps, _), some ts => decide (ts = ps) && Expr.smalls args
    | _, _ => false
  | .assert e => e.ok S .bool
  | .ifThen c t => c.ok S .bool && Stmt.ok S rets t
  | .ifElse c t e => c.ok S .bool && Stmt.ok S rets t && Stmt.ok S rets e
  | .block ss => Stmt.oks S rets ss
  | .while c b => c.ok S .bool && Stmt.ok S rets b
  | .loop b => Stmt.ok S rets b
  | .for i c s b => Stmt.ok S rets i && c.ok S .bool && s.simple && Stmt.ok S rets s && Stmt.ok S rets b
  | .break | .continue => true
/-- Every statement of the list is well-typed. -/
def Stmt.oks (S : Sem) (rets : List Ty) : List Stmt → Bool
  | [] => true
  | s :: ss => Stmt.ok S rets s && Stmt.oks S rets ss
end

/-- A function is well-typed. -/
def Fn.ok (S : Sem) (f : Fn) : Bool := Stmt.oks S f.rets f.body

end Source
end CairoM
