import Verif.Mir

/-!
# Specification: what a function of the mid-level representation means

Written without reference to the passes or to the code generator: an interpreter for the scalar fragment
(assignments, operators, casts, assertions, calls, phi nodes, all terminators). Instructions that read or write
aggregates or memory have no meaning here (`none`), so a statement about functions that run is a statement about
the scalar fragment.

A call is interpreted by an arbitrary table `calls : callee → arguments → results`; a statement quantified over
that table covers every meaning the callees may have.
-/

namespace CairoM
namespace Lang

open Mir

/-- Values of the names. -/
abbrev Env := ValueId → Option Val

/-- What the callees do; `none` when a callee faults. -/
abbrev Calls := ℕ → List Val → Option (List Val)

/-- The scalar types. -/
def scalarTy : MirType → Option Ty
  | .Felt => some .felt
  | .U32 => some .u32
  | .Bool => some .bool
  | .Unit => some .unit
  | _ => none

/-- A value read where a value of type `t` is expected: a literal is read at `t`, a name is looked up. -/
def readAt (env : Env) (t : Ty) : Value → Option Val
  | .Literal l => denote t l
  | .Operand v => env v
  | .Error => none

/-- Type at which an operator reads a literal operand; `==` and `!=` accept field elements and booleans. -/
def literalTy (op : BinaryOp) (l : Literal) : Ty :=
  match op with
  | .Eq | .Neq => match l with
    | .Boolean _ => .bool
    | _ => .felt
  | .Add | .Sub | .Mul | .Div | .Less | .Greater | .LessEqual | .GreaterEqual => .felt
  | .And | .Or => .bool
  | _ => .u32

/-- An operand of a binary operator. -/
def operand (env : Env) (op : BinaryOp) : Value → Option Val
  | .Literal l => denote (literalTy op l) l
  | .Operand v => env v
  | .Error => none

/-- The type at which a literal is read where no type is given: integers as field elements. -/
def plainTy : Literal → Ty
  | .Integer _ => .felt
  | .Boolean _ => .bool
  | .Unit => .unit

/-- A condition, an asserted value or the operand of a unary operator. -/
def readPlain (env : Env) : Value → Option Val
  | .Literal l => denote (plainTy l) l
  | .Operand v => env v
  | .Error => none

/-- A condition holds when it is not zero. -/
def truthy : Val → Option Bool
  | .felt x => some (decide (x ≠ 0))
  | .u32 n => some (decide (n ≠ 0))
  | .bool b => some b
  | .unit => none

/-- The conversion from u32 to felt; it faults when the value is not representable. -/
def cast : Ty → Ty → Val → Option Val
  | .u32, .felt, .u32 n => if n < P then some (.felt (residue n)) else none
  | _, _, _ => none

/-- Equality that can be asserted. A boolean may be compared with the field elements `0` and `1`: the assertion
of a condition is the assertion that it equals the integer `1`. -/
def sameScalar : Val → Val → Bool
  | .felt x, .felt y => decide (x = y)
  | .bool x, .bool y => decide (x = y)
  | .bool x, .felt y => decide ((if x then 1 else 0) = y)
  | .felt x, .bool y => decide (x = if y then 1 else 0)
  | _, _ => false

/-- Several values, each read at its type. -/
def readAll (env : Env) : List (Option MirType) → List Value → Option (List Val)
  | [], [] => some []
  | t :: ts, v :: vs => do
    let t ← t.bind scalarTy
    let x ← readAt env t v
    let xs ← readAll env ts vs
    some (x :: xs)
  | _, _ => none

/-- Binding several names, in order. -/
def bind (env : Env) : List ValueId → List Val → Option Env
  | [], [] => some env
  | d :: ds, x :: xs => bind (Function.update env d (some x)) ds xs
  | _, _ => none

/-- Effect of an instruction; `none` when it faults or is outside the scalar fragment. -/
def evalInstr (calls : Calls) (i : Instr) (env : Env) : Option Env :=
  match i with
  | .Assign d v ty => do
    let t ← scalarTy ty
    let x ← readAt env t v
    some (Function.update env d (some x))
  | .UnaryOp op d v => do
    let x ← readPlain env v
    let y ← unary op x
    some (Function.update env d (some y))
  | .BinaryOp op d l r => do
    let x ← operand env op l
    let y ← operand env op r
    let z ← binary op x y
    some (Function.update env d (some z))
  | .Call ds callee args sig => do
    let xs ← readAll env (sig.params.map some) args
    let ys ← calls callee xs
    bind env ds ys
  | .Cast d v s t => do
    let s ← scalarTy s
    let t ← scalarTy t
    let x ← readAt env s v
    let y ← cast s t x
    some (Function.update env d (some y))
  | .AssertEq l r => do
    let x ← readPlain env l
    let y ← readPlain env r
    if sameScalar x y then some env else none
  | .Debug _ => some env
  | .Nop => some env
  | _ => none

/-- The instructions of a block, in order. -/
def evalInstrs (calls : Calls) : List Instr → Env → Option Env
  | [], env => some env
  | i :: is, env => do
    let env ← evalInstr calls i env
    evalInstrs calls is env

/-- The value of a phi node when control comes from `pred`. -/
def phiValue (env : Env) (pred : BlockId) (ty : MirType) (sources : List (BlockId × Value)) : Option Val := do
  let t ← scalarTy ty
  let v ← sources.lookup pred
  readAt env t v

/-- The phi nodes at the head of a block: all of them read the environment `env` at the end of the predecessor,
and the bindings are added to `acc`. The result also contains the instructions that follow the phi nodes. -/
def evalPhis (env : Env) (pred : Option BlockId) : List Instr → Env → Option (Env × List Instr)
  | .Phi d ty sources :: is, acc => do
    let p ← pred
    let x ← phiValue env p ty sources
    evalPhis env pred is (Function.update acc d (some x))
  | is, acc => some (acc, is)

/-- What a terminator does. -/
inductive Exit where
  | goto (b : BlockId)
  | ret (vs : List Val)
deriving DecidableEq

/-- Choice between two blocks. -/
def choose (b : Bool) (t e : BlockId) : Exit := if b then .goto t else .goto e

/-- Effect of a terminator; `returnTys` are the types of the values the function returns. Executing
`Unreachable` is a fault. -/
def evalTerm (returnTys : List (Option MirType)) (env : Env) : Terminator → Option Exit
  | .Jump t => some (.goto t)
  | .If c t e => do
    let x ← readPlain env c
    let b ← truthy x
    some (choose b t e)
  | .BranchCmp op l r t e => do
    let x ← operand env op l
    let y ← operand env op r
    let z ← binary op x y
    let b ← truthy z
    some (choose b t e)
  | .Return vs => (readAll env returnTys vs).map .ret
  | .Unreachable => none

/-- A whole block: where control goes, and the values then. -/
def evalBlock (calls : Calls) (returnTys : List (Option MirType)) (b : Block) (pred : Option BlockId) (env : Env) :
    Option (Exit × Env) := do
  let (env, is) ← evalPhis env pred b.instrs env
  let env ← evalInstrs calls is env
  let x ← evalTerm returnTys env b.term
  some (x, env)

/-- The types of the values a function returns. -/
def returnTys (f : Function) : List (Option MirType) := f.returns.map f.types

/-- Result of running a function. -/
inductive Result where
  | returned (vs : List Val)
  | fault
  | unfinished
deriving DecidableEq

/-- Running a function from a block, at most `n` blocks. -/
def exec (calls : Calls) (f : Function) : ℕ → Option BlockId → BlockId → Env → Result
  | 0, _, _, _ => .unfinished
  | n + 1, pred, id, env =>
    match f.blocks[id]? with
    | none => .fault
    | some b =>
      match evalBlock calls (returnTys f) b pred env with
      | none => .fault
      | some (.ret vs, _) => .returned vs
      | some (.goto t, env') => exec calls f n (some id) t env'

/-- Running a function on arguments, at most `n` blocks. -/
def run (calls : Calls) (f : Function) (n : ℕ) (args : List Val) : Result :=
  match bind (fun _ => none) f.params args with
  | none => .fault
  | some env => exec calls f n none 0 env

end Lang
end CairoM
