import Verif.M31

/-!
# Operators of the mid-level representation, compile-time evaluation and algebraic simplification

Models `crates/compiler/mir/src/value.rs` (literals, values), `instruction.rs:20-58` (operators),
`passes/const_eval.rs` (evaluation of operators on literals at compile time) and
`passes/arithmetic_simplify.rs` (peephole simplification).
-/

namespace CairoM
namespace Mir

/-- `ValueId`, an index (`crates/compiler/mir/src/lib.rs`, `index_vec` newtype). -/
abbrev ValueId := ℕ

/-- `Literal` (`mir/src/value.rs:40-49`). The Rust `u32` payload is a 32-bit vector. -/
inductive Literal where
  | Integer (n : BitVec 32)
  | Boolean (b : Bool)
  | Unit
deriving DecidableEq, Repr

/-- `Value` (`mir/src/value.rs:21-34`). -/
inductive Value where
  | Literal (l : Literal)
  | Operand (id : ValueId)
  | Error
deriving DecidableEq, Repr

/-- `BinaryOp` (`mir/src/instruction.rs:20-58`). -/
inductive BinaryOp where
  | Add | Sub | Mul | Div
  | Eq | Neq | Less | Greater | LessEqual | GreaterEqual
  | And | Or
  | U32Add | U32Sub | U32Mul | U32Div | U32Rem
  | U32Eq | U32Neq | U32Less | U32Greater | U32LessEqual | U32GreaterEqual
  | U32BitwiseAnd | U32BitwiseOr | U32BitwiseXor
deriving DecidableEq, Repr

/-- `UnaryOp` (`crates/compiler/parser/src/parser.rs`, `enum UnaryOp`). -/
inductive UnaryOp where
  | Neg | Not
deriving DecidableEq, Repr

/-- `M31::from(u32)` (stwo `m31.rs`): reduction modulo `P`. -/
def toM31 (n : BitVec 32) : M31 := (n.toNat : M31)

/-- `M31.0`: the canonical representative as a `u32`. -/
def ofM31 (x : M31) : BitVec 32 := BitVec.ofNat 32 x.val

/-- The compiler panicked (stwo `M31::inverse` asserts that its argument is not zero). -/
inductive Panic where
  | inverseOfZero
deriving DecidableEq, Repr

/-- `ConstEvaluator::eval_binary_op` (`mir/src/passes/const_eval.rs:24-137`). `none` is the answer
"cannot be folded"; the error is the panic of `M31::inverse`, reached by the guard `b != 0` when the literal is
a non-zero multiple of `P`. -/
def evalBinary (op : BinaryOp) (l r : Literal) : Except Panic (Option Literal) :=
  match op, l, r with
  | .Add, .Integer a, .Integer b => .ok (some (.Integer (ofM31 (toM31 a + toM31 b))))
  | .Sub, .Integer a, .Integer b => .ok (some (.Integer (ofM31 (toM31 a - toM31 b))))
  | .Mul, .Integer a, .Integer b => .ok (some (.Integer (ofM31 (toM31 a * toM31 b))))
  | .Div, .Integer a, .Integer b =>
    if b ≠ 0 then
      if toM31 b = 0 then .error .inverseOfZero
      else .ok (some (.Integer (ofM31 (toM31 a * (toM31 b)⁻¹))))
    else .ok none
  | .Eq, .Integer a, .Integer b => .ok (some (.Boolean (a == b)))
  | .Neq, .Integer a, .Integer b => .ok (some (.Boolean (a != b)))
  | .U32Add, .Integer a, .Integer b => .ok (some (.Integer (a + b)))
  | .U32Sub, .Integer a, .Integer b => .ok (some (.Integer (a - b)))
  | .U32Mul, .Integer a, .Integer b => .ok (some (.Integer (a * b)))
  | .U32Div, .Integer a, .Integer b => if b ≠ 0 then .ok (some (.Integer (a / b))) else .ok none
  | .U32Rem, .Integer a, .Integer b => if b ≠ 0 then .ok (some (.Integer (a % b))) else .ok none
  | .U32Eq, .Integer a, .Integer b => .ok (some (.Boolean (a == b)))
  | .U32Neq, .Integer a, .Integer b => .ok (some (.Boolean (a != b)))
  | .U32Less, .Integer a, .Integer b => .ok (some (.Boolean (a.ult b)))
  | .U32Greater, .Integer a, .Integer b => .ok (some (.Boolean (b.ult a)))
  | .U32LessEqual, .Integer a, .Integer b => .ok (some (.Boolean (a.ule b)))
  | .U32GreaterEqual, .Integer a, .Integer b => .ok (some (.Boolean (b.ule a)))
  | .U32BitwiseAnd, .Integer a, .Integer b => .ok (some (.Integer (a &&& b)))
  | .U32BitwiseOr, .Integer a, .Integer b => .ok (some (.Integer (a ||| b)))
  | .U32BitwiseXor, .Integer a, .Integer b => .ok (some (.Integer (a ^^^ b)))
  | .And, .Boolean a, .Boolean b => .ok (some (.Boolean (a && b)))
  | .Or, .Boolean a, .Boolean b => .ok (some (.Boolean (a || b)))
  | _, _, _ => .ok none

/-- `ConstEvaluator::eval_unary_op` (`const_eval.rs:140-151`). -/
def evalUnary (op : UnaryOp) (l : Literal) : Option Literal :=
  match op, l with
  | .Not, .Boolean b => some (.Boolean (!b))
  | .Neg, .Integer n => some (.Integer (ofM31 (-toM31 n)))
  | _, _ => none

/-- `ConstEvaluator::is_zero` (`const_eval.rs:154-161`). -/
def isZero : Value → Bool
  | .Literal (.Integer n) => n == 0
  | .Literal (.Boolean false) => true
  | _ => false

/-- `ConstEvaluator::as_bool` (`const_eval.rs:173-180`). -/
def asBool : Literal → Option Bool
  | .Boolean b => some b
  | .Integer n => some (n != 0)
  | .Unit => none

/-- `ConstEvaluator::identity_value` (`const_eval.rs:183-195`). -/
def identityValue : BinaryOp → Option Literal
  | .Add | .Sub | .U32Add | .U32Sub => some (.Integer 0)
  | .Mul | .Div | .U32Mul | .U32Div => some (.Integer 1)
  | .And => some (.Boolean true)
  | .Or => some (.Boolean false)
  | _ => none

/-- `ConstEvaluator::absorbing_value` (`const_eval.rs:198-205`). -/
def absorbingValue : BinaryOp → Option Literal
  | .Mul | .U32Mul => some (.Integer 0)
  | .And => some (.Boolean false)
  | .Or => some (.Boolean true)
  | _ => none

/-- `ArithmeticSimplify::try_simplify_binary` (`arithmetic_simplify.rs:32-83`). Both results,
`SimplificationResult::Assign(value)` and `SimplificationResult::Literal(lit)`, turn the instruction into an
assignment of a value (`:117-152`), so the model returns that value. -/
def simplifyBinary (op : BinaryOp) (l r : Value) : Except Panic (Option Value) :=
  match identityValue op with
  | some i =>
    if l = .Literal i then .ok (some r)
    else if r = .Literal i then .ok (some l)
    else rest
  | none => rest
where
  /-- The part after the identity check (`arithmetic_simplify.rs:50-82`). -/
  rest : Except Panic (Option Value) :=
    match absorbingValue op with
    | some a =>
      if l = .Literal a ∨ r = .Literal a then .ok (some (.Literal a)) else special
    | none => special
  /-- The last `match` (`arithmetic_simplify.rs:58-82`). -/
  special : Except Panic (Option Value) :=
    match op, l, r with
    | .Eq, .Operand a, .Operand b => .ok (if a = b then some (.Literal (.Boolean true)) else none)
    | .U32Eq, .Operand a, .Operand b => .ok (if a = b then some (.Literal (.Boolean true)) else none)
    | .Neq, .Operand a, .Operand b => .ok (if a = b then some (.Literal (.Boolean false)) else none)
    | .U32Neq, .Operand a, .Operand b => .ok (if a = b then some (.Literal (.Boolean false)) else none)
    | .Sub, .Operand a, .Operand b => .ok (if a = b then some (.Literal (.Integer 0)) else none)
    | .U32Sub, .Operand a, .Operand b => .ok (if a = b then some (.Literal (.Integer 0)) else none)
    | op, .Literal a, .Literal b => do
      let x ← evalBinary op a b
      pure (x.map .Literal)
    | _, _, _ => .ok none

end Mir

/-!
## Specification: what the operators mean

Written without reference to the compiler: the meaning of the operators of the source language on field
elements, 32-bit unsigned integers (wrapping arithmetic) and booleans.
-/
namespace Lang

open Mir

/-- Scalar types. -/
inductive Ty where
  | felt | u32 | bool | unit
deriving DecidableEq, Repr

/-- Run-time scalars. -/
inductive Val where
  | felt (x : M31)
  | u32 (n : ℕ)
  | bool (b : Bool)
  | unit
deriving DecidableEq, Repr

/-- The range of a u32. -/
def U32Range (n : ℕ) : Prop := n < 2 ^ 32

/-- The type of a run-time scalar; a u32 is below `2^32`. -/
def Val.HasTy (v : Val) (t : Ty) : Prop :=
  match v with
  | .felt _ => t = .felt
  | .u32 n => t = .u32 ∧ U32Range n
  | .bool _ => t = .bool
  | .unit => t = .unit

/-- The residue class of a natural number modulo `P`. -/
@[irreducible] def residue (n : ℕ) : M31 := (n : M31)

/-- What a literal of the program text denotes at a given type. -/
def denote (t : Ty) (l : Literal) : Option Val :=
  match l with
  | .Integer n => match t with
    | .felt => some (.felt (residue n.toNat))
    | .u32 => some (.u32 n.toNat)
    | .bool => none
    | .unit => none
  | .Boolean b => match t with
    | .felt => none
    | .u32 => none
    | .bool => some (.bool b)
    | .unit => none
  | .Unit => match t with
    | .felt => none
    | .u32 => none
    | .bool => none
    | .unit => some .unit

/-- Type of the operands of an operator (`==` and `!=` exist on field elements and on booleans). -/
def operandTy : BinaryOp → Ty → Prop
  | .Add, t | .Sub, t | .Mul, t | .Div, t => t = .felt
  | .Less, t | .Greater, t | .LessEqual, t | .GreaterEqual, t => t = .felt
  | .Eq, t | .Neq, t => t = .felt ∨ t = .bool
  | .And, t | .Or, t => t = .bool
  | _, t => t = .u32

instance (op : BinaryOp) (t : Ty) : Decidable (operandTy op t) := by
  cases op <;> unfold operandTy <;> infer_instance

/-- Type of the result of an operator. -/
def resultTy : BinaryOp → Ty
  | .Add | .Sub | .Mul | .Div => .felt
  | .U32Add | .U32Sub | .U32Mul | .U32Div | .U32Rem => .u32
  | .U32BitwiseAnd | .U32BitwiseOr | .U32BitwiseXor => .u32
  | _ => .bool

/-- Meaning of the binary operators; `none` is a fault (division by zero) or an ill-typed application. The
order comparisons have no meaning on field elements. -/
def binary : BinaryOp → Val → Val → Option Val
  | .Add, .felt x, .felt y => some (.felt (x + y))
  | .Sub, .felt x, .felt y => some (.felt (x - y))
  | .Mul, .felt x, .felt y => some (.felt (x * y))
  | .Div, .felt x, .felt y => if y = 0 then none else some (.felt (x / y))
  | .Eq, .felt x, .felt y => some (.bool (decide (x = y)))
  | .Neq, .felt x, .felt y => some (.bool (decide (x ≠ y)))
  | .Eq, .bool x, .bool y => some (.bool (decide (x = y)))
  | .Neq, .bool x, .bool y => some (.bool (decide (x ≠ y)))
  | .And, .bool x, .bool y => some (.bool (x && y))
  | .Or, .bool x, .bool y => some (.bool (x || y))
  | .U32Add, .u32 x, .u32 y => some (.u32 ((x + y) % 2 ^ 32))
  | .U32Sub, .u32 x, .u32 y => some (.u32 ((x + 2 ^ 32 - y) % 2 ^ 32))
  | .U32Mul, .u32 x, .u32 y => some (.u32 ((x * y) % 2 ^ 32))
  | .U32Div, .u32 x, .u32 y => if y = 0 then none else some (.u32 (x / y))
  | .U32Rem, .u32 x, .u32 y => if y = 0 then none else some (.u32 (x % y))
  | .U32Eq, .u32 x, .u32 y => some (.bool (decide (x = y)))
  | .U32Neq, .u32 x, .u32 y => some (.bool (decide (x ≠ y)))
  | .U32Less, .u32 x, .u32 y => some (.bool (decide (x < y)))
  | .U32Greater, .u32 x, .u32 y => some (.bool (decide (x > y)))
  | .U32LessEqual, .u32 x, .u32 y => some (.bool (decide (x ≤ y)))
  | .U32GreaterEqual, .u32 x, .u32 y => some (.bool (decide (x ≥ y)))
  | .U32BitwiseAnd, .u32 x, .u32 y => some (.u32 (Nat.land x y))
  | .U32BitwiseOr, .u32 x, .u32 y => some (.u32 (Nat.lor x y))
  | .U32BitwiseXor, .u32 x, .u32 y => some (.u32 (Nat.xor x y))
  | _, _, _ => none

/-- Meaning of the unary operators. -/
def unary : UnaryOp → Val → Option Val
  | .Neg, .felt x => some (.felt (-x))
  | .Neg, .u32 n => some (.u32 ((2 ^ 32 - n) % 2 ^ 32))
  | .Not, .bool b => some (.bool (!b))
  | _, _ => none

end Lang
end CairoM
