import Verif.CodegenSem
import Verif.MirTyping

/-!
# Specification: functions the code generator is expected to translate faithfully

Typing rules for terminators and the conditions on a function under which its emitted code is claimed to compute
what the function means. They say nothing about the code generator.
-/

namespace CairoM
namespace Codegen

open Mir Lang Relation

/-- Scalars stored one after the other from slot `off` on. -/
def HoldsAll (m : Isa.Mem) (fp : M31) : ℤ → List Val → Prop
  | _, [] => True
  | off, v :: vs => Holds m fp off v ∧ HoldsAll m fp (off + width v) vs

/-- Number of slots of a list of scalars. -/
def widths (vs : List Val) : ℕ := (vs.map width).sum

/-- An integer literal that is written as a field element. -/
def CanonValue : Value → Prop
  | .Literal l => Canon l
  | _ => True

/-- The value is among those the terminator returns. -/
def Returns : Terminator → ValueId → Prop
  | .Return vs, d => .Operand d ∈ vs
  | _, _ => False

instance (t : Terminator) (d : ValueId) : Decidable (Returns t d) := by
  cases t <;> unfold Returns <;> infer_instance

/-- The types an operator takes. -/
def operandTypes : BinaryOp → List MirType
  | .Add | .Sub | .Mul | .Div => [.Felt]
  | .Eq | .Neq => [.Felt, .Bool]
  | .And | .Or => [.Bool]
  | .Less | .Greater | .LessEqual | .GreaterEqual => [.Felt]
  | _ => [.U32]

/-- An operand that is a name has one of the types. -/
def OperandTyped (types : ValueId → Option MirType) (ts : List MirType) : Value → Prop
  | .Operand v => ∃ t ∈ ts, types v = some t
  | _ => True

/-- Typing of a terminator: a condition is a boolean or a field element, compared values have the type of the
operator, literals compared as field elements are below the modulus, and the returned values have the declared
types. -/
def TermTyped (f : Function) : Terminator → Prop
  | .If c _ _ => OperandTyped f.types [.Bool, .Felt] c
  | .BranchCmp op l r _ _ => (LiteralOk op l ∧ LiteralOk op r) ∧
    OperandTyped f.types (operandTypes op) l ∧ OperandTyped f.types (operandTypes op) r
  | .Return vs => List.Forall₂ (fun v r => ∃ t, f.types r = some t ∧ HasType f.types v t) vs f.returns
  | _ => True

/-- A scalar instruction other than a call: operands have the type of the operator, a connective does not
overwrite its own operand, and asserted literals are below the modulus. -/
def InstrSimple (types : ValueId → Option MirType) : Instr → Prop
  | .Assign _ _ _ | .UnaryOp _ _ _ | .Cast _ _ _ _ | .Nop => True
  | .BinaryOp op d l r =>
    (OperandTyped types (operandTypes op) l ∧ OperandTyped types (operandTypes op) r) ∧
      (op = .And ∨ op = .Or → l ≠ .Operand d ∧ r ≠ .Operand d)
  | .AssertEq l r => (CanonValue l ∧ CanonValue r) ∧
    OperandTyped types [.Felt, .Bool] l ∧ OperandTyped types [.Felt, .Bool] r
  | _ => False

/-- A value that a block both assigns and returns is assigned nowhere else and is no parameter. In single
assignment form this holds of every value. -/
def ReturnsOnce (f : Function) : Prop :=
  ∀ b ∈ f.blocks, ∀ i ∈ b.instrs, ∀ d ∈ i.destinations, Returns b.term d →
    (Layout.locals f).count d = 1 ∧ d ∉ f.params

/-- A well-typed scalar function without calls. -/
structure Simple (f : Function) : Prop where
  instrs : ∀ b ∈ f.blocks, ∀ i ∈ b.instrs, InstrTyped f.types i ∧ InstrSimple f.types i
  terms : ∀ b ∈ f.blocks, TermTyped f b.term
  once : ReturnsOnce f

/-- Slots a function may write: everything from its parameters to the end of its frame except the two saved
registers. -/
def Body (lo hi : ℤ) (o : ℤ) : Prop := lo ≤ o ∧ o < hi ∧ o ≠ -2 ∧ o ≠ -1

end Codegen
end CairoM
