import Verif.FieldUpdateLemmas

/-!
# Values listed in a struct or tuple literal (C94)
-/

namespace CairoM
namespace Codegen

open Mir Lang Relation Abi

/-- `xs` are the `k` words of a value listed in a literal that is built in the cells from `base` to `base + size`: an
operand held in the frame outside these cells, an integer literal of one word (a felt) or two (a `u32`, low half
first), a boolean, or the unit value. -/
def Listed (l : Layout) (m : Isa.Mem) (fp : M31) (lo hi base : ℤ) (size k : ℕ) (v : Value) (xs : List M31) : Prop :=
  match v with
  | .Operand id => ∃ s, l.values id = some s ∧ lo ≤ s.off ∧ s.off + k ≤ hi ∧
      (s.off + k ≤ base ∨ base + size ≤ s.off) ∧ xs.length = k ∧ Words m fp s.off xs
  | .Literal (.Integer c) => (k = 1 ∧ xs = [residue c.toNat]) ∨
      (k = 2 ∧ xs = [residue (c.toNat % 2 ^ 16), residue (c.toNat / 2 ^ 16)])
  | .Literal (.Boolean c) => k = 1 ∧ xs = [if c then 1 else 0]
  | .Literal .Unit => k = 0 ∧ xs = []
  | .Error => False

/-- An operand has the type `t`; literals fit any type. -/
def ElemType (types : ValueId → Option MirType) (v : Value) (t : MirType) : Prop :=
  match v with
  | .Operand id => types id = some t
  | .Literal _ => True
  | .Error => False

/-- The cells given to a new value: its slot if it has one, else the free cells above the frame. -/
def homeOf (l : Layout) (dest : ValueId) : ℤ :=
  match l.values dest with
  | some s => s.off
  | none => l.frame

end Codegen
end CairoM
