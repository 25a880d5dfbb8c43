import Verif.AggregateProps

/-!
# Words of values held in the frame (C64)
-/

namespace CairoM
namespace Codegen

open Mir Lang Relation Abi

/-- The cells of the frame from offset `off` upwards hold the words `ws`. -/
def Words (m : Isa.Mem) (fp : M31) (off : ℤ) (ws : List M31) : Prop :=
  ∀ (i : ℕ) x, ws[i]? = some x → Isa.felt m (adr fp (off + i)) = some x

/-- `xs` are the `k` words of the value `v` about to be stored at offset `dst`: an operand held in the frame between
`lo` and `hi` whose cells are those of the destination or disjoint from them, an integer literal of one word (a felt)
or two (a `u32`, low half first), a boolean, or the unit value. -/
def NewWords (l : Layout) (m : Isa.Mem) (fp : M31) (lo hi dst : ℤ) (k : ℕ) (v : Value) (xs : List M31) : Prop :=
  match v with
  | .Operand id => ∃ s, l.values id = some s ∧ lo ≤ s.off ∧ s.off + k ≤ hi ∧
      (s.off = dst ∨ s.off + k ≤ dst ∨ dst + k ≤ s.off) ∧ xs.length = k ∧ Words m fp s.off xs
  | .Literal (.Integer c) => (k = 1 ∧ xs = [residue c.toNat]) ∨
      (k = 2 ∧ xs = [residue (c.toNat % 2 ^ 16), residue (c.toNat / 2 ^ 16)])
  | .Literal (.Boolean c) => k = 1 ∧ xs = [if c then 1 else 0]
  | .Literal .Unit => k = 0 ∧ xs = []
  | .Error => False

/-- The words `ws` of an aggregate after those from position `o` on have been replaced by `xs`. -/
def replaced (ws : List M31) (o : ℕ) (xs : List M31) : List M31 := ws.take o ++ xs ++ ws.drop (o + xs.length)

/-- `k` words from position `o` on. -/
def slice (ws : List M31) (o k : ℕ) : List M31 := (ws.drop o).take k

end Codegen
end CairoM
