import Verif.MirPasses

/-!
# Specification: static single assignment form

Every name has one definition, and no path through the blocks reaches a use of a name without passing its
definition. Written from the textbook definition, without reference to the passes.
-/

namespace CairoM
namespace Lang

open Mir

/-- The names defined by a list of instructions. -/
def defs (is : List Instr) : List ValueId := is.flatMap Instr.destinations

/-- A phi instruction. -/
def isPhi : Instr → Bool
  | .Phi .. => true
  | _ => false

/-- Some path leads from the entry to the start of a block. -/
inductive Reaches (f : Function) : BlockId → Prop where
  | entry : Reaches f 0
  | step {b : BlockId} {blk : Block} {t : BlockId} : Reaches f b → f.blocks[b]? = some blk →
      t ∈ blk.term.targets → Reaches f t

/-- Some path leads from the entry to the start of a block without a definition of `v` on it. -/
inductive Avoids (f : Function) (v : ValueId) : BlockId → Prop where
  | entry : v ∉ f.params → Avoids f v 0
  | step {b : BlockId} {blk : Block} {t : BlockId} : Avoids f v b → f.blocks[b]? = some blk →
      v ∉ defs blk.instrs → t ∈ blk.term.targets → Avoids f v t

/-- Static single assignment form. -/
structure Ssa (f : Function) : Prop where
  /-- Every name is defined once. -/
  single : (f.params ++ defs (f.blocks.flatMap Block.instrs)).Nodup
  /-- The phi instructions of a block come first. -/
  head : ∀ blk ∈ f.blocks, ∃ phis rest, blk.instrs = phis ++ rest ∧ (∀ i ∈ phis, isPhi i = true) ∧
    ∀ i ∈ rest, isPhi i = false
  /-- The operands of an instruction are defined on all paths to it. -/
  instrs : ∀ (b : ℕ) (blk : Block), f.blocks[b]? = some blk → ∀ pre i post, blk.instrs = pre ++ i :: post →
    isPhi i = false → ∀ v ∈ i.uses, Avoids f v b → v ∈ defs pre
  /-- The operands of a phi instruction are defined on all paths to the end of the predecessor. -/
  phis : ∀ (b : ℕ) (blk : Block), f.blocks[b]? = some blk → ∀ d ty ss, Instr.Phi d ty ss ∈ blk.instrs →
    ∀ p v, (p, Value.Operand v) ∈ ss → ∀ bp, f.blocks[p]? = some bp → b ∈ bp.term.targets →
      Avoids f v p → v ∈ defs bp.instrs
  /-- The operands of a terminator are defined on all paths to it. -/
  term : ∀ (b : ℕ) (blk : Block), f.blocks[b]? = some blk → ∀ v ∈ blk.term.uses, Avoids f v b →
    v ∈ defs blk.instrs
  /-- The names that carry the types of the returned values are not defined by instructions. -/
  returns : ∀ r ∈ f.returns, r ∉ defs (f.blocks.flatMap Block.instrs)

end Lang
end CairoM
