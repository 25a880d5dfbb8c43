import Verif.FunctionSpec
import Verif.MirPasses

/-!
# Specification: programs with calls

What the functions of a module mean, and the conditions on a function with calls under which its emitted code is
claimed to compute what it means. They say nothing about how the code generator works, except for which results
it computes outside the slot reserved for them (`Moves`).
-/

namespace CairoM
namespace Codegen

open Mir Lang

/-- Meaning of the functions of a module. The second number bounds the depth of the calls, the first the number of
blocks each call executes. -/
def callTable (md : Module) (n : ℕ) : ℕ → Calls
  | 0 => fun _ _ => none
  | d + 1 => fun c args =>
    match md[c]? with
    | none => none
    | some f =>
      match run (callTable md n d) f n args with
      | .returned vs => some vs
      | _ => none

/-- Results computed outside the slot reserved for them: results of calls, arguments computed by the instruction
before the call, values computed in the block that returns them. -/
def Moves (term : Terminator) (i : Instr) (next : Option Instr) (d : ValueId) : Prop :=
  d ∈ i.destinations ∧
    ((∃ ds c args sig, i = .Call ds c args sig) ∨
      (∃ ds c args sig, next = some (.Call ds c args sig) ∧ .Operand d ∈ args) ∨ Returns term d)

/-- The block moves the value. -/
def MovedIn (blk : Block) (d : ValueId) : Prop :=
  ∃ pre i post, blk.instrs = pre ++ i :: post ∧ Moves blk.term i post.head? d

/-- The operands of the instructions are among the values `T` or computed before. -/
def Defined (T : ValueId → Prop) : List Instr → Terminator → Prop
  | [], term => ∀ v ∈ term.uses, T v
  | i :: is, term => (∀ v ∈ i.uses, T v) ∧ Defined (fun v => T v ∨ v ∈ i.destinations) is term

/-- The values `live k` suffice to execute block `k` and what follows, and a value that is moved is computed at
one place, which comes before the blocks where it is live. -/
structure Ordered (f : Function) (live : BlockId → ValueId → Prop) : Prop where
  entry : ∀ v, live 0 v → v ∈ f.params
  uses : ∀ k blk, f.blocks[k]? = some blk → Defined (live k) blk.instrs blk.term
  succ : ∀ k blk, f.blocks[k]? = some blk → ∀ t ∈ blk.term.targets, ∀ v, live t v →
    live k v ∨ ∃ i ∈ blk.instrs, v ∈ i.destinations
  params : ∀ d ∈ Layout.locals f, d ∉ f.params
  once : ∀ blk ∈ f.blocks, ∀ d, MovedIn blk d → (Layout.locals f).count d = 1
  order : ∀ j blk, f.blocks[j]? = some blk → ∀ d, MovedIn blk d → ∀ k, live k d → j < k ∧ ¬ Returns blk.term d

/-- A scalar instruction, or a call with at least one result. -/
def InstrCalls (types : ValueId → Option MirType) : Instr → Prop
  | .Call ds _ _ _ => ds ≠ []
  | i => InstrSimple types i

/-- A well-typed scalar function with calls. -/
structure Calling (f : Function) (live : BlockId → ValueId → Prop) : Prop where
  instrs : ∀ b ∈ f.blocks, ∀ i ∈ b.instrs, InstrTyped f.types i ∧ InstrCalls f.types i
  terms : ∀ b ∈ f.blocks, TermTyped f b.term
  ordered : Ordered f live

/-- Calls name functions of the module and give their signatures. -/
def CallsMatch (md : Module) (f : Function) : Prop :=
  ∀ b ∈ f.blocks, ∀ ds c args sig, .Call ds c args sig ∈ b.instrs →
    ∃ g, md[c]? = some g ∧ g.params.map g.types = sig.params.map some ∧ g.returns.map g.types = sig.returns.map some

end Codegen
end CairoM
