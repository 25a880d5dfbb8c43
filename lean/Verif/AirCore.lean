import Verif.StepSpec

/-!
# The constraint system: rows, constraints, lookups

Model of the part of stwo's `FrameworkEval` interface used by `crates/prover/src/components/**`: evaluating a
component at one row of the trace yields a list of constraint values, which must all be zero
(`eval.add_constraint`), and a list of lookup entries (`eval.add_to_relation`). `eval.add_intermediate(e)` is
modelled by `e`. The lookup argument is modelled by its meaning: for every relation and every tuple the
multiplicities add up to zero in M31 (see DESIGN.md).
-/

namespace CairoM
namespace Air

/-- The relations (`crates/prover/src/relations.rs:24-47`). -/
inductive Rel where
  | memory
  | registers
  | merkle
  | poseidon2
  | bitwise
  | rc8
  | rc16
  | rc20
deriving DecidableEq, Repr

/-- Declared size of a relation (`crates/prover/src/relations.rs:24-47`). -/
def Rel.arity : Rel → ℕ
  | .memory => 6
  | .registers => 3
  | .merkle => 4
  | .poseidon2 => 16
  | .bitwise => 4
  | .rc8 => 1
  | .rc16 => 1
  | .rc20 => 1

/-- `RelationEntry` of stwo: relation, multiplicity, values. -/
structure Entry where
  rel : Rel
  mult : M31
  tuple : List M31
deriving DecidableEq, Repr

/-- stwo combines a tuple as `Σ αⁱ vᵢ - z`, so missing trailing values count as zeros. -/
def Entry.padded (e : Entry) : Entry :=
  { e with tuple := e.tuple ++ List.replicate (e.rel.arity - e.tuple.length) 0 }

/-- The result of evaluating a component at one row. -/
structure Eval where
  constraints : List M31
  entries : List Entry

/-- All constraints vanish. -/
def Eval.Satisfied (ev : Eval) : Prop := ∀ c ∈ ev.constraints, c = 0

instance (ev : Eval) : Decidable ev.Satisfied := by unfold Eval.Satisfied; infer_instance

/-- The entries of one relation, padded, in order. -/
def Eval.of (ev : Eval) (rel : Rel) : List Entry := (ev.entries.filter (·.rel = rel)).map Entry.padded

/-- The table of bitwise operations (`crates/prover/src/preprocessed/bitwise.rs:283-319`): operation 0 is AND, 1 is
OR, 2 is XOR, on bytes. -/
def bitwiseOp (op a b : ℕ) : ℕ := if op = 0 then a &&& b else if op = 1 then a ||| b else a ^^^ b

/-- What a lookup in a preprocessed table asserts: range checks, and membership in the table of bitwise operations.
(Rows with multiplicity zero assert nothing.) -/
def Entry.TableHolds (e : Entry) : Prop :=
  e.mult ≠ 0 →
  match e.rel with
  | .rc8 => ∀ v ∈ e.tuple, v.val < 2 ^ 8
  | .rc16 => ∀ v ∈ e.tuple, v.val < 2 ^ 16
  | .rc20 => ∀ v ∈ e.tuple, v.val < 2 ^ 20
  | .bitwise => ∃ op a b : ℕ, op < 3 ∧ a < 2 ^ 8 ∧ b < 2 ^ 8 ∧
      e.padded.tuple = [(op : M31), (a : M31), (b : M31), (bitwiseOp op a b : M31)]
  | _ => True

/-- All lookups of a row in preprocessed tables hold. -/
def Eval.TablesHold (ev : Eval) : Prop := ∀ e ∈ ev.entries, e.TableHolds

end Air
end CairoM
