import Verif.AirFelt
import Verif.AirU32
import Mathlib.Data.Fin.VecNotation
import Mathlib.Data.List.OfFn

/-!
# The whole constraint system: all components, public data, acceptance

The components that are not opcode circuits (`memory`, `clock_update`, `merkle`, `poseidon2`, the preprocessed tables),
the public data, and what it means for an assignment of rows to be accepted by the verifier.
-/

namespace CairoM
namespace Air

/-! ### Opcode components -/

/-- The opcode components (`crates/prover/src/components/opcodes/mod.rs:223-268`, in order). -/
inductive Comp where
  | assertEqFpImm
  | callAbsImm
  | jmpImm
  | jnzFpImm
  | ret
  | storeImm
  | storeFpFp
  | storeFpImm
  | doubleDerefFpImm
  | doubleDerefFpFp
  | storeFramePointer
  | u32StoreImm
  | u32StoreAddFpImm
  | u32StoreMulFpImm
  | u32StoreDivFpImm
  | u32StoreEqFpFp
  | u32StoreEqFpImm
  | u32StoreLtFpImm
  | u32StoreLtFpFp
  | u32StoreAddFpFp
  | u32StoreSubFpFp
  | u32StoreMulFpFp
  | u32StoreDivFpFp
  | u32StoreBitwiseFpFp
  | u32StoreBitwiseFpImm
  | storeLeFpImm
deriving DecidableEq, Repr

/-- All opcode components, in the order of `crates/prover/src/components/opcodes/mod.rs:223-268`. -/
def Comp.all : List Comp := [
    .assertEqFpImm, .callAbsImm, .jmpImm, .jnzFpImm, .ret, .storeImm, .storeFpFp, .storeFpImm, .doubleDerefFpImm,
  .doubleDerefFpFp, .storeFramePointer, .u32StoreImm, .u32StoreAddFpImm, .u32StoreMulFpImm, .u32StoreDivFpImm,
  .u32StoreEqFpFp, .u32StoreEqFpImm, .u32StoreLtFpImm, .u32StoreLtFpFp, .u32StoreAddFpFp, .u32StoreSubFpFp,
  .u32StoreMulFpFp, .u32StoreDivFpFp, .u32StoreBitwiseFpFp, .u32StoreBitwiseFpImm, .storeLeFpImm]

/-- The columns of a component. -/
def Comp.Row : Comp → Type
  | .assertEqFpImm => AssertEqFpImm.Row
  | .callAbsImm => CallAbsImm.Row
  | .jmpImm => JmpImm.Row
  | .jnzFpImm => JnzFpImm.Row
  | .ret => Ret.Row
  | .storeImm => StoreImm.Row
  | .storeFpFp => StoreFpFp.Row
  | .storeFpImm => StoreFpImm.Row
  | .doubleDerefFpImm => DoubleDerefFpImm.Row
  | .doubleDerefFpFp => DoubleDerefFpFp.Row
  | .storeFramePointer => StoreFramePointer.Row
  | .u32StoreImm => U32StoreImm.Row
  | .u32StoreAddFpImm => U32StoreAddFpImm.Row
  | .u32StoreMulFpImm => U32StoreMulFpImm.Row
  | .u32StoreDivFpImm => U32StoreDivFpImm.Row
  | .u32StoreEqFpFp => U32StoreEqFpFp.Row
  | .u32StoreEqFpImm => U32StoreEqFpImm.Row
  | .u32StoreLtFpImm => U32StoreLtFpImm.Row
  | .u32StoreLtFpFp => U32StoreLtFpFp.Row
  | .u32StoreAddFpFp => U32StoreAddFpFp.Row
  | .u32StoreSubFpFp => U32StoreSubFpFp.Row
  | .u32StoreMulFpFp => U32StoreMulFpFp.Row
  | .u32StoreDivFpFp => U32StoreDivFpFp.Row
  | .u32StoreBitwiseFpFp => U32StoreBitwiseFpFp.Row
  | .u32StoreBitwiseFpImm => U32StoreBitwiseFpImm.Row
  | .storeLeFpImm => StoreLeFpImm.Row

/-- `evaluate` of a component. -/
def Comp.eval : (c : Comp) → c.Row → Eval
  | .assertEqFpImm, r => AssertEqFpImm.evaluate r
  | .callAbsImm, r => CallAbsImm.evaluate r
  | .jmpImm, r => JmpImm.evaluate r
  | .jnzFpImm, r => JnzFpImm.evaluate r
  | .ret, r => Ret.evaluate r
  | .storeImm, r => StoreImm.evaluate r
  | .storeFpFp, r => StoreFpFp.evaluate r
  | .storeFpImm, r => StoreFpImm.evaluate r
  | .doubleDerefFpImm, r => DoubleDerefFpImm.evaluate r
  | .doubleDerefFpFp, r => DoubleDerefFpFp.evaluate r
  | .storeFramePointer, r => StoreFramePointer.evaluate r
  | .u32StoreImm, r => U32StoreImm.evaluate r
  | .u32StoreAddFpImm, r => U32StoreAddFpImm.evaluate r
  | .u32StoreMulFpImm, r => U32StoreMulFpImm.evaluate r
  | .u32StoreDivFpImm, r => U32StoreDivFpImm.evaluate r
  | .u32StoreEqFpFp, r => U32StoreEqFpFp.evaluate r
  | .u32StoreEqFpImm, r => U32StoreEqFpImm.evaluate r
  | .u32StoreLtFpImm, r => U32StoreLtFpImm.evaluate r
  | .u32StoreLtFpFp, r => U32StoreLtFpFp.evaluate r
  | .u32StoreAddFpFp, r => U32StoreAddFpFp.evaluate r
  | .u32StoreSubFpFp, r => U32StoreSubFpFp.evaluate r
  | .u32StoreMulFpFp, r => U32StoreMulFpFp.evaluate r
  | .u32StoreDivFpFp, r => U32StoreDivFpFp.evaluate r
  | .u32StoreBitwiseFpFp, r => U32StoreBitwiseFpFp.evaluate r
  | .u32StoreBitwiseFpImm, r => U32StoreBitwiseFpImm.evaluate r
  | .storeLeFpImm, r => StoreLeFpImm.evaluate r

/-- The component that proves an instruction, by the table `crates/prover/src/components/opcodes/mod.rs:223-268`. Print
instructions have none (`:196-197`, "Unsound opcodes"). -/
def Comp.ofInstruction : Instruction → Option Comp
  | .AssertEqFpImm .. => some .assertEqFpImm
  | .CallAbsImm .. => some .callAbsImm
  | .JmpAbsImm .. => some .jmpImm
  | .JmpRelImm .. => some .jmpImm
  | .JnzFpImm .. => some .jnzFpImm
  | .Ret .. => some .ret
  | .StoreImm .. => some .storeImm
  | .StoreAddFpFp .. => some .storeFpFp
  | .StoreSubFpFp .. => some .storeFpFp
  | .StoreMulFpFp .. => some .storeFpFp
  | .StoreDivFpFp .. => some .storeFpFp
  | .StoreAddFpImm .. => some .storeFpImm
  | .StoreMulFpImm .. => some .storeFpImm
  | .StoreDoubleDerefFp .. => some .doubleDerefFpImm
  | .StoreToDoubleDerefFpImm .. => some .doubleDerefFpImm
  | .StoreDoubleDerefFpFp .. => some .doubleDerefFpFp
  | .StoreToDoubleDerefFpFp .. => some .doubleDerefFpFp
  | .StoreFramePointer .. => some .storeFramePointer
  | .U32StoreImm .. => some .u32StoreImm
  | .U32StoreAddFpImm .. => some .u32StoreAddFpImm
  | .U32StoreMulFpImm .. => some .u32StoreMulFpImm
  | .U32StoreDivRemFpImm .. => some .u32StoreDivFpImm
  | .U32StoreEqFpFp .. => some .u32StoreEqFpFp
  | .U32StoreEqFpImm .. => some .u32StoreEqFpImm
  | .U32StoreLtFpImm .. => some .u32StoreLtFpImm
  | .U32StoreLtFpFp .. => some .u32StoreLtFpFp
  | .U32StoreAddFpFp .. => some .u32StoreAddFpFp
  | .U32StoreSubFpFp .. => some .u32StoreSubFpFp
  | .U32StoreMulFpFp .. => some .u32StoreMulFpFp
  | .U32StoreDivRemFpFp .. => some .u32StoreDivFpFp
  | .U32StoreAndFpFp .. => some .u32StoreBitwiseFpFp
  | .U32StoreOrFpFp .. => some .u32StoreBitwiseFpFp
  | .U32StoreXorFpFp .. => some .u32StoreBitwiseFpFp
  | .U32StoreAndFpImm .. => some .u32StoreBitwiseFpImm
  | .U32StoreOrFpImm .. => some .u32StoreBitwiseFpImm
  | .U32StoreXorFpImm .. => some .u32StoreBitwiseFpImm
  | .StoreLeFpImm .. => some .storeLeFpImm
  | .PrintM31 .. => none
  | .PrintU32 .. => none

/-! ### Memory boundary -/

namespace MemoryBoundary

/-- Trace columns (`crates/prover/src/components/memory.rs:300-308`). -/
structure Row where
  (enabler address clock value0 value1 value2 value3 multiplicity root : M31)

/-- The depth of the leaves (`crates/prover/src/adapter/merkle.rs:62`). -/
def TREE_HEIGHT : M31 := 30

/-- `evaluate` (`crates/prover/src/components/memory.rs:294-366`): note that `multiplicity` is in no constraint. -/
def evaluate (r : Row) : Eval :=
  { constraints := [r.enabler * (1 - r.enabler)],
    entries := [
      ⟨.memory, r.multiplicity, [r.address, r.clock, r.value0, r.value1, r.value2, r.value3]⟩,
      ⟨.merkle, -r.enabler, [r.address * 4, TREE_HEIGHT, r.value0, r.root]⟩,
      ⟨.merkle, -r.enabler, [r.address * 4 + 1, TREE_HEIGHT, r.value1, r.root]⟩,
      ⟨.merkle, -r.enabler, [r.address * 4 + 2, TREE_HEIGHT, r.value2, r.root]⟩,
      ⟨.merkle, -r.enabler, [r.address * 4 + 3, TREE_HEIGHT, r.value3, r.root]⟩] }

end MemoryBoundary

/-! ### Clock update -/

namespace ClockUpdate

/-- Trace columns (`crates/prover/src/components/clock_update.rs:221-227`). -/
structure Row where
  (enabler address prev_clk value0 value1 value2 value3 : M31)

/-- `crates/prover/src/adapter/memory.rs:16`. -/
def RC20_LIMIT : M31 := 2 ^ 20 - 1

/-- `evaluate` (`crates/prover/src/components/clock_update.rs:220-263`). -/
def evaluate (r : Row) : Eval :=
  { constraints := [r.enabler * (1 - r.enabler)],
    entries := [
      ⟨.memory, -r.enabler, [r.address, r.prev_clk, r.value0, r.value1, r.value2, r.value3]⟩,
      ⟨.memory, r.enabler, [r.address, r.prev_clk + RC20_LIMIT, r.value0, r.value1, r.value2, r.value3]⟩] }

end ClockUpdate

/-! ### Merkle -/

namespace MerkleNode

/-- Trace columns (`crates/prover/src/components/merkle.rs:301-310`). -/
structure Row where
  (enabler index depth left_value right_value parent_value left_multiplicity right_multiplicity : M31)
  (parent_multiplicity root : M31)

/-- `evaluate` (`crates/prover/src/components/merkle.rs:296-379`): note that the multiplicities are independent of the
enabler. -/
def evaluate (r : Row) : Eval :=
  { constraints := [
      r.enabler * (1 - r.enabler),
      r.left_multiplicity * (r.left_multiplicity - 1) * (r.left_multiplicity - 2),
      r.right_multiplicity * (r.right_multiplicity - 1) * (r.right_multiplicity - 2),
      r.parent_multiplicity * (r.parent_multiplicity - 1) * (r.parent_multiplicity - 2)],
    entries := [
      ⟨.merkle, r.left_multiplicity, [r.index, r.depth, r.left_value, r.root]⟩,
      ⟨.merkle, r.right_multiplicity, [r.index + 1, r.depth, r.right_value, r.root]⟩,
      ⟨.merkle, -r.parent_multiplicity, [r.index * (2 : M31)⁻¹, r.depth - 1, r.parent_value, r.root]⟩,
      ⟨.poseidon2, r.enabler, [r.left_value, r.right_value]⟩,
      ⟨.poseidon2, -r.enabler, [r.parent_value]⟩] }

end MerkleNode

/-! ### Poseidon2 -/

namespace Poseidon2

/-- A state of the permutation; `T = 16` (`crates/prover/src/poseidon2.rs:11`). -/
abbrev State := Fin 16 → M31

/-- The round constants and the diagonal of the internal matrix. In the code they are taken from an external crate
(`crates/prover/src/poseidon2.rs:15-16`); here they are parameters. -/
structure Consts where
  external : ℕ → State
  internal : ℕ → M31
  matrix : State

/-- `apply_m4` (`crates/prover/src/components/poseidon2.rs:94-109`). -/
def applyM4 (x0 x1 x2 x3 : M31) : Fin 4 → M31 :=
  let t0 := x0 + x1
  let t02 := t0 + t0
  let t1 := x2 + x3
  let t12 := t1 + t1
  let t2 := x1 + x1 + t1
  let t3 := x3 + x3 + t0
  let t4 := t12 + t12 + t3
  let t5 := t02 + t02 + t2
  let t6 := t3 + t5
  let t7 := t2 + t4
  ![t6, t5, t7, t4]

/-- `apply_external_round_matrix` (`crates/prover/src/components/poseidon2.rs:113-138`); the two loops are written out as
two maps. -/
def applyExternal (s : State) : State :=
  let a := applyM4 (s 0) (s 1) (s 2) (s 3)
  let b := applyM4 (s 4) (s 5) (s 6) (s 7)
  let c := applyM4 (s 8) (s 9) (s 10) (s 11)
  let d := applyM4 (s 12) (s 13) (s 14) (s 15)
  let t : Fin 4 → M31 := fun j => a j + b j + c j + d j
  ![a 0 + t 0, a 1 + t 1, a 2 + t 2, a 3 + t 3, b 0 + t 0, b 1 + t 1, b 2 + t 2, b 3 + t 3,
    c 0 + t 0, c 1 + t 1, c 2 + t 2, c 3 + t 3, d 0 + t 0, d 1 + t 1, d 2 + t 2, d 3 + t 3]

/-- `apply_internal_round_matrix` (`crates/prover/src/components/poseidon2.rs:142-154`). -/
def applyInternal (c : Consts) (s : State) : State :=
  let sum := (List.ofFn fun i : Fin 15 => s i.succ).foldl (· + ·) (s 0)
  fun i => s i * c.matrix i + sum

/-- Trace columns (`crates/prover/src/components/poseidon2.rs:393-394` and the `next_trace_mask` of the loops): for every
full round three states, for every partial round three values. Only the indices below 8 and 14 are columns. -/
structure Row where
  enabler : M31
  input : State
  full : ℕ → Fin 3 → State
  part : ℕ → Fin 3 → M31

/-- The sixteen constraints `enabler * (s - m)` of a state written to the trace. -/
def pin (enabler : M31) (s m : State) : List M31 := List.ofFn fun i => enabler * (s i - m i)

/-- One full round (`crates/prover/src/components/poseidon2.rs:401-431`, `:458-488`): the next state and the
constraints. -/
def fullRound (c : Consts) (r : Row) (k : ℕ) (s : State) : State × List M31 :=
  let s1 : State := fun i => s i + c.external k i
  let s2 : State := fun i => r.full k 0 i * r.full k 0 i
  let s3 : State := applyExternal fun i => r.full k 1 i * s1 i
  (r.full k 2,
    pin r.enabler (fun i => s1 i * s1 i) (r.full k 0) ++ pin r.enabler s2 (r.full k 1) ++ pin r.enabler s3 (r.full k 2))

/-- One partial round (`crates/prover/src/components/poseidon2.rs:434-455`). -/
def partialRound (c : Consts) (r : Row) (k : ℕ) (s : State) : State × List M31 :=
  let x := s 0 + c.internal k
  (applyInternal c (Function.update s 0 (r.part k 2)),
    [r.enabler * (x * x - r.part k 0), r.enabler * (r.part k 0 * r.part k 0 - r.part k 1),
      r.enabler * (x * r.part k 1 - r.part k 2)])

/-- The rounds in order: `FULL_ROUNDS = 8`, `PARTIAL_ROUNDS = 14` (`crates/prover/src/poseidon2.rs:12-13`). `false` is a
full round. -/
def schedule : List (Bool × ℕ) :=
  (List.range 4).map (false, ·) ++ (List.range 14).map (true, ·) ++ (List.range' 4 4).map (false, ·)

/-- All rounds: final state and constraints. -/
def rounds (c : Consts) (r : Row) : State × List M31 :=
  schedule.foldl (fun acc k =>
    let n := if k.1 then partialRound c r k.2 acc.1 else fullRound c r k.2 acc.1
    (n.1, acc.2 ++ n.2)) (applyExternal r.input, [])

/-- `evaluate` (`crates/prover/src/components/poseidon2.rs:392-505`): the enabler is not constrained to be a bit, unlike
in every other component. -/
def evaluate (c : Consts) (r : Row) : Eval :=
  { constraints := (rounds c r).2,
    entries := [
      ⟨.poseidon2, -r.enabler, List.ofFn r.input⟩,
      ⟨.poseidon2, r.enabler, [(rounds c r).1 0]⟩] }

end Poseidon2

/-! ### Preprocessed tables -/

/-- The column of range-checked values (`crates/prover/src/preprocessed/range_check/mod.rs:62-67`). -/
def rangeColumn (bits : ℕ) : List M31 := (List.range (2 ^ bits)).map fun i : ℕ => (i : M31)

/-- `BitwiseCol::generate_column_values` (`crates/prover/src/preprocessed/bitwise.rs:283-319`). -/
def bitwiseColumn (operandBits totalSize col : ℕ) : List M31 :=
  let opSize := 2 ^ (operandBits * 2)
  let mask := 2 ^ operandBits - 1
  let values := (List.range 3).flatMap fun op : ℕ => (List.range opSize).map fun i : ℕ =>
    let input1 := i >>> operandBits
    let input2 := i &&& mask
    match col with
    | 0 => (op : M31)
    | 1 => (input1 : M31)
    | 2 => (input2 : M31)
    | _ => ((match op with
        | 0 => input1 &&& input2
        | 1 => input1 ||| input2
        | _ => input1 ^^^ input2 : ℕ) : M31)
  values ++ List.replicate (totalSize - values.length) 0

/-- `evaluate` of a range-check component at all rows
(`crates/prover/src/preprocessed/range_check/range_check_macro.rs:171-184`): the multiplicity column is free. -/
def rangeEntries (rel : Rel) (bits : ℕ) (mult : ℕ → M31) : List Entry :=
  (rangeColumn bits).zipIdx.map fun vi => ⟨rel, mult vi.2, [vi.1]⟩

/-- Row `i` of the bitwise table: its four preprocessed columns
(`crates/prover/src/preprocessed/bitwise.rs:212-215`, `:328-336`). -/
def bitwiseRow (i : ℕ) : List M31 :=
  [0, 1, 2, 3].map fun col => (bitwiseColumn 8 (2 ^ 18) col).getD i 0

/-- `evaluate` of the bitwise component at all rows (`crates/prover/src/preprocessed/bitwise.rs:211-228`). -/
def bitwiseEntries (mult : ℕ → M31) : List Entry :=
  (List.range (2 ^ 18)).map fun i => ⟨.bitwise, mult i, bitwiseRow i⟩

/-! ### Public data -/

/-- An entry of the public memory (`crates/prover/src/public_data.rs:59-64`); absent entries (`None`) are dropped. -/
structure PublicEntry where
  addr : M31
  value : QM31
  clock : M31

/-- `PublicData` (`crates/prover/src/public_data.rs:213-228`). -/
structure PublicData where
  (initialPc initialFp finalPc finalFp clock initialRoot finalRoot : M31)
  (program input output : List PublicEntry)

/-- The contribution of one public memory entry (`crates/prover/src/public_data.rs:331-377`). -/
def PublicEntry.entries (mult root : M31) (e : PublicEntry) : List Entry :=
  [⟨.memory, mult, [e.addr, e.clock, e.value.l0, e.value.l1, e.value.l2, e.value.l3]⟩,
    ⟨.merkle, -1, [4 * e.addr, MemoryBoundary.TREE_HEIGHT, e.value.l0, root]⟩,
    ⟨.merkle, -1, [4 * e.addr + 1, MemoryBoundary.TREE_HEIGHT, e.value.l1, root]⟩,
    ⟨.merkle, -1, [4 * e.addr + 2, MemoryBoundary.TREE_HEIGHT, e.value.l2, root]⟩,
    ⟨.merkle, -1, [4 * e.addr + 3, MemoryBoundary.TREE_HEIGHT, e.value.l3, root]⟩]

/-- `initial_logup_sum` (`crates/prover/src/public_data.rs:287-393`). -/
def PublicData.entries (d : PublicData) : List Entry :=
  [⟨.registers, 1, [d.initialPc, d.initialFp, 1]⟩,
    ⟨.registers, -1, [d.finalPc, d.finalFp, d.clock + 1]⟩,
    ⟨.merkle, 1, [0, 0, d.initialRoot, d.initialRoot]⟩,
    ⟨.merkle, 1, [0, 0, d.finalRoot, d.finalRoot]⟩] ++
  d.program.flatMap (PublicEntry.entries 1 d.initialRoot) ++
  d.input.flatMap (PublicEntry.entries 1 d.initialRoot) ++
  d.output.flatMap (PublicEntry.entries (-1) d.finalRoot)

/-! ### Acceptance -/

/-- An assignment of the trace columns of every component (`crates/prover/src/components/mod.rs:28-39`,
`Claim`). -/
structure Trace where
  ops : (c : Comp) → List c.Row
  memory : List MemoryBoundary.Row
  clockUpdate : List ClockUpdate.Row
  merkle : List MerkleNode.Row
  poseidon2 : List Poseidon2.Row
  rc8 : ℕ → M31
  rc16 : ℕ → M31
  rc20 : ℕ → M31
  bitwise : ℕ → M31

/-- The evaluations of the opcode components at all rows. -/
def Trace.opEvals (t : Trace) : List Eval := Comp.all.flatMap fun c => (t.ops c).map c.eval

/-- The evaluations of all components with trace columns at all rows. -/
def Trace.evals (c : Poseidon2.Consts) (t : Trace) : List Eval :=
  t.opEvals ++ t.memory.map MemoryBoundary.evaluate ++ t.clockUpdate.map ClockUpdate.evaluate ++
    t.merkle.map MerkleNode.evaluate ++ t.poseidon2.map (Poseidon2.evaluate c)

/-- The lookups of the preprocessed tables. -/
def Trace.tableEntries (t : Trace) : List Entry :=
  rangeEntries .rc8 8 t.rc8 ++ rangeEntries .rc16 16 t.rc16 ++ rangeEntries .rc20 20 t.rc20 ++ bitwiseEntries t.bitwise

/-- All lookups. -/
def Trace.entries (c : Poseidon2.Consts) (t : Trace) : List Entry :=
  (t.evals c).flatMap Eval.entries ++ t.tableEntries

/-- The sum of the multiplicities of a tuple in a relation. -/
def total (es : List Entry) (rel : Rel) (tuple : List M31) : M31 :=
  ((es.filter fun e => e.rel = rel ∧ e.padded.tuple = tuple).map Entry.mult).sum

/-- The lookup argument holds: the multiplicities of every tuple in every relation add up to zero. -/
def LookupsBalance (es : List Entry) : Prop := ∀ rel tuple, total es rel tuple = 0

/-- Column lengths are powers of two. -/
def PowerOfTwo {α : Type} (l : List α) : Prop := ∃ k, l.length = 2 ^ k

/-- The columns of every component have a length that is a power of two. -/
structure Trace.Shaped (t : Trace) : Prop where
  ops : ∀ c, PowerOfTwo (t.ops c)
  memory : PowerOfTwo t.memory
  clockUpdate : PowerOfTwo t.clockUpdate
  merkle : PowerOfTwo t.merkle
  poseidon2 : PowerOfTwo t.poseidon2

/-- What `verify_cairo_m` establishes about the committed trace (`crates/prover/src/verifier.rs:17-95`), taking the proof
system and the preprocessed columns for granted: every constraint of every component holds at every row, and the lookups
of all components together with those of the public data cancel. -/
structure Accepted (c : Poseidon2.Consts) (d : PublicData) (t : Trace) : Prop where
  shaped : t.Shaped
  satisfied : ∀ ev ∈ t.evals c, ev.Satisfied
  balanced : LookupsBalance (d.entries ++ t.entries c)

end Air
end CairoM
