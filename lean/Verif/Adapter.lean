import Verif.VM
import Verif.Abi

/-!
# The prover adapter: from the runner's logs to the prover's input

Model of `crates/prover/src/adapter/memory.rs` and of the part of `adapter/mod.rs` before the Merkle trees.

A `HashMap<M31, _>` is a list of key/value pairs without repeated keys, in some order: the order stands for the
unspecified iteration order.
-/

namespace CairoM
open Abi

namespace Adapter

/-! ### Hash maps -/

/-- The value of a memory cell map, `(QM31, M31, M31)`: value, clock, multiplicity
(`crates/prover/src/adapter/memory.rs:183-187`). -/
structure Cell where
  value : QM31
  clock : M31
  mult : M31
deriving DecidableEq, Repr

/-- `HashMap<M31, (QM31, M31, M31)>`. -/
abbrev CellMap := List (M31 × Cell)

/-- `HashMap::get`. -/
def CellMap.get (m : CellMap) (a : M31) : Option Cell := (m.find? fun p => p.1 = a).map Prod.snd

/-- `HashMap::insert`, without the returned old value. -/
def CellMap.insert (m : CellMap) (a : M31) (c : Cell) : CellMap := (a, c) :: m.filter fun p => p.1 ≠ a

/-! ### Memory -/

/-- `RC20_LIMIT` (`crates/prover/src/adapter/memory.rs:16`). -/
def RC20_LIMIT : ℕ := 2 ^ 20 - 1

/-- `MemoryEntry` of the prover (`crates/prover/src/adapter/memory.rs:26-34`). -/
structure Access where
  address : M31
  value : QM31
  clock : M31
deriving DecidableEq, Repr

/-- `MemoryArg` (`crates/prover/src/adapter/memory.rs:131-142`). -/
structure MemoryArg where
  address : M31
  prevVal : QM31
  value : QM31
  prevClock : M31
  clock : M31
deriving DecidableEq, Repr

/-- An element of `clock_update_data`: address, clock, value (`crates/prover/src/adapter/memory.rs:189`). -/
structure ClockUpdate where
  address : M31
  clock : M31
  value : QM31
deriving DecidableEq, Repr

/-- `Memory` (`crates/prover/src/adapter/memory.rs:183-190`). -/
structure PMemory where
  initial : CellMap
  final : CellMap
  updates : List ClockUpdate
deriving DecidableEq, Repr

/-- `Memory::new` (`crates/prover/src/adapter/memory.rs:418-424`). -/
def PMemory.new (m : CellMap) : PMemory := ⟨m, m, []⟩

/-- The loop pushing clock updates (`crates/prover/src/adapter/memory.rs:514-523`). -/
def clockUpdates (a : M31) (v : QM31) : ℕ → M31 → List ClockUpdate
  | 0, _ => []
  | n + 1, clk => ⟨a, clk, v⟩ :: clockUpdates a v n (clk + (RC20_LIMIT : M31))

/-- The number of iterations of that loop (`crates/prover/src/adapter/memory.rs:508-512`). -/
def numUpdates (current prev : M31) : ℕ :=
  if current.val > prev.val then
    if current.val - prev.val > RC20_LIMIT then (current.val - prev.val) / RC20_LIMIT else 0
  else 0

/-- The entry `final_memory` held before, or the default (`crates/prover/src/adapter/memory.rs:477-483`). -/
def previous (m : PMemory) (e : Access) : Cell := (m.final.get e.address).getD ⟨e.value, 0, -1⟩

/-- The update of `initial_memory` at a first access (`crates/prover/src/adapter/memory.rs:494-504`). -/
def firstAccess (m : PMemory) (e : Access) : CellMap :=
  if (previous m e).clock = 0 then
    match m.initial.get e.address with
    | some c => m.initial.insert e.address { c with mult := 1 }
    | none => m.initial.insert e.address ⟨e.value, 0, 1⟩
  else m.initial

/-- `Memory::push` (`crates/prover/src/adapter/memory.rs:470-535`); `none` is the panic of
`initial_memory_entry.unwrap()`, reached only inside the loop. -/
def PMemory.push (m : PMemory) (e : Access) : Option (PMemory × MemoryArg) :=
  let prev := previous m e
  let final := m.final.insert e.address ⟨e.value, e.clock, -1⟩
  let initial := firstAccess m e
  let n := numUpdates e.clock prev.clock
  if n = 0 then some (⟨initial, final, m.updates⟩, ⟨e.address, prev.value, e.value, prev.clock, e.clock⟩)
  else match initial.get e.address with
    | none => none
    | some c => some (⟨initial, final, m.updates ++ clockUpdates e.address c.value n prev.clock⟩,
        ⟨e.address, prev.value, e.value, prev.clock + n * (RC20_LIMIT : M31), e.clock⟩)

/-- Setting the multiplicity of a key that is present. -/
def CellMap.setMult (m : CellMap) (a : M31) (mult : M31) : CellMap :=
  match m.get a with
  | some c => m.insert a { c with mult := mult }
  | none => m

/-- A program or input address in `update_multiplicities` (`crates/prover/src/adapter/memory.rs:429-443`). -/
def PMemory.publicInput (m : PMemory) (a : M31) : PMemory :=
  { m with
    initial := m.initial.setMult a 0
    final := match m.final.get a with
      | some c => if c.mult = 0 then m.final.insert a { c with mult := -1 } else m.final
      | none => m.final }

/-- An output address in `update_multiplicities` (`crates/prover/src/adapter/memory.rs:446-460`). -/
def PMemory.publicOutput (m : PMemory) (a : M31) : PMemory :=
  { m with initial := m.initial.setMult a 1, final := m.final.setMult a 0 }

/-- The addresses of a half-open range. -/
def addresses (r : ℕ × ℕ) : List M31 := (List.range' r.1 (r.2 - r.1)).map fun n : ℕ => M31.ofU32 n

/-- `update_multiplicities` (`crates/prover/src/adapter/memory.rs:427-461`). -/
def PMemory.updateMultiplicities (m : PMemory) (r : PublicAddressRanges) : PMemory :=
  let m := (addresses r.program ++ addresses r.input).foldl PMemory.publicInput m
  (addresses r.output).foldl PMemory.publicOutput m

/-! ### Execution bundles -/

/-- `DataAccess` (`crates/prover/src/adapter/memory.rs:57-66`): only the first limbs of the values. -/
structure DataAccess where
  address : M31
  prevClock : M31
  prevValue : M31
  value : M31
deriving DecidableEq, Repr

/-- `ExecutionBundle` (`crates/prover/src/adapter/memory.rs:104-114`) with the accesses of its span in place of the span
(start index and length) into the global list. -/
structure Bundle where
  registers : State
  clock : M31
  instruction : Instruction
  prevClock : M31
  accesses : List DataAccess
deriving DecidableEq, Repr

/-- `VmImportError` (`crates/prover/src/adapter/io.rs:12-36`), the variants that can occur here, and panics. -/
inductive ImportError where
  | emptyTrace
  | unexpectedEndOfTrace
  | invalidOpcode (op : M31)
  | invalidInstruction (e : InstrError)
  | panic
deriving DecidableEq, Repr

/-- The mutable part of `ExecutionBundleIterator` (`crates/prover/src/adapter/memory.rs:201-219`) other than the trace;
the data accesses are kept in the bundles. -/
structure Iter where
  log : List MemoryEntry
  memory : PMemory
  clock : ℕ
deriving DecidableEq, Repr

/-- Take the next log entry and push it with the current clock. -/
def Iter.take (it : Iter) (err : ImportError) : Except ImportError (Iter × MemoryArg) :=
  match it.log with
  | [] => .error err
  | e :: log =>
    match it.memory.push ⟨e.addr, e.value, M31.ofU32 it.clock⟩ with
    | none => .error .panic
    | some (mem, arg) => .ok ({ it with log := log, memory := mem }, arg)

/-- The loop over operands (`crates/prover/src/adapter/memory.rs:357-382`). -/
def Iter.operands (it : Iter) : ℕ → Except ImportError (Iter × List DataAccess)
  | 0 => .ok (it, [])
  | n + 1 => do
    let (it, arg) ← it.take .unexpectedEndOfTrace
    let (it, rest) ← Iter.operands it n
    return (it, ⟨arg.address, arg.prevClock, arg.prevVal.l0, arg.value.l0⟩ :: rest)

/-- The second word of an instruction (`crates/prover/src/adapter/memory.rs:313-339`): the limbs appended. -/
def Iter.secondWord (it : Iter) (size : ℕ) : Except ImportError (Iter × List M31) :=
  if Instruction.divCeil4 size > 1 then do
    let (it, arg) ← it.take .unexpectedEndOfTrace
    return (it, (if size > 4 then [arg.value.l0] else []) ++ if size > 5 then [arg.value.l1] else [])
  else .ok (it, [])

/-- `ExecutionBundleIterator::next` (`crates/prover/src/adapter/memory.rs:271-402`), for a trace entry that is not the
last one. The size of an instruction is looked up with the opcode as a `u32`. -/
def Iter.bundle (it : Iter) (registers : State) : Except ImportError (Iter × Bundle) := do
  let (it, arg) ← it.take .emptyTrace
  let op := arg.value.l0
  match Instruction.sizeInM31sForOpcode op.val with
  | none => .error (.invalidOpcode op)
  | some size =>
    let (it, more) ← it.secondWord size
    match Instruction.decode (arg.value.limbs.take size ++ more) with
    | .error e => .error (.invalidInstruction e)
    | .ok i =>
      let (it, accesses) ← it.operands i.memoryAccesses
      return ({ it with clock := it.clock + 1 }, ⟨registers, M31.ofU32 it.clock, i, arg.prevClock, accesses⟩)

/-- The `while let Some(..) = bundle_iter.next()` loop of `import_internal` (`crates/prover/src/adapter/mod.rs:116-128`)
with the last trace entry kept for `final_registers` (`crates/prover/src/adapter/memory.rs:274-279`). -/
def Iter.bundles (it : Iter) : List State → Except ImportError (Iter × List Bundle × Option State)
  | [] => .ok (it, [], none)
  | [s] => .ok (it, [], some s)
  | s :: t :: trace => do
    let (it, b) ← it.bundle s
    let (it, bs, fin) ← Iter.bundles it (t :: trace)
    return (it, b :: bs, fin)

/-- `ProverInput` without the Merkle trees (`crates/prover/src/adapter/mod.rs:27-41`, `:64-73`). The bundles are kept in
execution order; `states_by_opcodes` is `byOpcode`. -/
structure Input where
  memory : PMemory
  initialRegisters : State
  finalRegisters : State
  bundles : List Bundle
deriving DecidableEq, Repr

/-- `states_by_opcodes[op]` (`crates/prover/src/adapter/mod.rs:122-127`). -/
def Input.byOpcode (p : Input) (op : ℕ) : List Bundle := p.bundles.filter fun b => b.instruction.opcodeValue = op

/-- The iterator at the start (`crates/prover/src/adapter/memory.rs:236-249`): the clock starts at 1. -/
def Iter.start (log : List MemoryEntry) (m : CellMap) : Iter := ⟨log, .new m, 1⟩

/-- `import_internal` (`crates/prover/src/adapter/mod.rs:97-193`) up to the Merkle trees. -/
def importInternal (trace : List State) (log : List MemoryEntry) (m : CellMap) (r : PublicAddressRanges) :
    Except ImportError Input :=
  match trace with
  | [] => .error .emptyTrace
  | first :: _ => do
    let (it, bs, fin) ← (Iter.start log m).bundles trace
    return ⟨it.memory.updateMultiplicities r, first, fin.getD ((bs.getLast?.map Bundle.registers).getD first), bs⟩

/-- The `initial_memory` of a segment (`crates/runner/src/vm/mod.rs:206-220`) as a hash map: the heap entries are inserted
after the locals. -/
def segmentMap (s : Segment) : CellMap :=
  let locals := s.initialLocals.zipIdx.map fun (q, i) => (M31.ofU32 i, (⟨q, 0, 0⟩ : Cell))
  let heap := s.initialHeap.zipIdx.map fun (q, i) => (M31.ofU32 (MAX_ADDRESS - i), (⟨q, 0, 0⟩ : Cell))
  (locals ++ heap).foldl (fun m p => m.insert p.1 p.2) []

/-- `import_from_runner_output` (`crates/prover/src/adapter/mod.rs:250-266`). -/
def importSegment (s : Segment) (r : PublicAddressRanges) : Except ImportError Input :=
  importInternal s.trace s.memoryTrace (segmentMap s) r

end Adapter
end CairoM
