import Verif.Adapter
import Verif.Segments

/-!
# What the adapter's records must satisfy (specification)
-/

namespace CairoM

open Abi

namespace Adapter

/-- Processing a sequence of accesses: the memory state afterwards and the records returned. -/
def PMemory.pushAll (m : PMemory) : List Access → Option (PMemory × List MemoryArg)
  | [] => some (m, [])
  | e :: es => do
    let (m, arg) ← m.push e
    let (m, args) ← PMemory.pushAll m es
    return (m, arg :: args)

/-- A record of the memory relation: address, clock, value. -/
abbrev Rec := M31 × M31 × QM31

/-- The record of a cell. -/
def Cell.rec' (a : M31) (c : Cell) : Rec := (a, c.clock, c.value)

/-- The records of a map whose multiplicity is `k`. -/
def records (k : M31) (m : CellMap) : List Rec := (m.filter fun p => p.2.mult = k).map fun p => p.2.rec' p.1

/-- The record an access produces. -/
def MemoryArg.emit (x : MemoryArg) : Rec := (x.address, x.clock, x.value)

/-- The record an access consumes. -/
def MemoryArg.consume (x : MemoryArg) : Rec := (x.address, x.prevClock, x.prevVal)

/-- The record a clock update produces (`crates/prover/src/components/clock_update.rs:250-262`). -/
def ClockUpdate.emit (u : ClockUpdate) : Rec := (u.address, u.clock + (RC20_LIMIT : M31), u.value)

/-- The record a clock update consumes. -/
def ClockUpdate.consume (u : ClockUpdate) : Rec := (u.address, u.clock, u.value)

/-- Everything produced: initial memory, accesses, clock updates. -/
def produced (m : PMemory) (args : List MemoryArg) : List Rec :=
  records 1 m.initial ++ args.map MemoryArg.emit ++ m.updates.map ClockUpdate.emit

/-- Everything consumed: final memory, accesses, clock updates. -/
def consumed (m : PMemory) (args : List MemoryArg) : List Rec :=
  records (-1) m.final ++ args.map MemoryArg.consume ++ m.updates.map ClockUpdate.consume

/-- The public entries of an address range (`crates/prover/src/public_data.rs:84-101`); absent ones are left out, as in the
sum over them (`:343`). -/
def publicRecords (m : CellMap) (r : ℕ × ℕ) : List Rec := (addresses r).filterMap fun a => (m.get a).map (Cell.rec' a)

/-- An initial memory as the runner provides it (`crates/runner/src/vm/mod.rs:206-220`): one entry per key, clock 0,
multiplicity 0. -/
structure RunnerMap (m : CellMap) : Prop where
  nodup : (m.map Prod.fst).Nodup
  fresh : ∀ p ∈ m, p.2.clock = 0 ∧ p.2.mult = 0

/-- The last access to an address. -/
def lastAccess (es : List Access) (a : M31) : Option Access := es.reverse.find? fun e => e.address = a

/-- The value and clock an address has after some accesses, if it has any. -/
def holds (m : CellMap) (es : List Access) (a : M31) : Option (QM31 × M31) :=
  match lastAccess es a with
  | some e => some (e.value, e.clock)
  | none => (m.get a).map fun c => (c.value, c.clock)

/-- The value an address had at the start: the one in the initial memory, else the first one accessed. -/
def origin (m : CellMap) (es : List Access) (a : M31) : Option QM31 :=
  match m.get a with
  | some c => some c.value
  | none => (es.find? fun e => e.address = a).map Access.value

/-- Whenever a cell is accessed after a gap longer than a range check, it still holds its original value. -/
def SteadyOverGaps (m : CellMap) (es : List Access) : Prop :=
  ∀ pre e post, es = pre ++ e :: post → ∀ v c, holds m pre e.address = some (v, c) →
    c.val + RC20_LIMIT < e.clock.val → origin m pre e.address = some v

end Adapter
end CairoM
