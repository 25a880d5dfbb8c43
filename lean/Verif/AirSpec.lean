import Verif.AirCore

/-!
# What an opcode row must be (specification)

An enabled opcode row consumes one register state and produces the next one; it consumes, for every memory cell it
touches, the record of the previous access and produces a record for this access. The row is *a step* when, for every
memory holding the consumed values at the touched cells, the machine of `IsaSpec` finds an instruction at `pc`, executes
it without fault, arrives at the produced registers, and its access log consists exactly of the produced records.
-/

namespace CairoM
namespace Air

/-- One memory access of a row: the consumed record is `(addr, prevClock, prev)`, the produced one is
`(addr, clock, new)`. -/
structure Access where
  addr : M31
  prevClock : M31
  prev : QM31
  new : QM31

/-- The two lookups of an access. -/
def Access.entries (clock : M31) (a : Access) : List Entry :=
  [⟨.memory, -1, a.addr :: a.prevClock :: a.prev.limbs⟩, ⟨.memory, 1, a.addr :: clock :: a.new.limbs⟩]

/-- The row performs one register transition and the given memory accesses, and nothing else. -/
structure Performs (ev : Eval) (pc fp clock pc' fp' : M31) (accs : List Access) : Prop where
  registers : ev.of .registers = [⟨.registers, -1, [pc, fp, clock]⟩, ⟨.registers, 1, [pc', fp', clock + 1]⟩]
  memory : ev.of .memory = accs.flatMap (Access.entries clock)
  merkle : ev.of .merkle = []
  poseidon2 : ev.of .poseidon2 = []

/-- The row does nothing: all its state lookups have multiplicity zero (padding rows). -/
def Inert (ev : Eval) : Prop :=
  ∀ e ∈ ev.entries, e.rel = .memory ∨ e.rel = .registers ∨ e.rel = .merkle ∨ e.rel = .poseidon2 → e.mult = 0

/-- The accesses and the register transition are those of executing the instruction stored at `pc`, in every memory
that holds the consumed values. -/
def Executes (pc fp pc' fp' : M31) (accs : List Access) : Prop :=
  ∀ mem : Isa.Mem, (∀ a ∈ accs, Isa.InRange a.addr ∧ mem a.addr = a.prev) →
    ∃ i e, Isa.Stored mem pc i ∧ Isa.sem i pc fp mem = some e ∧ pc' = e.pc ∧ fp' = e.fp ∧
      (accs.map fun a => (⟨a.addr, a.new⟩ : MemoryEntry)).Perm (Isa.fetchLog mem pc i ++ e.log mem)

/-- Every consumed record is older than the row, by at most `2^20` ticks. -/
def Ordered (clock : M31) (accs : List Access) : Prop :=
  ∀ a ∈ accs, (clock - a.prevClock - 1).val < 2 ^ 20

/-- The row is a step of the machine: it performs the register transition and the accesses of the instruction found at
`pc`, and all records it consumes are older. -/
def IsStep (ev : Eval) : Prop :=
  ∃ pc fp clock pc' fp' accs,
    Performs ev pc fp clock pc' fp' accs ∧ Ordered clock accs ∧ Executes pc fp pc' fp' accs

/-- Soundness of a row: the enabler is a bit; a disabled row is inert and an enabled row is a step of the machine. -/
def Sound (enabler : M31) (ev : Eval) : Prop :=
  (enabler = 0 ∧ Inert ev) ∨ (enabler = 1 ∧ IsStep ev)

end Air
end CairoM
