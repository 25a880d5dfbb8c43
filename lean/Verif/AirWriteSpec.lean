import Verif.AirWriteU32
import Verif.AirSpec

/-!
# Honest rows (specification)

An honest bundle describes one execution of an instruction by the reference machine of `IsaSpec`: the accesses are those
of the instruction, in order, with the values read and written, and every record the step consumes is between 1 and `2^20`
ticks old. The row written for it is *complete* when it satisfies all constraints of its component, all lookups in
preprocessed tables hold, and the records it consumes and produces are exactly the ones of the step.
-/

namespace CairoM
namespace Air

open Adapter (Bundle DataAccess)

/-- The bundle describes the execution of its instruction in memory `mem`, with effect `e`. -/
structure Honest (x : Bundle) (mem : Isa.Mem) (e : Isa.Effect) : Prop where
  sem : Isa.sem x.instruction x.registers.pc x.registers.fp mem = some e
  accesses : x.accesses.map (fun a => (⟨a.address, QM31.ofM31 a.value⟩ : MemoryEntry)) = e.log mem
  fetchRecent : (x.clock - x.prevClock - 1).val < 2 ^ 20
  recent : ∀ a ∈ x.accesses, (x.clock - a.prevClock - 1).val < 2 ^ 20

/-- The records consumed and produced by the step: the words of the instruction and the cells read keep their value; a
cell written changes from its previous value to the new one. -/
def stepRecords (x : Bundle) (e : Isa.Effect) : List Access :=
  ((Isa.codeCells x.registers.pc x.instruction).zip x.instruction.toQM31s).map (fun w => ⟨w.1, x.prevClock, w.2, w.2⟩) ++
  (x.accesses.take e.reads.length).map
    (fun a => ⟨a.address, a.prevClock, QM31.ofM31 a.value, QM31.ofM31 a.value⟩) ++
  (x.accesses.drop e.reads.length).map
    (fun a => ⟨a.address, a.prevClock, QM31.ofM31 a.prevValue, QM31.ofM31 a.value⟩)

/-- The row `ev` with interaction fractions `es` proves the step described by the bundle. -/
structure Complete (ev : Eval) (es : List Entry) (x : Bundle) (e : Isa.Effect) : Prop where
  satisfied : ev.Satisfied
  tables : ev.TablesHold
  performs : ∃ accs, Performs ev x.registers.pc x.registers.fp x.clock e.pc e.fp accs ∧ accs.Perm (stepRecords x e)
  interaction : es.map Entry.padded = ev.entries.map Entry.padded

/-- The row `ev` with interaction fractions `es` is a harmless padding row: it satisfies all constraints, its table
lookups hold, and it neither consumes nor produces records. The fractions that count are those of the row. -/
structure Padding (ev : Eval) (es : List Entry) : Prop where
  satisfied : ev.Satisfied
  tables : ev.TablesHold
  inert : Inert ev
  interaction : (es.filter (·.mult ≠ 0)).map Entry.padded = (ev.entries.filter (·.mult ≠ 0)).map Entry.padded

end Air
end CairoM
