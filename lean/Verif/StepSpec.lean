import Verif.IsaSpec

/-!
# Reference semantics of one machine step (specification)

`Isa.Stored mem pc i`: the instruction `i` is what the machine finds in memory at `pc`: the limbs of the word
at `pc`, followed by those of the next word, start with the encoding of `i`.
-/

namespace CairoM
namespace Isa

/-- The words at `pc`, `pc + 1` start with the encoding of `i`. -/
def Stored (mem : Mem) (pc : M31) (i : Instruction) : Prop :=
  ((mem pc).limbs ++ (mem (pc + 1)).limbs).take i.encode.length = i.encode

instance (mem : Mem) (pc : M31) (i : Instruction) : Decidable (Stored mem pc i) := by
  unfold Stored; infer_instance

/-- The cells an instruction of this size occupies: one or two words. -/
def codeCells (pc : M31) (i : Instruction) : List M31 :=
  if i.encode.length ≤ 4 then [pc] else [pc, pc + 1]

/-- The log entries of fetching `i`. -/
def fetchLog (mem : Mem) (pc : M31) (i : Instruction) : List MemoryEntry :=
  (codeCells pc i).map fun a => ⟨a, mem a⟩

/-- One step of the reference machine: instruction, effect, next memory. -/
structure Step (pc fp : M31) (mem : Mem) (pc' fp' : M31) (mem' : Mem) where
  instr : Instruction
  stored : Stored mem pc instr
  effect : Effect
  sem_eq : sem instr pc fp mem = some effect
  pc_eq : pc' = effect.pc
  fp_eq : fp' = effect.fp
  mem_eq : mem' = effect.memory mem

end Isa
end CairoM
