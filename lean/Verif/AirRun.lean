import Verif.AirTrace
import Verif.AirSpec

/-!
# What an accepted trace must be (specification)

Runs of the reference machine, the records at the two ends of the memory argument, and the conditions under which a trace
is shown to be a run.
-/

namespace CairoM

namespace Isa

/-- `n` steps of the reference machine. -/
inductive Run : ℕ → M31 → M31 → Mem → M31 → M31 → Mem → Prop
  | refl (pc fp : M31) (mem : Mem) : Run 0 pc fp mem pc fp mem
  | step {n : ℕ} {pc fp pc1 fp1 pc2 fp2 : M31} {mem mem1 mem2 : Mem} (h : Run n pc fp mem pc1 fp1 mem1)
      (s : Step pc1 fp1 mem1 pc2 fp2 mem2) : Run (n + 1) pc fp mem pc2 fp2 mem2

end Isa

namespace Air

/-- A memory record: the value of a cell at a clock. -/
structure Record where
  addr : M31
  clock : M31
  value : QM31

/-- The lookup of a record. -/
def Record.entry (mult : M31) (r : Record) : Entry := ⟨.memory, mult, r.addr :: r.clock :: r.value.limbs⟩

/-- The lookups of the memory relation made at the boundary: by the public data and by the memory component, those of
multiplicity zero left out. -/
def boundary (d : PublicData) (t : Trace) : List Entry :=
  (d.entries ++ t.memory.flatMap fun r => (MemoryBoundary.evaluate r).entries).filter fun e =>
    e.rel = .memory ∧ e.mult ≠ 0

/-- The boundary is honest: it produces the initial records, one per cell, all made at clock 0, and consumes the final
records. -/
structure HonestBoundary (d : PublicData) (t : Trace) (ini fin : List Record) : Prop where
  entries : (boundary d t).Perm (ini.map (Record.entry 1) ++ fin.map (Record.entry (-1)))
  clock : ∀ r ∈ ini, r.clock = 0
  inRange : ∀ r ∈ ini, Isa.InRange r.addr
  one : (ini.map Record.addr).Nodup

/-- No clock comes within `2^20` of the field size, so clock differences do not wrap around. -/
structure NoWrap (d : PublicData) (t : Trace) : Prop where
  final : d.clock.val ≤ P - 2 ^ 20
  update : ∀ r ∈ t.clockUpdate, r.enabler = 1 → r.prev_clk.val + 2 ^ 20 - 1 ≤ P - 2 ^ 20

/-- The conditions under which the opcode circuits are sound (C30, C34, C35, C36, C38 are violated without them): no field
division by zero, no undefined opcode, no comparison of equal values claimed false, the clocks of the second operand of a
32-bit product or division in order, no 32-bit comparison with an immediate. -/
def Comp.Regular : (c : Comp) → c.Row → Prop
  | .storeFpFp, r => r.enabler = 1 → r.opcode_flag_0 = 1 → r.opcode_flag_1 = 1 → r.op1_val ≠ 0
  | .storeFpImm, r => r.enabler = 1 → r.opcode_flag_1 = 0
  | .storeLeFpImm, r => r.enabler = 1 → r.src_val = r.imm → r.is_le = 1
  | .u32StoreMulFpFp, r => r.enabler = 1 →
      (r.clock - r.op1_prev_clock_lo - 1).val < 2 ^ 20 ∧ (r.clock - r.op1_prev_clock_hi - 1).val < 2 ^ 20
  | .u32StoreDivFpFp, r => r.enabler = 1 →
      (r.clock - r.op1_prev_clock_lo - 1).val < 2 ^ 20 ∧ (r.clock - r.op1_prev_clock_hi - 1).val < 2 ^ 20
  | .u32StoreEqFpImm, r => r.enabler = 0
  | _, _ => True

end Air
end CairoM
