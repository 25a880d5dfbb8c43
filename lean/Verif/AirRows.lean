import Verif.AirLemmas

/-!
# Opcode circuits: accesses, register transition and range facts of a row

For every component: the memory accesses and register transition an enabled row performs, inertness of disabled rows,
and what the lookups in the preprocessed tables give.
-/

namespace CairoM
namespace Air

namespace StoreFpFp

/-- The memory accesses of an enabled row. -/
def accs (r : Row) : List Access :=
  [⟨r.pc, r.inst_prev_clock, ⟨((0 : M31) + (2 : M31) * r.opcode_flag_0 + r.opcode_flag_1), r.off0, r.off1,
        r.off2⟩, ⟨((0 : M31) + (2 : M31) * r.opcode_flag_0 + r.opcode_flag_1), r.off0, r.off1, r.off2⟩⟩,
    ⟨r.fp + r.off0, r.op0_prev_clock, ⟨r.op0_val, 0, 0, 0⟩, ⟨r.op0_val, 0, 0, 0⟩⟩,
    ⟨r.fp + r.off1, r.op1_prev_clock, ⟨r.op1_val, 0, 0, 0⟩, ⟨r.op1_val, 0, 0, 0⟩⟩,
    ⟨r.fp + r.off2, r.dst_prev_clock, ⟨r.dst_prev_val, 0, 0, 0⟩, ⟨r.dst_val, 0, 0, 0⟩⟩]

/-- The next `pc` of an enabled row. -/
def nextPc (r : Row) : M31 := r.pc + 1

/-- The next `fp` of an enabled row. -/
def nextFp (r : Row) : M31 := r.fp

theorem inert {r : Row} (h : r.enabler = 0) : Inert (evaluate r) := by
  simp [Inert, evaluate, h]

theorem performs {r : Row} (h : r.enabler = 1) :
    Performs (evaluate r) r.pc r.fp r.clock (nextPc r) (nextFp r) (accs r) := by
  refine ⟨?_, ?_, ?_, ?_⟩ <;>
    simp [Eval.of, evaluate, h, Entry.padded, Rel.arity, Access.entries, QM31.limbs, accs, nextPc, nextFp]

theorem ordered {r : Row} (h : r.enabler = 1) (ht : (evaluate r).TablesHold) : Ordered r.clock (accs r) := by
  simp only [Eval.TablesHold, evaluate, h, List.forall_mem_cons, List.not_mem_nil, false_implies, implies_true,
    and_true] at ht
  obtain ⟨-, -, -, -, -, -, -, -, -, -, h0, h1, h2, h3⟩ := ht
  simp only [Ordered, accs, List.forall_mem_cons, List.not_mem_nil, false_implies, implies_true, and_true]
  exact ⟨tableHolds_rc20 h0, tableHolds_rc20 h1, tableHolds_rc20 h2, tableHolds_rc20 h3⟩

end StoreFpFp

namespace StoreFpImm

/-- The memory accesses of an enabled row. -/
def accs (r : Row) : List Access :=
  [⟨r.pc, r.inst_prev_clock, ⟨((4 : M31) + (2 : M31) * r.opcode_flag_0 + r.opcode_flag_1), r.src_off, r.imm,
        r.dst_off⟩, ⟨((4 : M31) + (2 : M31) * r.opcode_flag_0 + r.opcode_flag_1), r.src_off, r.imm, r.dst_off⟩⟩,
    ⟨r.fp + r.src_off, r.src_prev_clock, ⟨r.src_val, 0, 0, 0⟩, ⟨r.src_val, 0, 0, 0⟩⟩,
    ⟨r.fp + r.dst_off, r.dst_prev_clock, ⟨r.dst_prev_val, 0, 0, 0⟩, ⟨r.dst_val, 0, 0, 0⟩⟩]

/-- The next `pc` of an enabled row. -/
def nextPc (r : Row) : M31 := r.pc + 1

/-- The next `fp` of an enabled row. -/
def nextFp (r : Row) : M31 := r.fp

theorem inert {r : Row} (h : r.enabler = 0) : Inert (evaluate r) := by
  simp [Inert, evaluate, h]

theorem performs {r : Row} (h : r.enabler = 1) :
    Performs (evaluate r) r.pc r.fp r.clock (nextPc r) (nextFp r) (accs r) := by
  refine ⟨?_, ?_, ?_, ?_⟩ <;>
    simp [Eval.of, evaluate, h, Entry.padded, Rel.arity, Access.entries, QM31.limbs, accs, nextPc, nextFp]

theorem ordered {r : Row} (h : r.enabler = 1) (ht : (evaluate r).TablesHold) : Ordered r.clock (accs r) := by
  simp only [Eval.TablesHold, evaluate, h, List.forall_mem_cons, List.not_mem_nil, false_implies, implies_true,
    and_true] at ht
  obtain ⟨-, -, -, -, -, -, -, -, h0, h1, h2⟩ := ht
  simp only [Ordered, accs, List.forall_mem_cons, List.not_mem_nil, false_implies, implies_true, and_true]
  exact ⟨tableHolds_rc20 h0, tableHolds_rc20 h1, tableHolds_rc20 h2⟩

end StoreFpImm

namespace StoreLeFpImm

/-- The memory accesses of an enabled row. -/
def accs (r : Row) : List Access :=
  [⟨r.pc, r.inst_prev_clock, ⟨48, r.src_off, r.imm, r.dst_off⟩, ⟨48, r.src_off, r.imm, r.dst_off⟩⟩,
    ⟨r.fp + r.src_off, r.src_prev_clock, ⟨r.src_val, 0, 0, 0⟩, ⟨r.src_val, 0, 0, 0⟩⟩,
    ⟨r.fp + r.dst_off, r.dst_prev_clock, ⟨r.dst_prev_val, 0, 0, 0⟩, ⟨r.is_le, 0, 0, 0⟩⟩]

/-- The next `pc` of an enabled row. -/
def nextPc (r : Row) : M31 := r.pc + 1

/-- The next `fp` of an enabled row. -/
def nextFp (r : Row) : M31 := r.fp

theorem inert {r : Row} (h : r.enabler = 0) : Inert (evaluate r) := by
  simp [Inert, evaluate, h]

theorem performs {r : Row} (h : r.enabler = 1) :
    Performs (evaluate r) r.pc r.fp r.clock (nextPc r) (nextFp r) (accs r) := by
  refine ⟨?_, ?_, ?_, ?_⟩ <;>
    simp [Eval.of, evaluate, h, Entry.padded, Rel.arity, Access.entries, QM31.limbs, accs, nextPc, nextFp]

theorem ordered {r : Row} (h : r.enabler = 1) (ht : (evaluate r).TablesHold) : Ordered r.clock (accs r) := by
  simp only [Eval.TablesHold, evaluate, h, List.forall_mem_cons, List.not_mem_nil, false_implies, implies_true,
    and_true] at ht
  obtain ⟨-, -, -, -, -, -, -, -, -, -, -, -, h4, h5, h6⟩ := ht
  simp only [Ordered, accs, List.forall_mem_cons, List.not_mem_nil, false_implies, implies_true, and_true]
  exact ⟨tableHolds_rc20 h4, tableHolds_rc20 h5, tableHolds_rc20 h6⟩

theorem ranges {r : Row} (h : r.enabler = 1) (ht : (evaluate r).TablesHold) :
    r.arc_short_lo.val < 2 ^ 16 ∧
    r.arc_short_hi.val < 2 ^ 16 ∧
    r.arc_long_lo.val < 2 ^ 16 ∧
    r.arc_long_hi.val < 2 ^ 16 := by
  simp only [Eval.TablesHold, evaluate, h, List.forall_mem_cons, List.not_mem_nil, false_implies, implies_true,
    and_true] at ht
  obtain ⟨-, -, -, -, -, -, -, -, h0, h1, h2, h3, -, -, -⟩ := ht
  exact ⟨tableHolds_rc16 h0, tableHolds_rc16 h1, tableHolds_rc16 h2, tableHolds_rc16 h3⟩

end StoreLeFpImm

namespace AssertEqFpImm

/-- The memory accesses of an enabled row. -/
def accs (r : Row) : List Access :=
  [⟨r.pc, r.inst_prev_clock, ⟨50, r.src0_off, r.imm, 0⟩, ⟨50, r.src0_off, r.imm, 0⟩⟩,
    ⟨r.fp + r.src0_off, r.op0_prev_clock, ⟨r.op0_val, 0, 0, 0⟩, ⟨r.op0_val, 0, 0, 0⟩⟩]

/-- The next `pc` of an enabled row. -/
def nextPc (r : Row) : M31 := r.pc + 1

/-- The next `fp` of an enabled row. -/
def nextFp (r : Row) : M31 := r.fp

theorem inert {r : Row} (h : r.enabler = 0) : Inert (evaluate r) := by
  simp [Inert, evaluate, h]

theorem performs {r : Row} (h : r.enabler = 1) :
    Performs (evaluate r) r.pc r.fp r.clock (nextPc r) (nextFp r) (accs r) := by
  refine ⟨?_, ?_, ?_, ?_⟩ <;>
    simp [Eval.of, evaluate, h, Entry.padded, Rel.arity, Access.entries, QM31.limbs, accs, nextPc, nextFp]

theorem ordered {r : Row} (h : r.enabler = 1) (ht : (evaluate r).TablesHold) : Ordered r.clock (accs r) := by
  simp only [Eval.TablesHold, evaluate, h, List.forall_mem_cons, List.not_mem_nil, false_implies, implies_true,
    and_true] at ht
  obtain ⟨-, -, -, -, -, -, h0, h1⟩ := ht
  simp only [Ordered, accs, List.forall_mem_cons, List.not_mem_nil, false_implies, implies_true, and_true]
  exact ⟨tableHolds_rc20 h0, tableHolds_rc20 h1⟩

end AssertEqFpImm

namespace StoreImm

/-- The memory accesses of an enabled row. -/
def accs (r : Row) : List Access :=
  [⟨r.pc, r.inst_prev_clock, ⟨9, r.off0, r.off2, 0⟩, ⟨9, r.off0, r.off2, 0⟩⟩,
    ⟨r.fp + r.off2, r.dst_prev_clock, ⟨r.dst_prev_val, 0, 0, 0⟩, ⟨r.off0, 0, 0, 0⟩⟩]

/-- The next `pc` of an enabled row. -/
def nextPc (r : Row) : M31 := r.pc + 1

/-- The next `fp` of an enabled row. -/
def nextFp (r : Row) : M31 := r.fp

theorem inert {r : Row} (h : r.enabler = 0) : Inert (evaluate r) := by
  simp [Inert, evaluate, h]

theorem performs {r : Row} (h : r.enabler = 1) :
    Performs (evaluate r) r.pc r.fp r.clock (nextPc r) (nextFp r) (accs r) := by
  refine ⟨?_, ?_, ?_, ?_⟩ <;>
    simp [Eval.of, evaluate, h, Entry.padded, Rel.arity, Access.entries, QM31.limbs, accs, nextPc, nextFp]

theorem ordered {r : Row} (h : r.enabler = 1) (ht : (evaluate r).TablesHold) : Ordered r.clock (accs r) := by
  simp only [Eval.TablesHold, evaluate, h, List.forall_mem_cons, List.not_mem_nil, false_implies, implies_true,
    and_true] at ht
  obtain ⟨-, -, -, -, -, -, h0, h1⟩ := ht
  simp only [Ordered, accs, List.forall_mem_cons, List.not_mem_nil, false_implies, implies_true, and_true]
  exact ⟨tableHolds_rc20 h0, tableHolds_rc20 h1⟩

end StoreImm

namespace StoreFramePointer

/-- The memory accesses of an enabled row. -/
def accs (r : Row) : List Access :=
  [⟨r.pc, r.inst_prev_clock, ⟨43, r.imm, r.dst_off, 0⟩, ⟨43, r.imm, r.dst_off, 0⟩⟩,
    ⟨r.fp + r.dst_off, r.dst_prev_clock, ⟨r.dst_prev_val, 0, 0, 0⟩, ⟨r.fp + r.imm, 0, 0, 0⟩⟩]

/-- The next `pc` of an enabled row. -/
def nextPc (r : Row) : M31 := r.pc + 1

/-- The next `fp` of an enabled row. -/
def nextFp (r : Row) : M31 := r.fp

theorem inert {r : Row} (h : r.enabler = 0) : Inert (evaluate r) := by
  simp [Inert, evaluate, h]

theorem performs {r : Row} (h : r.enabler = 1) :
    Performs (evaluate r) r.pc r.fp r.clock (nextPc r) (nextFp r) (accs r) := by
  refine ⟨?_, ?_, ?_, ?_⟩ <;>
    simp [Eval.of, evaluate, h, Entry.padded, Rel.arity, Access.entries, QM31.limbs, accs, nextPc, nextFp]

theorem ordered {r : Row} (h : r.enabler = 1) (ht : (evaluate r).TablesHold) : Ordered r.clock (accs r) := by
  simp only [Eval.TablesHold, evaluate, h, List.forall_mem_cons, List.not_mem_nil, false_implies, implies_true,
    and_true] at ht
  obtain ⟨-, -, -, -, -, -, h0, h1⟩ := ht
  simp only [Ordered, accs, List.forall_mem_cons, List.not_mem_nil, false_implies, implies_true, and_true]
  exact ⟨tableHolds_rc20 h0, tableHolds_rc20 h1⟩

end StoreFramePointer

namespace DoubleDerefFpImm

/-- The memory accesses of an enabled row. -/
def accs (r : Row) : List Access :=
  [⟨r.pc, r.inst_prev_clock, ⟨r.opcode_constant, r.off0, r.off1, r.off2⟩, ⟨r.opcode_constant, r.off0, r.off1,
        r.off2⟩⟩,
    ⟨r.fp + r.off0, r.prev_clock0, ⟨r.val0, 0, 0, 0⟩, ⟨r.val0, 0, 0, 0⟩⟩,
    ⟨r.addr1, r.prev_clock1, ⟨r.val1, 0, 0, 0⟩, ⟨r.val1, 0, 0, 0⟩⟩,
    ⟨r.addr2, r.prev_clock2, ⟨r.prev_val2, 0, 0, 0⟩, ⟨r.val1, 0, 0, 0⟩⟩]

/-- The next `pc` of an enabled row. -/
def nextPc (r : Row) : M31 := r.pc + 1

/-- The next `fp` of an enabled row. -/
def nextFp (r : Row) : M31 := r.fp

theorem inert {r : Row} (h : r.enabler = 0) : Inert (evaluate r) := by
  simp [Inert, evaluate, h]

theorem performs {r : Row} (h : r.enabler = 1) :
    Performs (evaluate r) r.pc r.fp r.clock (nextPc r) (nextFp r) (accs r) := by
  refine ⟨?_, ?_, ?_, ?_⟩ <;>
    simp [Eval.of, evaluate, h, Entry.padded, Rel.arity, Access.entries, QM31.limbs, accs, nextPc, nextFp]

theorem ordered {r : Row} (h : r.enabler = 1) (ht : (evaluate r).TablesHold) : Ordered r.clock (accs r) := by
  simp only [Eval.TablesHold, evaluate, h, List.forall_mem_cons, List.not_mem_nil, false_implies, implies_true,
    and_true] at ht
  obtain ⟨-, -, -, -, -, -, -, -, -, -, h0, h1, h2, h3⟩ := ht
  simp only [Ordered, accs, List.forall_mem_cons, List.not_mem_nil, false_implies, implies_true, and_true]
  exact ⟨tableHolds_rc20 h0, tableHolds_rc20 h1, tableHolds_rc20 h2, tableHolds_rc20 h3⟩

end DoubleDerefFpImm

namespace DoubleDerefFpFp

/-- The memory accesses of an enabled row. -/
def accs (r : Row) : List Access :=
  [⟨r.pc, r.inst_prev_clock, ⟨r.opcode_constant, r.off0, r.off1, r.off2⟩, ⟨r.opcode_constant, r.off0, r.off1,
        r.off2⟩⟩,
    ⟨r.fp + r.off0, r.prev_clock0, ⟨r.val0, 0, 0, 0⟩, ⟨r.val0, 0, 0, 0⟩⟩,
    ⟨r.fp + r.off1, r.prev_clock1, ⟨r.val1, 0, 0, 0⟩, ⟨r.val1, 0, 0, 0⟩⟩,
    ⟨r.addr2, r.prev_clock2, ⟨r.val2, 0, 0, 0⟩, ⟨r.val2, 0, 0, 0⟩⟩,
    ⟨r.addr3, r.prev_clock3, ⟨r.prev_val3, 0, 0, 0⟩, ⟨r.val2, 0, 0, 0⟩⟩]

/-- The next `pc` of an enabled row. -/
def nextPc (r : Row) : M31 := r.pc + 1

/-- The next `fp` of an enabled row. -/
def nextFp (r : Row) : M31 := r.fp

theorem inert {r : Row} (h : r.enabler = 0) : Inert (evaluate r) := by
  simp [Inert, evaluate, h]

theorem performs {r : Row} (h : r.enabler = 1) :
    Performs (evaluate r) r.pc r.fp r.clock (nextPc r) (nextFp r) (accs r) := by
  refine ⟨?_, ?_, ?_, ?_⟩ <;>
    simp [Eval.of, evaluate, h, Entry.padded, Rel.arity, Access.entries, QM31.limbs, accs, nextPc, nextFp]

theorem ordered {r : Row} (h : r.enabler = 1) (ht : (evaluate r).TablesHold) : Ordered r.clock (accs r) := by
  simp only [Eval.TablesHold, evaluate, h, List.forall_mem_cons, List.not_mem_nil, false_implies, implies_true,
    and_true] at ht
  obtain ⟨-, -, -, -, -, -, -, -, -, -, -, -, h0, h1, h2, h3, h4⟩ := ht
  simp only [Ordered, accs, List.forall_mem_cons, List.not_mem_nil, false_implies, implies_true, and_true]
  exact ⟨tableHolds_rc20 h0, tableHolds_rc20 h1, tableHolds_rc20 h2, tableHolds_rc20 h3, tableHolds_rc20 h4⟩

end DoubleDerefFpFp

namespace CallAbsImm

/-- The memory accesses of an enabled row. -/
def accs (r : Row) : List Access :=
  [⟨r.pc, r.inst_prev_clock, ⟨10, r.off0, r.off1, 0⟩, ⟨10, r.off0, r.off1, 0⟩⟩,
    ⟨r.fp + r.off0, r.op0_prev_clock, ⟨r.op0_prev_val, 0, 0, 0⟩, ⟨r.fp, 0, 0, 0⟩⟩,
    ⟨r.fp + r.off0 + 1, r.op0_plus_one_prev_clock, ⟨r.op0_plus_one_prev_val, 0, 0, 0⟩, ⟨r.pc + 1, 0, 0, 0⟩⟩]

/-- The next `pc` of an enabled row. -/
def nextPc (r : Row) : M31 := r.off1

/-- The next `fp` of an enabled row. -/
def nextFp (r : Row) : M31 := r.fp + r.off0 + 1 + 1

theorem inert {r : Row} (h : r.enabler = 0) : Inert (evaluate r) := by
  simp [Inert, evaluate, h]

theorem performs {r : Row} (h : r.enabler = 1) :
    Performs (evaluate r) r.pc r.fp r.clock (nextPc r) (nextFp r) (accs r) := by
  refine ⟨?_, ?_, ?_, ?_⟩ <;>
    simp [Eval.of, evaluate, h, Entry.padded, Rel.arity, Access.entries, QM31.limbs, accs, nextPc, nextFp]

theorem ordered {r : Row} (h : r.enabler = 1) (ht : (evaluate r).TablesHold) : Ordered r.clock (accs r) := by
  simp only [Eval.TablesHold, evaluate, h, List.forall_mem_cons, List.not_mem_nil, false_implies, implies_true,
    and_true] at ht
  obtain ⟨-, -, -, -, -, -, -, -, h0, h1, h2⟩ := ht
  simp only [Ordered, accs, List.forall_mem_cons, List.not_mem_nil, false_implies, implies_true, and_true]
  exact ⟨tableHolds_rc20 h0, tableHolds_rc20 h1, tableHolds_rc20 h2⟩

end CallAbsImm

namespace Ret

/-- The memory accesses of an enabled row. -/
def accs (r : Row) : List Access :=
  [⟨r.pc, r.inst_prev_clock, ⟨11, 0, 0, 0⟩, ⟨11, 0, 0, 0⟩⟩,
    ⟨r.fp - 2, r.fp_min_2_prev_clock, ⟨r.fp_min_2_val, 0, 0, 0⟩, ⟨r.fp_min_2_val, 0, 0, 0⟩⟩,
    ⟨r.fp - 1, r.fp_min_1_prev_clock, ⟨r.fp_min_1_val, 0, 0, 0⟩, ⟨r.fp_min_1_val, 0, 0, 0⟩⟩]

/-- The next `pc` of an enabled row. -/
def nextPc (r : Row) : M31 := r.fp_min_1_val

/-- The next `fp` of an enabled row. -/
def nextFp (r : Row) : M31 := r.fp_min_2_val

theorem inert {r : Row} (h : r.enabler = 0) : Inert (evaluate r) := by
  simp [Inert, evaluate, h]

theorem performs {r : Row} (h : r.enabler = 1) :
    Performs (evaluate r) r.pc r.fp r.clock (nextPc r) (nextFp r) (accs r) := by
  refine ⟨?_, ?_, ?_, ?_⟩ <;>
    simp [Eval.of, evaluate, h, Entry.padded, Rel.arity, Access.entries, QM31.limbs, accs, nextPc, nextFp]

theorem ordered {r : Row} (h : r.enabler = 1) (ht : (evaluate r).TablesHold) : Ordered r.clock (accs r) := by
  simp only [Eval.TablesHold, evaluate, h, List.forall_mem_cons, List.not_mem_nil, false_implies, implies_true,
    and_true] at ht
  obtain ⟨-, -, -, -, -, -, -, -, h0, h1, h2⟩ := ht
  simp only [Ordered, accs, List.forall_mem_cons, List.not_mem_nil, false_implies, implies_true, and_true]
  exact ⟨tableHolds_rc20 h0, tableHolds_rc20 h1, tableHolds_rc20 h2⟩

end Ret

namespace JmpImm

/-- The memory accesses of an enabled row. -/
def accs (r : Row) : List Access :=
  [⟨r.pc, r.inst_prev_clock, ⟨12 + r.is_rel, r.off0, 0, 0⟩, ⟨12 + r.is_rel, r.off0, 0, 0⟩⟩]

/-- The next `pc` of an enabled row. -/
def nextPc (r : Row) : M31 := r.off0 + r.pc * r.is_rel

/-- The next `fp` of an enabled row. -/
def nextFp (r : Row) : M31 := r.fp

theorem inert {r : Row} (h : r.enabler = 0) : Inert (evaluate r) := by
  simp [Inert, evaluate, h]

theorem performs {r : Row} (h : r.enabler = 1) :
    Performs (evaluate r) r.pc r.fp r.clock (nextPc r) (nextFp r) (accs r) := by
  refine ⟨?_, ?_, ?_, ?_⟩ <;>
    simp [Eval.of, evaluate, h, Entry.padded, Rel.arity, Access.entries, QM31.limbs, accs, nextPc, nextFp]

theorem ordered {r : Row} (h : r.enabler = 1) (ht : (evaluate r).TablesHold) : Ordered r.clock (accs r) := by
  simp only [Eval.TablesHold, evaluate, h, List.forall_mem_cons, List.not_mem_nil, false_implies, implies_true,
    and_true] at ht
  obtain ⟨-, -, h0, -, -⟩ := ht
  simp only [Ordered, accs, List.forall_mem_cons, List.not_mem_nil, false_implies, implies_true, and_true]
  exact tableHolds_rc20 h0

end JmpImm

namespace JnzFpImm

/-- The memory accesses of an enabled row. -/
def accs (r : Row) : List Access :=
  [⟨r.pc, r.inst_prev_clock, ⟨14, r.off0, r.imm, 0⟩, ⟨14, r.off0, r.imm, 0⟩⟩,
    ⟨r.fp + r.off0, r.op0_prev_clock, ⟨r.op0_val, 0, 0, 0⟩, ⟨r.op0_val, 0, 0, 0⟩⟩]

/-- The next `pc` of an enabled row. -/
def nextPc (r : Row) : M31 := r.pc_new

/-- The next `fp` of an enabled row. -/
def nextFp (r : Row) : M31 := r.fp

theorem inert {r : Row} (h : r.enabler = 0) : Inert (evaluate r) := by
  simp [Inert, evaluate, h]

theorem performs {r : Row} (h : r.enabler = 1) :
    Performs (evaluate r) r.pc r.fp r.clock (nextPc r) (nextFp r) (accs r) := by
  refine ⟨?_, ?_, ?_, ?_⟩ <;>
    simp [Eval.of, evaluate, h, Entry.padded, Rel.arity, Access.entries, QM31.limbs, accs, nextPc, nextFp]

theorem ordered {r : Row} (h : r.enabler = 1) (ht : (evaluate r).TablesHold) : Ordered r.clock (accs r) := by
  simp only [Eval.TablesHold, evaluate, h, List.forall_mem_cons, List.not_mem_nil, false_implies, implies_true,
    and_true] at ht
  obtain ⟨-, -, -, -, -, -, h0, h1⟩ := ht
  simp only [Ordered, accs, List.forall_mem_cons, List.not_mem_nil, false_implies, implies_true, and_true]
  exact ⟨tableHolds_rc20 h0, tableHolds_rc20 h1⟩

end JnzFpImm

namespace U32StoreAddFpFp

/-- The memory accesses of an enabled row. -/
def accs (r : Row) : List Access :=
  [⟨r.pc, r.inst_prev_clock, ⟨15, r.src0_off, r.src1_off, r.dst_off⟩, ⟨15, r.src0_off, r.src1_off, r.dst_off⟩⟩,
    ⟨r.fp + r.src0_off, r.op0_prev_lo_clock, ⟨r.op0_val_lo, 0, 0, 0⟩, ⟨r.op0_val_lo, 0, 0, 0⟩⟩,
    ⟨r.fp + r.src0_off + 1, r.op0_prev_hi_clock, ⟨r.op0_val_hi, 0, 0, 0⟩, ⟨r.op0_val_hi, 0, 0, 0⟩⟩,
    ⟨r.fp + r.src1_off, r.op1_prev_lo_clock, ⟨r.op1_val_lo, 0, 0, 0⟩, ⟨r.op1_val_lo, 0, 0, 0⟩⟩,
    ⟨r.fp + r.src1_off + 1, r.op1_prev_hi_clock, ⟨r.op1_val_hi, 0, 0, 0⟩, ⟨r.op1_val_hi, 0, 0, 0⟩⟩,
    ⟨r.fp + r.dst_off, r.dst_prev_lo_clock, ⟨r.dst_prev_val_lo, 0, 0, 0⟩,
        ⟨r.op0_val_lo + r.op1_val_lo - r.u16_carry * 65536, 0, 0, 0⟩⟩,
    ⟨r.fp + r.dst_off + 1, r.dst_prev_hi_clock, ⟨r.dst_prev_val_hi, 0, 0, 0⟩,
        ⟨r.op0_val_hi + r.op1_val_hi + r.u16_carry - r.u32_carry * 65536, 0, 0, 0⟩⟩]

/-- The next `pc` of an enabled row. -/
def nextPc (r : Row) : M31 := r.pc + 1

/-- The next `fp` of an enabled row. -/
def nextFp (r : Row) : M31 := r.fp

theorem inert {r : Row} (h : r.enabler = 0) : Inert (evaluate r) := by
  simp [Inert, evaluate, h]

theorem performs {r : Row} (h : r.enabler = 1) :
    Performs (evaluate r) r.pc r.fp r.clock (nextPc r) (nextFp r) (accs r) := by
  refine ⟨?_, ?_, ?_, ?_⟩ <;>
    simp [Eval.of, evaluate, h, Entry.padded, Rel.arity, Access.entries, QM31.limbs, accs, nextPc, nextFp]

theorem ordered {r : Row} (h : r.enabler = 1) (ht : (evaluate r).TablesHold) : Ordered r.clock (accs r) := by
  simp only [Eval.TablesHold, evaluate, h, List.forall_mem_cons, List.not_mem_nil, false_implies, implies_true,
    and_true] at ht
  obtain ⟨-, -, -, -, -, -, -, -, -, -, -, -, -, -, -, -, -, -, -, -, -, -, h6, h7, h8, h9, h10, h11, h12⟩ := ht
  simp only [Ordered, accs, List.forall_mem_cons, List.not_mem_nil, false_implies, implies_true, and_true]
  exact ⟨tableHolds_rc20 h6, tableHolds_rc20 h7, tableHolds_rc20 h8, tableHolds_rc20 h9, tableHolds_rc20 h10,
    tableHolds_rc20 h11, tableHolds_rc20 h12⟩

theorem ranges {r : Row} (h : r.enabler = 1) (ht : (evaluate r).TablesHold) :
    r.op0_val_lo.val < 2 ^ 16 ∧
    r.op0_val_hi.val < 2 ^ 16 ∧
    r.op1_val_lo.val < 2 ^ 16 ∧
    r.op1_val_hi.val < 2 ^ 16 ∧
    (r.op0_val_lo + r.op1_val_lo - r.u16_carry * 65536).val < 2 ^ 16 ∧
    (r.op0_val_hi + r.op1_val_hi + r.u16_carry - r.u32_carry * 65536).val < 2 ^ 16 := by
  simp only [Eval.TablesHold, evaluate, h, List.forall_mem_cons, List.not_mem_nil, false_implies, implies_true,
    and_true] at ht
  obtain ⟨-, -, -, -, -, -, -, -, -, -, -, -, -, -, -, -, h0, h1, h2, h3, h4, h5, -, -, -, -, -, -, -⟩ := ht
  exact ⟨tableHolds_rc16 h0, tableHolds_rc16 h1, tableHolds_rc16 h2, tableHolds_rc16 h3, tableHolds_rc16 h4,
    tableHolds_rc16 h5⟩

end U32StoreAddFpFp

namespace U32StoreSubFpFp

/-- The memory accesses of an enabled row. -/
def accs (r : Row) : List Access :=
  [⟨r.pc, r.inst_prev_clock, ⟨16, r.src0_off, r.src1_off, r.dst_off⟩, ⟨16, r.src0_off, r.src1_off, r.dst_off⟩⟩,
    ⟨r.fp + r.src0_off, r.op0_prev_lo_clock, ⟨r.op0_val_lo, 0, 0, 0⟩, ⟨r.op0_val_lo, 0, 0, 0⟩⟩,
    ⟨r.fp + r.src0_off + 1, r.op0_prev_hi_clock, ⟨r.op0_val_hi, 0, 0, 0⟩, ⟨r.op0_val_hi, 0, 0, 0⟩⟩,
    ⟨r.fp + r.src1_off, r.op1_prev_lo_clock, ⟨r.op1_val_lo, 0, 0, 0⟩, ⟨r.op1_val_lo, 0, 0, 0⟩⟩,
    ⟨r.fp + r.src1_off + 1, r.op1_prev_hi_clock, ⟨r.op1_val_hi, 0, 0, 0⟩, ⟨r.op1_val_hi, 0, 0, 0⟩⟩,
    ⟨r.fp + r.dst_off, r.dst_prev_lo_clock, ⟨r.dst_prev_val_lo, 0, 0, 0⟩,
        ⟨r.op0_val_lo + r.borrow_lo * 65536 - r.op1_val_lo, 0, 0, 0⟩⟩,
    ⟨r.fp + r.dst_off + 1, r.dst_prev_hi_clock, ⟨r.dst_prev_val_hi, 0, 0, 0⟩,
        ⟨r.op0_val_hi - r.borrow_lo + r.borrow_hi * 65536 - r.op1_val_hi, 0, 0, 0⟩⟩]

/-- The next `pc` of an enabled row. -/
def nextPc (r : Row) : M31 := r.pc + 1

/-- The next `fp` of an enabled row. -/
def nextFp (r : Row) : M31 := r.fp

theorem inert {r : Row} (h : r.enabler = 0) : Inert (evaluate r) := by
  simp [Inert, evaluate, h]

theorem performs {r : Row} (h : r.enabler = 1) :
    Performs (evaluate r) r.pc r.fp r.clock (nextPc r) (nextFp r) (accs r) := by
  refine ⟨?_, ?_, ?_, ?_⟩ <;>
    simp [Eval.of, evaluate, h, Entry.padded, Rel.arity, Access.entries, QM31.limbs, accs, nextPc, nextFp]

theorem ordered {r : Row} (h : r.enabler = 1) (ht : (evaluate r).TablesHold) : Ordered r.clock (accs r) := by
  simp only [Eval.TablesHold, evaluate, h, List.forall_mem_cons, List.not_mem_nil, false_implies, implies_true,
    and_true] at ht
  obtain ⟨-, -, -, -, -, -, -, -, -, -, -, -, -, -, -, -, -, -, -, -, -, -, h6, h7, h8, h9, h10, h11, h12⟩ := ht
  simp only [Ordered, accs, List.forall_mem_cons, List.not_mem_nil, false_implies, implies_true, and_true]
  exact ⟨tableHolds_rc20 h6, tableHolds_rc20 h7, tableHolds_rc20 h8, tableHolds_rc20 h9, tableHolds_rc20 h10,
    tableHolds_rc20 h11, tableHolds_rc20 h12⟩

theorem ranges {r : Row} (h : r.enabler = 1) (ht : (evaluate r).TablesHold) :
    r.op0_val_lo.val < 2 ^ 16 ∧
    r.op0_val_hi.val < 2 ^ 16 ∧
    r.op1_val_lo.val < 2 ^ 16 ∧
    r.op1_val_hi.val < 2 ^ 16 ∧
    (r.op0_val_lo + r.borrow_lo * 65536 - r.op1_val_lo).val < 2 ^ 16 ∧
    (r.op0_val_hi - r.borrow_lo + r.borrow_hi * 65536 - r.op1_val_hi).val < 2 ^ 16 := by
  simp only [Eval.TablesHold, evaluate, h, List.forall_mem_cons, List.not_mem_nil, false_implies, implies_true,
    and_true] at ht
  obtain ⟨-, -, -, -, -, -, -, -, -, -, -, -, -, -, -, -, h0, h1, h2, h3, h4, h5, -, -, -, -, -, -, -⟩ := ht
  exact ⟨tableHolds_rc16 h0, tableHolds_rc16 h1, tableHolds_rc16 h2, tableHolds_rc16 h3, tableHolds_rc16 h4,
    tableHolds_rc16 h5⟩

end U32StoreSubFpFp

namespace U32StoreMulFpFp

/-- The memory accesses of an enabled row. -/
def accs (r : Row) : List Access :=
  [⟨r.pc, r.inst_prev_clock, ⟨17, r.src0_off, r.src1_off, r.dst_off⟩, ⟨17, r.src0_off, r.src1_off, r.dst_off⟩⟩,
    ⟨r.fp + r.src0_off, r.op0_prev_clock_lo, ⟨r.op0_0 + r.op0_1 * 256, 0, 0, 0⟩, ⟨r.op0_0 + r.op0_1 * 256, 0, 0,
        0⟩⟩,
    ⟨r.fp + r.src0_off + 1, r.op0_prev_clock_hi, ⟨r.op0_2 + r.op0_3 * 256, 0, 0, 0⟩, ⟨r.op0_2 + r.op0_3 * 256, 0,
        0, 0⟩⟩,
    ⟨r.fp + r.src1_off, r.op1_prev_clock_lo, ⟨r.op1_0 + r.op1_1 * 256, 0, 0, 0⟩, ⟨r.op1_0 + r.op1_1 * 256, 0, 0,
        0⟩⟩,
    ⟨r.fp + r.src1_off + 1, r.op1_prev_clock_hi, ⟨r.op1_2 + r.op1_3 * 256, 0, 0, 0⟩, ⟨r.op1_2 + r.op1_3 * 256, 0,
        0, 0⟩⟩,
    ⟨r.fp + r.dst_off, r.dst_prev_clock_lo, ⟨r.dst_prev_val_lo, 0, 0, 0⟩, ⟨r.res_0 + r.res_1 * 256, 0, 0, 0⟩⟩,
    ⟨r.fp + r.dst_off + 1, r.dst_prev_clock_hi, ⟨r.dst_prev_val_hi, 0, 0, 0⟩, ⟨r.res_2 + r.res_3 * 256, 0, 0, 0⟩⟩]

/-- The next `pc` of an enabled row. -/
def nextPc (r : Row) : M31 := r.pc + 1

/-- The next `fp` of an enabled row. -/
def nextFp (r : Row) : M31 := r.fp

theorem inert {r : Row} (h : r.enabler = 0) : Inert (evaluate r) := by
  simp [Inert, evaluate, h]

theorem performs {r : Row} (h : r.enabler = 1) :
    Performs (evaluate r) r.pc r.fp r.clock (nextPc r) (nextFp r) (accs r) := by
  refine ⟨?_, ?_, ?_, ?_⟩ <;>
    simp [Eval.of, evaluate, h, Entry.padded, Rel.arity, Access.entries, QM31.limbs, accs, nextPc, nextFp]

/-- The clocks that are checked. -/
theorem ordered_partly {r : Row} (h : r.enabler = 1) (ht : (evaluate r).TablesHold) :
    (r.clock - r.inst_prev_clock - 1).val < 2 ^ 20 ∧
    (r.clock - r.op0_prev_clock_lo - 1).val < 2 ^ 20 ∧
    (r.clock - r.op0_prev_clock_hi - 1).val < 2 ^ 20 ∧
    (r.clock - r.dst_prev_clock_lo - 1).val < 2 ^ 20 ∧
    (r.clock - r.dst_prev_clock_hi - 1).val < 2 ^ 20 := by
  simp only [Eval.TablesHold, evaluate, h, List.forall_mem_cons, List.not_mem_nil, false_implies, implies_true,
    and_true] at ht
  obtain ⟨-, -, -, -, -, -, -, -, -, -, -, -, -, -, -, -, -, -, -, -, -, -, -, -, -, -, -, -, -, -, -, -, h16, h17,
    h18, h19, h20⟩ := ht
  exact ⟨tableHolds_rc20 h16, tableHolds_rc20 h17, tableHolds_rc20 h18, tableHolds_rc20 h19, tableHolds_rc20 h20⟩

theorem ranges {r : Row} (h : r.enabler = 1) (ht : (evaluate r).TablesHold) :
    r.op0_0.val < 2 ^ 8 ∧
    r.op0_1.val < 2 ^ 8 ∧
    r.op0_2.val < 2 ^ 8 ∧
    r.op0_3.val < 2 ^ 8 ∧
    r.op1_0.val < 2 ^ 8 ∧
    r.op1_1.val < 2 ^ 8 ∧
    r.op1_2.val < 2 ^ 8 ∧
    r.op1_3.val < 2 ^ 8 ∧
    r.res_0.val < 2 ^ 8 ∧
    r.res_1.val < 2 ^ 8 ∧
    r.res_2.val < 2 ^ 8 ∧
    r.res_3.val < 2 ^ 8 ∧
    (254 - r.carry_0).val < 2 ^ 16 ∧
    (509 - r.carry_1).val < 2 ^ 16 ∧
    (764 - r.carry_2).val < 2 ^ 16 ∧
    (1019 - r.carry_3).val < 2 ^ 16 := by
  simp only [Eval.TablesHold, evaluate, h, List.forall_mem_cons, List.not_mem_nil, false_implies, implies_true,
    and_true] at ht
  obtain ⟨-, -, -, -, -, -, -, -, -, -, -, -, -, -, -, -, h0, h1, h2, h3, h4, h5, h6, h7, h8, h9, h10, h11, h12, h13,
    h14, h15, -, -, -, -, -⟩ := ht
  exact ⟨tableHolds_rc8 h0, tableHolds_rc8 h1, tableHolds_rc8 h2, tableHolds_rc8 h3, tableHolds_rc8 h4,
    tableHolds_rc8 h5, tableHolds_rc8 h6, tableHolds_rc8 h7, tableHolds_rc8 h8, tableHolds_rc8 h9,
    tableHolds_rc8 h10, tableHolds_rc8 h11, tableHolds_rc16 h12, tableHolds_rc16 h13, tableHolds_rc16 h14,
    tableHolds_rc16 h15⟩

end U32StoreMulFpFp

namespace U32StoreDivFpFp

/-- The memory accesses of an enabled row. -/
def accs (r : Row) : List Access :=
  [⟨r.pc, r.inst_prev_clock, ⟨18, r.src0_off, r.src1_off, r.dst_off⟩, ⟨18, r.src0_off, r.src1_off, r.dst_off⟩⟩,
    ⟨r.pc + 1, r.inst_prev_clock, ⟨r.dst_rem_off, 0, 0, 0⟩, ⟨r.dst_rem_off, 0, 0, 0⟩⟩,
    ⟨r.fp + r.src0_off, r.op0_prev_clock_lo, ⟨r.n_lo, 0, 0, 0⟩, ⟨r.n_lo, 0, 0, 0⟩⟩,
    ⟨r.fp + r.src0_off + 1, r.op0_prev_clock_hi, ⟨r.n_hi, 0, 0, 0⟩, ⟨r.n_hi, 0, 0, 0⟩⟩,
    ⟨r.fp + r.src1_off, r.op1_prev_clock_lo, ⟨r.d_0 + r.d_1 * 256, 0, 0, 0⟩, ⟨r.d_0 + r.d_1 * 256, 0, 0, 0⟩⟩,
    ⟨r.fp + r.src1_off + 1, r.op1_prev_clock_hi, ⟨r.d_2 + r.d_3 * 256, 0, 0, 0⟩, ⟨r.d_2 + r.d_3 * 256, 0, 0, 0⟩⟩,
    ⟨r.fp + r.dst_off, r.dst_prev_clock_lo, ⟨r.dst_prev_val_lo, 0, 0, 0⟩, ⟨r.q_0 + r.q_1 * 256, 0, 0, 0⟩⟩,
    ⟨r.fp + r.dst_off + 1, r.dst_prev_clock_hi, ⟨r.dst_prev_val_hi, 0, 0, 0⟩, ⟨r.q_2 + r.q_3 * 256, 0, 0, 0⟩⟩,
    ⟨r.fp + r.dst_rem_off, r.dst_rem_prev_clock_lo, ⟨r.dst_rem_prev_val_lo, 0, 0, 0⟩, ⟨r.r_lo, 0, 0, 0⟩⟩,
    ⟨r.fp + r.dst_rem_off + 1, r.dst_rem_prev_clock_hi, ⟨r.dst_rem_prev_val_hi, 0, 0, 0⟩, ⟨r.r_hi, 0, 0, 0⟩⟩]

/-- The next `pc` of an enabled row. -/
def nextPc (r : Row) : M31 := r.pc + 1 + 1

/-- The next `fp` of an enabled row. -/
def nextFp (r : Row) : M31 := r.fp

theorem inert {r : Row} (h : r.enabler = 0) : Inert (evaluate r) := by
  simp [Inert, evaluate, h]

theorem performs {r : Row} (h : r.enabler = 1) :
    Performs (evaluate r) r.pc r.fp r.clock (nextPc r) (nextFp r) (accs r) := by
  refine ⟨?_, ?_, ?_, ?_⟩ <;>
    simp [Eval.of, evaluate, h, Entry.padded, Rel.arity, Access.entries, QM31.limbs, accs, nextPc, nextFp]

/-- The clocks that are checked. -/
theorem ordered_partly {r : Row} (h : r.enabler = 1) (ht : (evaluate r).TablesHold) :
    (r.clock - r.inst_prev_clock - 1).val < 2 ^ 20 ∧
    (r.clock - r.inst_prev_clock - 1).val < 2 ^ 20 ∧
    (r.clock - r.op0_prev_clock_lo - 1).val < 2 ^ 20 ∧
    (r.clock - r.op0_prev_clock_hi - 1).val < 2 ^ 20 ∧
    (r.clock - r.dst_prev_clock_lo - 1).val < 2 ^ 20 ∧
    (r.clock - r.dst_prev_clock_hi - 1).val < 2 ^ 20 ∧
    (r.clock - r.dst_rem_prev_clock_lo - 1).val < 2 ^ 20 ∧
    (r.clock - r.dst_rem_prev_clock_hi - 1).val < 2 ^ 20 := by
  simp only [Eval.TablesHold, evaluate, h, List.forall_mem_cons, List.not_mem_nil, false_implies, implies_true,
    and_true] at ht
  obtain ⟨-, -, -, -, -, -, -, -, -, -, -, -, -, -, -, -, -, -, -, -, -, -, -, -, -, -, -, -, -, -, -, -, -, -, -, -,
    -, -, -, -, -, -, -, -, -, -, -, -, -, -, -, h29, h30, h31, h32, h33, h34, h35⟩ := ht
  exact ⟨tableHolds_rc20 h29, tableHolds_rc20 h29, tableHolds_rc20 h30, tableHolds_rc20 h31, tableHolds_rc20 h32,
    tableHolds_rc20 h33, tableHolds_rc20 h34, tableHolds_rc20 h35⟩

theorem ranges {r : Row} (h : r.enabler = 1) (ht : (evaluate r).TablesHold) :
    r.d_0.val < 2 ^ 8 ∧
    r.d_1.val < 2 ^ 8 ∧
    r.d_2.val < 2 ^ 8 ∧
    r.d_3.val < 2 ^ 8 ∧
    r.q_0.val < 2 ^ 8 ∧
    r.q_1.val < 2 ^ 8 ∧
    r.q_2.val < 2 ^ 8 ∧
    r.q_3.val < 2 ^ 8 ∧
    r.prod_0.val < 2 ^ 8 ∧
    r.prod_1.val < 2 ^ 8 ∧
    r.prod_2.val < 2 ^ 8 ∧
    r.prod_3.val < 2 ^ 8 ∧
    r.prod_4.val < 2 ^ 8 ∧
    r.prod_5.val < 2 ^ 8 ∧
    r.prod_6.val < 2 ^ 8 ∧
    r.prod_7.val < 2 ^ 8 ∧
    r.n_lo.val < 2 ^ 16 ∧
    r.n_hi.val < 2 ^ 16 ∧
    r.r_lo.val < 2 ^ 16 ∧
    r.r_hi.val < 2 ^ 16 ∧
    (254 - r.mul_carry_0).val < 2 ^ 16 ∧
    (509 - r.mul_carry_1).val < 2 ^ 16 ∧
    (764 - r.mul_carry_2).val < 2 ^ 16 ∧
    (1019 - r.mul_carry_3).val < 2 ^ 16 ∧
    (765 - r.mul_carry_4).val < 2 ^ 16 ∧
    (510 - r.mul_carry_5).val < 2 ^ 16 ∧
    (255 - r.mul_carry_6).val < 2 ^ 16 ∧
    (r.d_0 + r.d_1 * 256 + r.sub_borrow_0 * 65536 - r.r_lo - 1).val < 2 ^ 16 ∧
    (r.d_2 + r.d_3 * 256 + r.sub_borrow_1 * 65536 - r.r_hi - r.sub_borrow_0).val < 2 ^ 16 := by
  simp only [Eval.TablesHold, evaluate, h, List.forall_mem_cons, List.not_mem_nil, false_implies, implies_true,
    and_true] at ht
  obtain ⟨-, -, -, -, -, -, -, -, -, -, -, -, -, -, -, -, -, -, -, -, -, -, h0, h1, h2, h3, h4, h5, h6, h7, h8, h9,
    h10, h11, h12, h13, h14, h15, h16, h17, h18, h19, h20, h21, h22, h23, h24, h25, h26, h27, h28, -, -, -, -, -, -,
    -⟩ := ht
  exact ⟨tableHolds_rc8 h0, tableHolds_rc8 h1, tableHolds_rc8 h2, tableHolds_rc8 h3, tableHolds_rc8 h4,
    tableHolds_rc8 h5, tableHolds_rc8 h6, tableHolds_rc8 h7, tableHolds_rc8 h8, tableHolds_rc8 h9,
    tableHolds_rc8 h10, tableHolds_rc8 h11, tableHolds_rc8 h12, tableHolds_rc8 h13, tableHolds_rc8 h14,
    tableHolds_rc8 h15, tableHolds_rc16 h16, tableHolds_rc16 h17, tableHolds_rc16 h18, tableHolds_rc16 h19,
    tableHolds_rc16 h20, tableHolds_rc16 h21, tableHolds_rc16 h22, tableHolds_rc16 h23, tableHolds_rc16 h24,
    tableHolds_rc16 h25, tableHolds_rc16 h26, tableHolds_rc16 h27, tableHolds_rc16 h28⟩

end U32StoreDivFpFp

namespace U32StoreAddFpImm

/-- The memory accesses of an enabled row. -/
def accs (r : Row) : List Access :=
  [⟨r.pc, r.inst_prev_clock, ⟨19, r.src_off, r.imm_lo, r.imm_hi⟩, ⟨19, r.src_off, r.imm_lo, r.imm_hi⟩⟩,
    ⟨r.pc + 1, r.inst_prev_clock, ⟨r.dst_off, 0, 0, 0⟩, ⟨r.dst_off, 0, 0, 0⟩⟩,
    ⟨r.fp + r.src_off, r.op0_prev_clock_lo, ⟨r.op0_val_lo, 0, 0, 0⟩, ⟨r.op0_val_lo, 0, 0, 0⟩⟩,
    ⟨r.fp + r.src_off + 1, r.op0_prev_clock_hi, ⟨r.op0_val_hi, 0, 0, 0⟩, ⟨r.op0_val_hi, 0, 0, 0⟩⟩,
    ⟨r.fp + r.dst_off, r.dst_prev_clock_lo, ⟨r.dst_prev_val_lo, 0, 0, 0⟩,
        ⟨r.op0_val_lo + r.imm_lo - r.u16_carry * 65536, 0, 0, 0⟩⟩,
    ⟨r.fp + r.dst_off + 1, r.dst_prev_clock_hi, ⟨r.dst_prev_val_hi, 0, 0, 0⟩,
        ⟨r.op0_val_hi + r.imm_hi + r.u16_carry - r.u32_carry * 65536, 0, 0, 0⟩⟩]

/-- The next `pc` of an enabled row. -/
def nextPc (r : Row) : M31 := r.pc + 1 + 1

/-- The next `fp` of an enabled row. -/
def nextFp (r : Row) : M31 := r.fp

theorem inert {r : Row} (h : r.enabler = 0) : Inert (evaluate r) := by
  simp [Inert, evaluate, h]

theorem performs {r : Row} (h : r.enabler = 1) :
    Performs (evaluate r) r.pc r.fp r.clock (nextPc r) (nextFp r) (accs r) := by
  refine ⟨?_, ?_, ?_, ?_⟩ <;>
    simp [Eval.of, evaluate, h, Entry.padded, Rel.arity, Access.entries, QM31.limbs, accs, nextPc, nextFp]

theorem ordered {r : Row} (h : r.enabler = 1) (ht : (evaluate r).TablesHold) : Ordered r.clock (accs r) := by
  simp only [Eval.TablesHold, evaluate, h, List.forall_mem_cons, List.not_mem_nil, false_implies, implies_true,
    and_true] at ht
  obtain ⟨-, -, -, -, -, -, -, -, -, -, -, -, -, -, -, -, -, -, -, -, h6, h7, h8, h9, h10⟩ := ht
  simp only [Ordered, accs, List.forall_mem_cons, List.not_mem_nil, false_implies, implies_true, and_true]
  exact ⟨tableHolds_rc20 h6, tableHolds_rc20 h6, tableHolds_rc20 h7, tableHolds_rc20 h8, tableHolds_rc20 h9,
    tableHolds_rc20 h10⟩

theorem ranges {r : Row} (h : r.enabler = 1) (ht : (evaluate r).TablesHold) :
    r.op0_val_lo.val < 2 ^ 16 ∧
    r.op0_val_hi.val < 2 ^ 16 ∧
    r.imm_lo.val < 2 ^ 16 ∧
    r.imm_hi.val < 2 ^ 16 ∧
    (r.op0_val_lo + r.imm_lo - r.u16_carry * 65536).val < 2 ^ 16 ∧
    (r.op0_val_hi + r.imm_hi + r.u16_carry - r.u32_carry * 65536).val < 2 ^ 16 := by
  simp only [Eval.TablesHold, evaluate, h, List.forall_mem_cons, List.not_mem_nil, false_implies, implies_true,
    and_true] at ht
  obtain ⟨-, -, -, -, -, -, -, -, -, -, -, -, -, -, h0, h1, h2, h3, h4, h5, -, -, -, -, -⟩ := ht
  exact ⟨tableHolds_rc16 h0, tableHolds_rc16 h1, tableHolds_rc16 h2, tableHolds_rc16 h3, tableHolds_rc16 h4,
    tableHolds_rc16 h5⟩

end U32StoreAddFpImm

namespace U32StoreMulFpImm

/-- The memory accesses of an enabled row. -/
def accs (r : Row) : List Access :=
  [⟨r.pc, r.inst_prev_clock, ⟨21, r.src_off, r.imm_0 + r.imm_1 * 256, r.imm_2 + r.imm_3 * 256⟩, ⟨21, r.src_off,
        r.imm_0 + r.imm_1 * 256, r.imm_2 + r.imm_3 * 256⟩⟩,
    ⟨r.pc + 1, r.inst_prev_clock, ⟨r.dst_off, 0, 0, 0⟩, ⟨r.dst_off, 0, 0, 0⟩⟩,
    ⟨r.fp + r.src_off, r.op0_prev_clock_lo, ⟨r.op0_0 + r.op0_1 * 256, 0, 0, 0⟩, ⟨r.op0_0 + r.op0_1 * 256, 0, 0, 0⟩⟩,
    ⟨r.fp + r.src_off + 1, r.op0_prev_clock_hi, ⟨r.op0_2 + r.op0_3 * 256, 0, 0, 0⟩, ⟨r.op0_2 + r.op0_3 * 256, 0, 0,
        0⟩⟩,
    ⟨r.fp + r.dst_off, r.dst_prev_clock_lo, ⟨r.dst_prev_val_lo, 0, 0, 0⟩, ⟨r.res_0 + r.res_1 * 256, 0, 0, 0⟩⟩,
    ⟨r.fp + r.dst_off + 1, r.dst_prev_clock_hi, ⟨r.dst_prev_val_hi, 0, 0, 0⟩, ⟨r.res_2 + r.res_3 * 256, 0, 0, 0⟩⟩]

/-- The next `pc` of an enabled row. -/
def nextPc (r : Row) : M31 := r.pc + 1 + 1

/-- The next `fp` of an enabled row. -/
def nextFp (r : Row) : M31 := r.fp

theorem inert {r : Row} (h : r.enabler = 0) : Inert (evaluate r) := by
  simp [Inert, evaluate, h]

theorem performs {r : Row} (h : r.enabler = 1) :
    Performs (evaluate r) r.pc r.fp r.clock (nextPc r) (nextFp r) (accs r) := by
  refine ⟨?_, ?_, ?_, ?_⟩ <;>
    simp [Eval.of, evaluate, h, Entry.padded, Rel.arity, Access.entries, QM31.limbs, accs, nextPc, nextFp]

theorem ordered {r : Row} (h : r.enabler = 1) (ht : (evaluate r).TablesHold) : Ordered r.clock (accs r) := by
  simp only [Eval.TablesHold, evaluate, h, List.forall_mem_cons, List.not_mem_nil, false_implies, implies_true,
    and_true] at ht
  obtain ⟨-, -, -, -, -, -, -, -, -, -, -, -, -, -, -, -, -, -, -, -, -, -, -, -, -, -, -, -, -, -, h16, h17, h18,
    h19, h20⟩ := ht
  simp only [Ordered, accs, List.forall_mem_cons, List.not_mem_nil, false_implies, implies_true, and_true]
  exact ⟨tableHolds_rc20 h16, tableHolds_rc20 h16, tableHolds_rc20 h17, tableHolds_rc20 h18, tableHolds_rc20 h19,
    tableHolds_rc20 h20⟩

theorem ranges {r : Row} (h : r.enabler = 1) (ht : (evaluate r).TablesHold) :
    r.op0_0.val < 2 ^ 8 ∧
    r.op0_1.val < 2 ^ 8 ∧
    r.op0_2.val < 2 ^ 8 ∧
    r.op0_3.val < 2 ^ 8 ∧
    r.imm_0.val < 2 ^ 8 ∧
    r.imm_1.val < 2 ^ 8 ∧
    r.imm_2.val < 2 ^ 8 ∧
    r.imm_3.val < 2 ^ 8 ∧
    r.res_0.val < 2 ^ 8 ∧
    r.res_1.val < 2 ^ 8 ∧
    r.res_2.val < 2 ^ 8 ∧
    r.res_3.val < 2 ^ 8 ∧
    (254 - r.carry_0).val < 2 ^ 16 ∧
    (509 - r.carry_1).val < 2 ^ 16 ∧
    (764 - r.carry_2).val < 2 ^ 16 ∧
    (1019 - r.carry_3).val < 2 ^ 16 := by
  simp only [Eval.TablesHold, evaluate, h, List.forall_mem_cons, List.not_mem_nil, false_implies, implies_true,
    and_true] at ht
  obtain ⟨-, -, -, -, -, -, -, -, -, -, -, -, -, -, h0, h1, h2, h3, h4, h5, h6, h7, h8, h9, h10, h11, h12, h13, h14,
    h15, -, -, -, -, -⟩ := ht
  exact ⟨tableHolds_rc8 h0, tableHolds_rc8 h1, tableHolds_rc8 h2, tableHolds_rc8 h3, tableHolds_rc8 h4,
    tableHolds_rc8 h5, tableHolds_rc8 h6, tableHolds_rc8 h7, tableHolds_rc8 h8, tableHolds_rc8 h9,
    tableHolds_rc8 h10, tableHolds_rc8 h11, tableHolds_rc16 h12, tableHolds_rc16 h13, tableHolds_rc16 h14,
    tableHolds_rc16 h15⟩

end U32StoreMulFpImm

namespace U32StoreDivFpImm

/-- The memory accesses of an enabled row. -/
def accs (r : Row) : List Access :=
  [⟨r.pc, r.inst_prev_clock, ⟨22, r.src_off, r.d_0 + r.d_1 * 256, r.d_2 + r.d_3 * 256⟩, ⟨22, r.src_off,
        r.d_0 + r.d_1 * 256, r.d_2 + r.d_3 * 256⟩⟩,
    ⟨r.pc + 1, r.inst_prev_clock, ⟨r.dst_off, r.dst_rem_off, 0, 0⟩, ⟨r.dst_off, r.dst_rem_off, 0, 0⟩⟩,
    ⟨r.fp + r.src_off, r.op0_prev_clock_lo, ⟨r.n_lo, 0, 0, 0⟩, ⟨r.n_lo, 0, 0, 0⟩⟩,
    ⟨r.fp + r.src_off + 1, r.op0_prev_clock_hi, ⟨r.n_hi, 0, 0, 0⟩, ⟨r.n_hi, 0, 0, 0⟩⟩,
    ⟨r.fp + r.dst_off, r.dst_prev_clock_lo, ⟨r.dst_prev_val_lo, 0, 0, 0⟩, ⟨r.q_0 + r.q_1 * 256, 0, 0, 0⟩⟩,
    ⟨r.fp + r.dst_off + 1, r.dst_prev_clock_hi, ⟨r.dst_prev_val_hi, 0, 0, 0⟩, ⟨r.q_2 + r.q_3 * 256, 0, 0, 0⟩⟩,
    ⟨r.fp + r.dst_rem_off, r.dst_rem_prev_clock_lo, ⟨r.dst_rem_prev_val_lo, 0, 0, 0⟩, ⟨r.r_lo, 0, 0, 0⟩⟩,
    ⟨r.fp + r.dst_rem_off + 1, r.dst_rem_prev_clock_hi, ⟨r.dst_rem_prev_val_hi, 0, 0, 0⟩, ⟨r.r_hi, 0, 0, 0⟩⟩]

/-- The next `pc` of an enabled row. -/
def nextPc (r : Row) : M31 := r.pc + 1 + 1

/-- The next `fp` of an enabled row. -/
def nextFp (r : Row) : M31 := r.fp

theorem inert {r : Row} (h : r.enabler = 0) : Inert (evaluate r) := by
  simp [Inert, evaluate, h]

theorem performs {r : Row} (h : r.enabler = 1) :
    Performs (evaluate r) r.pc r.fp r.clock (nextPc r) (nextFp r) (accs r) := by
  refine ⟨?_, ?_, ?_, ?_⟩ <;>
    simp [Eval.of, evaluate, h, Entry.padded, Rel.arity, Access.entries, QM31.limbs, accs, nextPc, nextFp]

theorem ordered {r : Row} (h : r.enabler = 1) (ht : (evaluate r).TablesHold) : Ordered r.clock (accs r) := by
  simp only [Eval.TablesHold, evaluate, h, List.forall_mem_cons, List.not_mem_nil, false_implies, implies_true,
    and_true] at ht
  obtain ⟨-, -, -, -, -, -, -, -, -, -, -, -, -, -, -, -, -, -, -, -, -, -, -, -, -, -, -, -, -, -, -, -, -, -, -, -,
    -, -, -, -, -, -, -, -, -, -, -, h29, h30, h31, h32, h33, h34, h35⟩ := ht
  simp only [Ordered, accs, List.forall_mem_cons, List.not_mem_nil, false_implies, implies_true, and_true]
  exact ⟨tableHolds_rc20 h29, tableHolds_rc20 h29, tableHolds_rc20 h30, tableHolds_rc20 h31, tableHolds_rc20 h32,
    tableHolds_rc20 h33, tableHolds_rc20 h34, tableHolds_rc20 h35⟩

theorem ranges {r : Row} (h : r.enabler = 1) (ht : (evaluate r).TablesHold) :
    r.d_0.val < 2 ^ 8 ∧
    r.d_1.val < 2 ^ 8 ∧
    r.d_2.val < 2 ^ 8 ∧
    r.d_3.val < 2 ^ 8 ∧
    r.q_0.val < 2 ^ 8 ∧
    r.q_1.val < 2 ^ 8 ∧
    r.q_2.val < 2 ^ 8 ∧
    r.q_3.val < 2 ^ 8 ∧
    r.prod_0.val < 2 ^ 8 ∧
    r.prod_1.val < 2 ^ 8 ∧
    r.prod_2.val < 2 ^ 8 ∧
    r.prod_3.val < 2 ^ 8 ∧
    r.prod_4.val < 2 ^ 8 ∧
    r.prod_5.val < 2 ^ 8 ∧
    r.prod_6.val < 2 ^ 8 ∧
    r.prod_7.val < 2 ^ 8 ∧
    r.n_lo.val < 2 ^ 16 ∧
    r.n_hi.val < 2 ^ 16 ∧
    r.r_lo.val < 2 ^ 16 ∧
    r.r_hi.val < 2 ^ 16 ∧
    (254 - r.mul_carry_0).val < 2 ^ 16 ∧
    (509 - r.mul_carry_1).val < 2 ^ 16 ∧
    (764 - r.mul_carry_2).val < 2 ^ 16 ∧
    (1019 - r.mul_carry_3).val < 2 ^ 16 ∧
    (765 - r.mul_carry_4).val < 2 ^ 16 ∧
    (510 - r.mul_carry_5).val < 2 ^ 16 ∧
    (255 - r.mul_carry_6).val < 2 ^ 16 ∧
    (r.d_0 + r.d_1 * 256 + r.sub_borrow_0 * 65536 - r.r_lo - 1).val < 2 ^ 16 ∧
    (r.d_2 + r.d_3 * 256 + r.sub_borrow_1 * 65536 - r.r_hi - r.sub_borrow_0).val < 2 ^ 16 := by
  simp only [Eval.TablesHold, evaluate, h, List.forall_mem_cons, List.not_mem_nil, false_implies, implies_true,
    and_true] at ht
  obtain ⟨-, -, -, -, -, -, -, -, -, -, -, -, -, -, -, -, -, -, h0, h1, h2, h3, h4, h5, h6, h7, h8, h9, h10, h11,
    h12, h13, h14, h15, h16, h17, h18, h19, h20, h21, h22, h23, h24, h25, h26, h27, h28, -, -, -, -, -, -, -⟩ := ht
  exact ⟨tableHolds_rc8 h0, tableHolds_rc8 h1, tableHolds_rc8 h2, tableHolds_rc8 h3, tableHolds_rc8 h4,
    tableHolds_rc8 h5, tableHolds_rc8 h6, tableHolds_rc8 h7, tableHolds_rc8 h8, tableHolds_rc8 h9,
    tableHolds_rc8 h10, tableHolds_rc8 h11, tableHolds_rc8 h12, tableHolds_rc8 h13, tableHolds_rc8 h14,
    tableHolds_rc8 h15, tableHolds_rc16 h16, tableHolds_rc16 h17, tableHolds_rc16 h18, tableHolds_rc16 h19,
    tableHolds_rc16 h20, tableHolds_rc16 h21, tableHolds_rc16 h22, tableHolds_rc16 h23, tableHolds_rc16 h24,
    tableHolds_rc16 h25, tableHolds_rc16 h26, tableHolds_rc16 h27, tableHolds_rc16 h28⟩

end U32StoreDivFpImm

namespace U32StoreImm

/-- The memory accesses of an enabled row. -/
def accs (r : Row) : List Access :=
  [⟨r.pc, r.inst_prev_clock, ⟨23, r.imm_lo, r.imm_hi, r.dst_off⟩, ⟨23, r.imm_lo, r.imm_hi, r.dst_off⟩⟩,
    ⟨r.fp + r.dst_off, r.dst_prev_clock_lo, ⟨r.dst_prev_val_lo, 0, 0, 0⟩, ⟨r.imm_lo, 0, 0, 0⟩⟩,
    ⟨r.fp + r.dst_off + 1, r.dst_prev_clock_hi, ⟨r.dst_prev_val_hi, 0, 0, 0⟩, ⟨r.imm_hi, 0, 0, 0⟩⟩]

/-- The next `pc` of an enabled row. -/
def nextPc (r : Row) : M31 := r.pc + 1

/-- The next `fp` of an enabled row. -/
def nextFp (r : Row) : M31 := r.fp

theorem inert {r : Row} (h : r.enabler = 0) : Inert (evaluate r) := by
  simp [Inert, evaluate, h]

theorem performs {r : Row} (h : r.enabler = 1) :
    Performs (evaluate r) r.pc r.fp r.clock (nextPc r) (nextFp r) (accs r) := by
  refine ⟨?_, ?_, ?_, ?_⟩ <;>
    simp [Eval.of, evaluate, h, Entry.padded, Rel.arity, Access.entries, QM31.limbs, accs, nextPc, nextFp]

theorem ordered {r : Row} (h : r.enabler = 1) (ht : (evaluate r).TablesHold) : Ordered r.clock (accs r) := by
  simp only [Eval.TablesHold, evaluate, h, List.forall_mem_cons, List.not_mem_nil, false_implies, implies_true,
    and_true] at ht
  obtain ⟨-, -, -, -, -, -, -, -, -, -, h2, h3, h4⟩ := ht
  simp only [Ordered, accs, List.forall_mem_cons, List.not_mem_nil, false_implies, implies_true, and_true]
  exact ⟨tableHolds_rc20 h2, tableHolds_rc20 h3, tableHolds_rc20 h4⟩

theorem ranges {r : Row} (h : r.enabler = 1) (ht : (evaluate r).TablesHold) :
    r.imm_lo.val < 2 ^ 16 ∧
    r.imm_hi.val < 2 ^ 16 := by
  simp only [Eval.TablesHold, evaluate, h, List.forall_mem_cons, List.not_mem_nil, false_implies, implies_true,
    and_true] at ht
  obtain ⟨-, -, -, -, -, -, -, -, h0, h1, -, -, -⟩ := ht
  exact ⟨tableHolds_rc16 h0, tableHolds_rc16 h1⟩

end U32StoreImm

namespace U32StoreEqFpFp

/-- The memory accesses of an enabled row. -/
def accs (r : Row) : List Access :=
  [⟨r.pc, r.inst_prev_clock, ⟨24, r.src0_off, r.src1_off, r.dst_off⟩, ⟨24, r.src0_off, r.src1_off, r.dst_off⟩⟩,
    ⟨r.fp + r.src0_off, r.op0_prev_clock_lo, ⟨r.op0_val_lo, 0, 0, 0⟩, ⟨r.op0_val_lo, 0, 0, 0⟩⟩,
    ⟨r.fp + r.src0_off + 1, r.op0_prev_clock_hi, ⟨r.op0_val_hi, 0, 0, 0⟩, ⟨r.op0_val_hi, 0, 0, 0⟩⟩,
    ⟨r.fp + r.src1_off, r.op1_prev_clock_lo, ⟨r.op1_val_lo, 0, 0, 0⟩, ⟨r.op1_val_lo, 0, 0, 0⟩⟩,
    ⟨r.fp + r.src1_off + 1, r.op1_prev_clock_hi, ⟨r.op1_val_hi, 0, 0, 0⟩, ⟨r.op1_val_hi, 0, 0, 0⟩⟩,
    ⟨r.fp + r.dst_off, r.dst_prev_clock, ⟨r.dst_prev_val, 0, 0, 0⟩, ⟨r.is_eq_prod, 0, 0, 0⟩⟩]

/-- The next `pc` of an enabled row. -/
def nextPc (r : Row) : M31 := r.pc + 1

/-- The next `fp` of an enabled row. -/
def nextFp (r : Row) : M31 := r.fp

theorem inert {r : Row} (h : r.enabler = 0) : Inert (evaluate r) := by
  simp [Inert, evaluate, h]

theorem performs {r : Row} (h : r.enabler = 1) :
    Performs (evaluate r) r.pc r.fp r.clock (nextPc r) (nextFp r) (accs r) := by
  refine ⟨?_, ?_, ?_, ?_⟩ <;>
    simp [Eval.of, evaluate, h, Entry.padded, Rel.arity, Access.entries, QM31.limbs, accs, nextPc, nextFp]

theorem ordered {r : Row} (h : r.enabler = 1) (ht : (evaluate r).TablesHold) : Ordered r.clock (accs r) := by
  simp only [Eval.TablesHold, evaluate, h, List.forall_mem_cons, List.not_mem_nil, false_implies, implies_true,
    and_true] at ht
  obtain ⟨-, -, -, -, -, -, -, -, -, -, -, -, -, -, -, -, -, -, h4, h5, h6, h7, h8, h9⟩ := ht
  simp only [Ordered, accs, List.forall_mem_cons, List.not_mem_nil, false_implies, implies_true, and_true]
  exact ⟨tableHolds_rc20 h4, tableHolds_rc20 h5, tableHolds_rc20 h6, tableHolds_rc20 h7, tableHolds_rc20 h8,
    tableHolds_rc20 h9⟩

theorem ranges {r : Row} (h : r.enabler = 1) (ht : (evaluate r).TablesHold) :
    r.op0_val_lo.val < 2 ^ 16 ∧
    r.op0_val_hi.val < 2 ^ 16 ∧
    r.op1_val_lo.val < 2 ^ 16 ∧
    r.op1_val_hi.val < 2 ^ 16 := by
  simp only [Eval.TablesHold, evaluate, h, List.forall_mem_cons, List.not_mem_nil, false_implies, implies_true,
    and_true] at ht
  obtain ⟨-, -, -, -, -, -, -, -, -, -, -, -, -, -, h0, h1, h2, h3, -, -, -, -, -, -⟩ := ht
  exact ⟨tableHolds_rc16 h0, tableHolds_rc16 h1, tableHolds_rc16 h2, tableHolds_rc16 h3⟩

end U32StoreEqFpFp

namespace U32StoreLtFpFp

/-- The memory accesses of an enabled row. -/
def accs (r : Row) : List Access :=
  [⟨r.pc, r.inst_prev_clock, ⟨28, r.src0_off, r.src1_off, r.dst_off⟩, ⟨28, r.src0_off, r.src1_off, r.dst_off⟩⟩,
    ⟨r.fp + r.src0_off, r.op0_prev_clock_lo, ⟨r.op0_val_lo, 0, 0, 0⟩, ⟨r.op0_val_lo, 0, 0, 0⟩⟩,
    ⟨r.fp + r.src0_off + 1, r.op0_prev_clock_hi, ⟨r.op0_val_hi, 0, 0, 0⟩, ⟨r.op0_val_hi, 0, 0, 0⟩⟩,
    ⟨r.fp + r.src1_off, r.op1_prev_clock_lo, ⟨r.op1_val_lo, 0, 0, 0⟩, ⟨r.op1_val_lo, 0, 0, 0⟩⟩,
    ⟨r.fp + r.src1_off + 1, r.op1_prev_clock_hi, ⟨r.op1_val_hi, 0, 0, 0⟩, ⟨r.op1_val_hi, 0, 0, 0⟩⟩,
    ⟨r.fp + r.dst_off, r.dst_prev_clock, ⟨r.dst_prev_val, 0, 0, 0⟩, ⟨1 - r.borrow_hi, 0, 0, 0⟩⟩]

/-- The next `pc` of an enabled row. -/
def nextPc (r : Row) : M31 := r.pc + 1

/-- The next `fp` of an enabled row. -/
def nextFp (r : Row) : M31 := r.fp

theorem inert {r : Row} (h : r.enabler = 0) : Inert (evaluate r) := by
  simp [Inert, evaluate, h]

theorem performs {r : Row} (h : r.enabler = 1) :
    Performs (evaluate r) r.pc r.fp r.clock (nextPc r) (nextFp r) (accs r) := by
  refine ⟨?_, ?_, ?_, ?_⟩ <;>
    simp [Eval.of, evaluate, h, Entry.padded, Rel.arity, Access.entries, QM31.limbs, accs, nextPc, nextFp]

theorem ordered {r : Row} (h : r.enabler = 1) (ht : (evaluate r).TablesHold) : Ordered r.clock (accs r) := by
  simp only [Eval.TablesHold, evaluate, h, List.forall_mem_cons, List.not_mem_nil, false_implies, implies_true,
    and_true] at ht
  obtain ⟨-, -, -, -, -, -, -, -, -, -, -, -, -, -, -, -, -, -, -, -, h6, h7, h8, h9, h10, h11⟩ := ht
  simp only [Ordered, accs, List.forall_mem_cons, List.not_mem_nil, false_implies, implies_true, and_true]
  exact ⟨tableHolds_rc20 h6, tableHolds_rc20 h7, tableHolds_rc20 h8, tableHolds_rc20 h9, tableHolds_rc20 h10,
    tableHolds_rc20 h11⟩

theorem ranges {r : Row} (h : r.enabler = 1) (ht : (evaluate r).TablesHold) :
    r.op0_val_lo.val < 2 ^ 16 ∧
    r.op0_val_hi.val < 2 ^ 16 ∧
    r.op1_val_lo.val < 2 ^ 16 ∧
    r.op1_val_hi.val < 2 ^ 16 ∧
    (r.op1_val_lo - 1 + r.borrow_lo * 65536 - r.op0_val_lo).val < 2 ^ 16 ∧
    (r.op1_val_hi - r.borrow_lo + r.borrow_hi * 65536 - r.op0_val_hi).val < 2 ^ 16 := by
  simp only [Eval.TablesHold, evaluate, h, List.forall_mem_cons, List.not_mem_nil, false_implies, implies_true,
    and_true] at ht
  obtain ⟨-, -, -, -, -, -, -, -, -, -, -, -, -, -, h0, h1, h2, h3, h4, h5, -, -, -, -, -, -⟩ := ht
  exact ⟨tableHolds_rc16 h0, tableHolds_rc16 h1, tableHolds_rc16 h2, tableHolds_rc16 h3, tableHolds_rc16 h4,
    tableHolds_rc16 h5⟩

end U32StoreLtFpFp

namespace U32StoreEqFpImm

/-- The memory accesses of an enabled row. -/
def accs (r : Row) : List Access :=
  [⟨r.pc, r.inst_prev_clock, ⟨30, r.src0_off, r.imm_lo, r.imm_hi⟩, ⟨30, r.src0_off, r.imm_lo, r.imm_hi⟩⟩,
    ⟨r.pc, r.inst_prev_clock, ⟨r.dst_off, 0, 0, 0⟩, ⟨r.dst_off, 0, 0, 0⟩⟩,
    ⟨r.fp + r.src0_off, r.op0_prev_clock_lo, ⟨r.op0_val_lo, 0, 0, 0⟩, ⟨r.op0_val_lo, 0, 0, 0⟩⟩,
    ⟨r.fp + r.src0_off + 1, r.op0_prev_clock_hi, ⟨r.op0_val_hi, 0, 0, 0⟩, ⟨r.op0_val_hi, 0, 0, 0⟩⟩,
    ⟨r.fp + r.dst_off, r.dst_prev_clock, ⟨r.dst_prev_val, 0, 0, 0⟩,
        ⟨1 - (r.op0_val_lo + r.op0_val_hi * 65536 - r.imm_lo - r.imm_hi * 65536) * r.diff_inv, 0, 0, 0⟩⟩]

/-- The next `pc` of an enabled row. -/
def nextPc (r : Row) : M31 := r.pc + 1 + 1

/-- The next `fp` of an enabled row. -/
def nextFp (r : Row) : M31 := r.fp

theorem inert {r : Row} (h : r.enabler = 0) : Inert (evaluate r) := by
  simp [Inert, evaluate, h]

theorem performs {r : Row} (h : r.enabler = 1) :
    Performs (evaluate r) r.pc r.fp r.clock (nextPc r) (nextFp r) (accs r) := by
  refine ⟨?_, ?_, ?_, ?_⟩ <;>
    simp [Eval.of, evaluate, h, Entry.padded, Rel.arity, Access.entries, QM31.limbs, accs, nextPc, nextFp]

theorem ordered {r : Row} (h : r.enabler = 1) (ht : (evaluate r).TablesHold) : Ordered r.clock (accs r) := by
  simp only [Eval.TablesHold, evaluate, h, List.forall_mem_cons, List.not_mem_nil, false_implies, implies_true,
    and_true] at ht
  obtain ⟨-, -, -, -, -, -, -, -, -, -, -, -, -, -, -, -, h4, h5, h6, h7⟩ := ht
  simp only [Ordered, accs, List.forall_mem_cons, List.not_mem_nil, false_implies, implies_true, and_true]
  exact ⟨tableHolds_rc20 h4, tableHolds_rc20 h4, tableHolds_rc20 h5, tableHolds_rc20 h6, tableHolds_rc20 h7⟩

theorem ranges {r : Row} (h : r.enabler = 1) (ht : (evaluate r).TablesHold) :
    r.op0_val_lo.val < 2 ^ 16 ∧
    r.op0_val_hi.val < 2 ^ 16 ∧
    r.imm_lo.val < 2 ^ 16 ∧
    r.imm_hi.val < 2 ^ 16 := by
  simp only [Eval.TablesHold, evaluate, h, List.forall_mem_cons, List.not_mem_nil, false_implies, implies_true,
    and_true] at ht
  obtain ⟨-, -, -, -, -, -, -, -, -, -, -, -, h0, h1, h2, h3, -, -, -, -⟩ := ht
  exact ⟨tableHolds_rc16 h0, tableHolds_rc16 h1, tableHolds_rc16 h2, tableHolds_rc16 h3⟩

end U32StoreEqFpImm

namespace U32StoreLtFpImm

/-- The memory accesses of an enabled row. -/
def accs (r : Row) : List Access :=
  [⟨r.pc, r.inst_prev_clock, ⟨34, r.src_off, r.imm_lo, r.imm_hi⟩, ⟨34, r.src_off, r.imm_lo, r.imm_hi⟩⟩,
    ⟨r.pc + 1, r.inst_prev_clock, ⟨r.dst_off, 0, 0, 0⟩, ⟨r.dst_off, 0, 0, 0⟩⟩,
    ⟨r.fp + r.src_off, r.op0_prev_clock_lo, ⟨r.op0_val_lo, 0, 0, 0⟩, ⟨r.op0_val_lo, 0, 0, 0⟩⟩,
    ⟨r.fp + r.src_off + 1, r.op0_prev_clock_hi, ⟨r.op0_val_hi, 0, 0, 0⟩, ⟨r.op0_val_hi, 0, 0, 0⟩⟩,
    ⟨r.fp + r.dst_off, r.dst_prev_clock, ⟨r.dst_prev_val, 0, 0, 0⟩, ⟨1 - r.borrow_hi, 0, 0, 0⟩⟩]

/-- The next `pc` of an enabled row. -/
def nextPc (r : Row) : M31 := r.pc + 1 + 1

/-- The next `fp` of an enabled row. -/
def nextFp (r : Row) : M31 := r.fp

theorem inert {r : Row} (h : r.enabler = 0) : Inert (evaluate r) := by
  simp [Inert, evaluate, h]

theorem performs {r : Row} (h : r.enabler = 1) :
    Performs (evaluate r) r.pc r.fp r.clock (nextPc r) (nextFp r) (accs r) := by
  refine ⟨?_, ?_, ?_, ?_⟩ <;>
    simp [Eval.of, evaluate, h, Entry.padded, Rel.arity, Access.entries, QM31.limbs, accs, nextPc, nextFp]

theorem ordered {r : Row} (h : r.enabler = 1) (ht : (evaluate r).TablesHold) : Ordered r.clock (accs r) := by
  simp only [Eval.TablesHold, evaluate, h, List.forall_mem_cons, List.not_mem_nil, false_implies, implies_true,
    and_true] at ht
  obtain ⟨-, -, -, -, -, -, -, -, -, -, -, -, -, -, -, -, -, -, h6, h7, h8, h9⟩ := ht
  simp only [Ordered, accs, List.forall_mem_cons, List.not_mem_nil, false_implies, implies_true, and_true]
  exact ⟨tableHolds_rc20 h6, tableHolds_rc20 h6, tableHolds_rc20 h7, tableHolds_rc20 h8, tableHolds_rc20 h9⟩

theorem ranges {r : Row} (h : r.enabler = 1) (ht : (evaluate r).TablesHold) :
    r.op0_val_lo.val < 2 ^ 16 ∧
    r.op0_val_hi.val < 2 ^ 16 ∧
    r.imm_lo.val < 2 ^ 16 ∧
    r.imm_hi.val < 2 ^ 16 ∧
    (r.imm_lo - 1 + r.borrow_lo * 65536 - r.op0_val_lo).val < 2 ^ 16 ∧
    (r.imm_hi - r.borrow_lo + r.borrow_hi * 65536 - r.op0_val_hi).val < 2 ^ 16 := by
  simp only [Eval.TablesHold, evaluate, h, List.forall_mem_cons, List.not_mem_nil, false_implies, implies_true,
    and_true] at ht
  obtain ⟨-, -, -, -, -, -, -, -, -, -, -, -, h0, h1, h2, h3, h4, h5, -, -, -, -⟩ := ht
  exact ⟨tableHolds_rc16 h0, tableHolds_rc16 h1, tableHolds_rc16 h2, tableHolds_rc16 h3, tableHolds_rc16 h4,
    tableHolds_rc16 h5⟩

end U32StoreLtFpImm

namespace U32StoreBitwiseFpFp

/-- The memory accesses of an enabled row. -/
def accs (r : Row) : List Access :=
  [⟨r.pc, r.inst_prev_clock, ⟨r.opcode_constant, r.src0_off, r.src1_off, r.dst_off⟩, ⟨r.opcode_constant,
        r.src0_off, r.src1_off, r.dst_off⟩⟩,
    ⟨r.fp + r.src0_off, r.op0_prev_clock_lo, ⟨r.op0_val_0 + r.op0_val_1 * 256, 0, 0, 0⟩,
        ⟨r.op0_val_0 + r.op0_val_1 * 256, 0, 0, 0⟩⟩,
    ⟨r.fp + r.src0_off + 1, r.op0_prev_clock_hi, ⟨r.op0_val_2 + r.op0_val_3 * 256, 0, 0, 0⟩,
        ⟨r.op0_val_2 + r.op0_val_3 * 256, 0, 0, 0⟩⟩,
    ⟨r.fp + r.src1_off, r.op1_prev_clock_lo, ⟨r.op1_val_0 + r.op1_val_1 * 256, 0, 0, 0⟩,
        ⟨r.op1_val_0 + r.op1_val_1 * 256, 0, 0, 0⟩⟩,
    ⟨r.fp + r.src1_off + 1, r.op1_prev_clock_hi, ⟨r.op1_val_2 + r.op1_val_3 * 256, 0, 0, 0⟩,
        ⟨r.op1_val_2 + r.op1_val_3 * 256, 0, 0, 0⟩⟩,
    ⟨r.fp + r.dst_off, r.dst_prev_clock_lo, ⟨r.dst_prev_val_lo, 0, 0, 0⟩, ⟨r.dst_val_0 + r.dst_val_1 * 256, 0, 0,
        0⟩⟩,
    ⟨r.fp + r.dst_off + 1, r.dst_prev_clock_hi, ⟨r.dst_prev_val_hi, 0, 0, 0⟩, ⟨r.dst_val_2 + r.dst_val_3 * 256, 0,
        0, 0⟩⟩]

/-- The next `pc` of an enabled row. -/
def nextPc (r : Row) : M31 := r.pc + 1

/-- The next `fp` of an enabled row. -/
def nextFp (r : Row) : M31 := r.fp

theorem inert {r : Row} (h : r.enabler = 0) : Inert (evaluate r) := by
  simp [Inert, evaluate, h]

theorem performs {r : Row} (h : r.enabler = 1) :
    Performs (evaluate r) r.pc r.fp r.clock (nextPc r) (nextFp r) (accs r) := by
  refine ⟨?_, ?_, ?_, ?_⟩ <;>
    simp [Eval.of, evaluate, h, Entry.padded, Rel.arity, Access.entries, QM31.limbs, accs, nextPc, nextFp]

theorem ordered {r : Row} (h : r.enabler = 1) (ht : (evaluate r).TablesHold) : Ordered r.clock (accs r) := by
  simp only [Eval.TablesHold, evaluate, h, List.forall_mem_cons, List.not_mem_nil, false_implies, implies_true,
    and_true] at ht
  obtain ⟨-, -, -, -, -, -, -, -, -, -, -, -, -, -, -, -, -, -, -, -, h4, h5, h6, h7, h8, h9, h10⟩ := ht
  simp only [Ordered, accs, List.forall_mem_cons, List.not_mem_nil, false_implies, implies_true, and_true]
  exact ⟨tableHolds_rc20 h4, tableHolds_rc20 h5, tableHolds_rc20 h6, tableHolds_rc20 h7, tableHolds_rc20 h8,
    tableHolds_rc20 h9, tableHolds_rc20 h10⟩

theorem lookups {r : Row} (h : r.enabler = 1) (ht : (evaluate r).TablesHold) :
    InBitwise ((r.opcode_constant - (36 : M31))) r.op0_val_0 r.op1_val_0 r.dst_val_0 ∧
    InBitwise ((r.opcode_constant - (36 : M31))) r.op0_val_1 r.op1_val_1 r.dst_val_1 ∧
    InBitwise ((r.opcode_constant - (36 : M31))) r.op0_val_2 r.op1_val_2 r.dst_val_2 ∧
    InBitwise ((r.opcode_constant - (36 : M31))) r.op0_val_3 r.op1_val_3 r.dst_val_3 := by
  simp only [Eval.TablesHold, evaluate, h, List.forall_mem_cons, List.not_mem_nil, false_implies, implies_true,
    and_true] at ht
  obtain ⟨-, -, -, -, -, -, -, -, -, -, -, -, -, -, -, -, h0, h1, h2, h3, -, -, -, -, -, -, -⟩ := ht
  exact ⟨tableHolds_bitwise h0, tableHolds_bitwise h1, tableHolds_bitwise h2, tableHolds_bitwise h3⟩

end U32StoreBitwiseFpFp

namespace U32StoreBitwiseFpImm

/-- The memory accesses of an enabled row. -/
def accs (r : Row) : List Access :=
  [⟨r.pc, r.inst_prev_clock, ⟨r.opcode_constant, r.src_off, r.imm_0 + r.imm_1 * 256, r.imm_2 + r.imm_3 * 256⟩,
        ⟨r.opcode_constant, r.src_off, r.imm_0 + r.imm_1 * 256, r.imm_2 + r.imm_3 * 256⟩⟩,
    ⟨r.pc + 1, r.inst_prev_clock, ⟨r.dst_off, 0, 0, 0⟩, ⟨r.dst_off, 0, 0, 0⟩⟩,
    ⟨r.fp + r.src_off, r.op0_prev_clock_lo, ⟨r.op0_val_0 + r.op0_val_1 * 256, 0, 0, 0⟩,
        ⟨r.op0_val_0 + r.op0_val_1 * 256, 0, 0, 0⟩⟩,
    ⟨r.fp + r.src_off + 1, r.op0_prev_clock_hi, ⟨r.op0_val_2 + r.op0_val_3 * 256, 0, 0, 0⟩,
        ⟨r.op0_val_2 + r.op0_val_3 * 256, 0, 0, 0⟩⟩,
    ⟨r.fp + r.dst_off, r.dst_prev_clock_lo, ⟨r.dst_prev_val_lo, 0, 0, 0⟩, ⟨r.dst_val_0 + r.dst_val_1 * 256, 0, 0,
        0⟩⟩,
    ⟨r.fp + r.dst_off + 1, r.dst_prev_clock_hi, ⟨r.dst_prev_val_hi, 0, 0, 0⟩, ⟨r.dst_val_2 + r.dst_val_3 * 256, 0,
        0, 0⟩⟩]

/-- The next `pc` of an enabled row. -/
def nextPc (r : Row) : M31 := r.pc + 1 + 1

/-- The next `fp` of an enabled row. -/
def nextFp (r : Row) : M31 := r.fp

theorem inert {r : Row} (h : r.enabler = 0) : Inert (evaluate r) := by
  simp [Inert, evaluate, h]

theorem performs {r : Row} (h : r.enabler = 1) :
    Performs (evaluate r) r.pc r.fp r.clock (nextPc r) (nextFp r) (accs r) := by
  refine ⟨?_, ?_, ?_, ?_⟩ <;>
    simp [Eval.of, evaluate, h, Entry.padded, Rel.arity, Access.entries, QM31.limbs, accs, nextPc, nextFp]

theorem ordered {r : Row} (h : r.enabler = 1) (ht : (evaluate r).TablesHold) : Ordered r.clock (accs r) := by
  simp only [Eval.TablesHold, evaluate, h, List.forall_mem_cons, List.not_mem_nil, false_implies, implies_true,
    and_true] at ht
  obtain ⟨-, -, -, -, -, -, -, -, -, -, -, -, -, -, -, -, -, -, h4, h5, h6, h7, h8⟩ := ht
  simp only [Ordered, accs, List.forall_mem_cons, List.not_mem_nil, false_implies, implies_true, and_true]
  exact ⟨tableHolds_rc20 h4, tableHolds_rc20 h4, tableHolds_rc20 h5, tableHolds_rc20 h6, tableHolds_rc20 h7,
    tableHolds_rc20 h8⟩

theorem lookups {r : Row} (h : r.enabler = 1) (ht : (evaluate r).TablesHold) :
    InBitwise ((r.opcode_constant - (39 : M31))) r.op0_val_0 r.imm_0 r.dst_val_0 ∧
    InBitwise ((r.opcode_constant - (39 : M31))) r.op0_val_1 r.imm_1 r.dst_val_1 ∧
    InBitwise ((r.opcode_constant - (39 : M31))) r.op0_val_2 r.imm_2 r.dst_val_2 ∧
    InBitwise ((r.opcode_constant - (39 : M31))) r.op0_val_3 r.imm_3 r.dst_val_3 := by
  simp only [Eval.TablesHold, evaluate, h, List.forall_mem_cons, List.not_mem_nil, false_implies, implies_true,
    and_true] at ht
  obtain ⟨-, -, -, -, -, -, -, -, -, -, -, -, -, -, h0, h1, h2, h3, -, -, -, -, -⟩ := ht
  exact ⟨tableHolds_bitwise h0, tableHolds_bitwise h1, tableHolds_bitwise h2, tableHolds_bitwise h3⟩

end U32StoreBitwiseFpImm

end Air
end CairoM
