import Verif.AirCore

/-!
# Opcode circuits: field arithmetic, data movement, control flow

One namespace per component of `crates/prover/src/components/opcodes/`: the trace columns of a row and the
constraints and lookups of `evaluate`, statement by statement. `one.clone()`, `E::F::from(..)` and similar
wrappers are dropped; opcode constants are replaced by their values in `crates/common/src/instruction.rs`.
-/

namespace CairoM
namespace Air

/-! ### `store_fp_fp.rs` -/

namespace StoreFpFp

/-- Trace columns (`crates/prover/src/components/opcodes/store_fp_fp.rs:496`, `next_trace_mask` in order). -/
structure Row where
  (enabler pc fp clock inst_prev_clock off0 off1 off2 op0_prev_clock op0_val op1_prev_clock : M31)
  (op1_val op1_inv dst_prev_clock dst_prev_val dst_val opcode_flag_0 opcode_flag_1 prod div : M31)

/-- `evaluate` (`crates/prover/src/components/opcodes/store_fp_fp.rs:496-678`). -/
def evaluate (r : Row) : Eval :=
  let one : M31 := 1
  let is_add : M31 := (one - r.opcode_flag_0) * (one - r.opcode_flag_1)
  let is_sub : M31 := (one - r.opcode_flag_0) * r.opcode_flag_1
  let is_mul : M31 := r.opcode_flag_0 * (one - r.opcode_flag_1)
  let is_div : M31 := r.opcode_flag_0 * r.opcode_flag_1
  let opcode_id : M31 := (0 : M31) + (2 : M31) * r.opcode_flag_0 + r.opcode_flag_1
  let res : M31 := is_add * (r.op0_val + r.op1_val) + is_sub * (r.op0_val - r.op1_val) + is_mul * r.prod + is_div
    * r.div
  { constraints := [
      r.enabler * (one - r.enabler), r.opcode_flag_0 * (one - r.opcode_flag_0),
      r.opcode_flag_1 * (one - r.opcode_flag_1), r.prod - r.op0_val * r.op1_val,
      r.op1_val * (r.op1_inv * r.op1_val - one), r.op1_inv * (r.op1_inv * r.op1_val - one),
      r.div - r.op0_val * r.op1_inv, r.dst_val - res],
    entries := [
      ⟨.registers, -r.enabler, [r.pc, r.fp, r.clock]⟩,
      ⟨.registers, r.enabler, [r.pc + one, r.fp, r.clock + one]⟩,
      ⟨.memory, -r.enabler, [r.pc, r.inst_prev_clock, opcode_id, r.off0, r.off1, r.off2]⟩,
      ⟨.memory, r.enabler, [r.pc, r.clock, opcode_id, r.off0, r.off1, r.off2]⟩,
      ⟨.memory, -r.enabler, [r.fp + r.off0, r.op0_prev_clock, r.op0_val]⟩,
      ⟨.memory, r.enabler, [r.fp + r.off0, r.clock, r.op0_val]⟩,
      ⟨.memory, -r.enabler, [r.fp + r.off1, r.op1_prev_clock, r.op1_val]⟩,
      ⟨.memory, r.enabler, [r.fp + r.off1, r.clock, r.op1_val]⟩,
      ⟨.memory, -r.enabler, [r.fp + r.off2, r.dst_prev_clock, r.dst_prev_val]⟩,
      ⟨.memory, r.enabler, [r.fp + r.off2, r.clock, r.dst_val]⟩,
      ⟨.rc20, -1, [r.clock - r.inst_prev_clock - r.enabler]⟩,
      ⟨.rc20, -1, [r.clock - r.op0_prev_clock - r.enabler]⟩,
      ⟨.rc20, -1, [r.clock - r.op1_prev_clock - r.enabler]⟩,
      ⟨.rc20, -1, [r.clock - r.dst_prev_clock - r.enabler]⟩] }

end StoreFpFp

/-! ### `store_fp_imm.rs` -/

namespace StoreFpImm

/-- Trace columns (`crates/prover/src/components/opcodes/store_fp_imm.rs:457`, `next_trace_mask` in order). -/
structure Row where
  (enabler pc fp clock inst_prev_clock src_off imm dst_off src_prev_clock src_val imm_inv : M31)
  (dst_prev_clock dst_prev_val dst_val opcode_flag_0 opcode_flag_1 prod div : M31)

/-- `evaluate` (`crates/prover/src/components/opcodes/store_fp_imm.rs:457-616`). -/
def evaluate (r : Row) : Eval :=
  let one : M31 := 1
  let is_add : M31 := (one - r.opcode_flag_0) * (one - r.opcode_flag_1)
  let is_sub : M31 := (one - r.opcode_flag_0) * r.opcode_flag_1
  let is_mul : M31 := r.opcode_flag_0 * (one - r.opcode_flag_1)
  let is_div : M31 := r.opcode_flag_0 * r.opcode_flag_1
  let opcode_id : M31 := (4 : M31) + (2 : M31) * r.opcode_flag_0 + r.opcode_flag_1
  let res : M31 := is_add * (r.src_val + r.imm) + is_sub * (r.src_val - r.imm) + is_mul * r.prod + is_div * r.div
  { constraints := [
      r.enabler * (one - r.enabler), r.opcode_flag_0 * (one - r.opcode_flag_0),
      r.opcode_flag_1 * (one - r.opcode_flag_1), r.prod - r.src_val * r.imm,
      r.imm * (r.imm_inv * r.imm - one), r.imm_inv * (r.imm_inv * r.imm - one),
      r.div - r.src_val * r.imm_inv, r.dst_val - res],
    entries := [
      ⟨.registers, -r.enabler, [r.pc, r.fp, r.clock]⟩,
      ⟨.registers, r.enabler, [r.pc + one, r.fp, r.clock + one]⟩,
      ⟨.memory, -r.enabler, [r.pc, r.inst_prev_clock, opcode_id, r.src_off, r.imm, r.dst_off]⟩,
      ⟨.memory, r.enabler, [r.pc, r.clock, opcode_id, r.src_off, r.imm, r.dst_off]⟩,
      ⟨.memory, -r.enabler, [r.fp + r.src_off, r.src_prev_clock, r.src_val]⟩,
      ⟨.memory, r.enabler, [r.fp + r.src_off, r.clock, r.src_val]⟩,
      ⟨.memory, -r.enabler, [r.fp + r.dst_off, r.dst_prev_clock, r.dst_prev_val]⟩,
      ⟨.memory, r.enabler, [r.fp + r.dst_off, r.clock, r.dst_val]⟩,
      ⟨.rc20, -1, [r.clock - r.inst_prev_clock - r.enabler]⟩,
      ⟨.rc20, -1, [r.clock - r.src_prev_clock - r.enabler]⟩,
      ⟨.rc20, -1, [r.clock - r.dst_prev_clock - r.enabler]⟩] }

end StoreFpImm

/-! ### `store_le_fp_imm.rs` -/

namespace StoreLeFpImm

/-- Trace columns (`crates/prover/src/components/opcodes/store_le_fp_imm.rs:549`, `next_trace_mask` in order). -/
structure Row where
  (enabler pc fp clock inst_prev_clock src_off imm dst_off src_val src_prev_clock : M31)
  (dst_prev_val dst_prev_clock a b keep_0_1 keep_0_2 keep_1_2 arc_short_lo arc_short_hi : M31)
  (arc_long_lo arc_long_hi is_le : M31)

/-- `evaluate` (`crates/prover/src/components/opcodes/store_le_fp_imm.rs:549-744`). -/
def evaluate (r : Row) : Eval :=
  let one : M31 := 1
  let opcode_constant : M31 := (48 : M31)
  let prime_over_3_high : M31 := (10923 : M31)
  let prime_over_2_high : M31 := (16384 : M31)
  let arc_short : M31 := r.arc_short_lo + r.arc_short_hi * prime_over_3_high
  let arc_long : M31 := r.arc_long_lo + r.arc_long_hi * prime_over_2_high
  let arc_sum : M31 := arc_short + arc_long
  let arc_prod : M31 := arc_short * arc_long
  { constraints := [
      r.enabler * (one - r.enabler), r.keep_0_1 * (one - r.keep_0_1), r.keep_0_2 * (one - r.keep_0_2),
      r.keep_1_2 * (one - r.keep_1_2), r.enabler * (r.keep_0_1 + r.keep_0_2 + r.keep_1_2 - one),
      r.is_le * (one - r.is_le), r.keep_0_1 * (arc_sum - (r.a + r.b - r.a)),
      r.keep_0_1 * (arc_prod - r.a * (r.b - r.a)), r.keep_0_2 * (arc_sum - (r.a - one - r.b)),
      r.keep_0_2 * (arc_prod - r.a * (-one - r.b)), r.keep_1_2 * (arc_sum - (r.b - r.a - one - r.b)),
      r.keep_1_2 * (arc_prod - (r.b - r.a) * (-one - r.b)),
      r.enabler * (r.a - r.is_le * r.src_val - (one - r.is_le) * r.imm),
      r.enabler * (r.b - r.is_le * r.imm - (one - r.is_le) * r.src_val)],
    entries := [
      ⟨.registers, -r.enabler, [r.pc, r.fp, r.clock]⟩,
      ⟨.registers, r.enabler, [r.pc + one, r.fp, r.clock + one]⟩,
      ⟨.memory, -r.enabler, [r.pc, r.inst_prev_clock, opcode_constant, r.src_off, r.imm, r.dst_off]⟩,
      ⟨.memory, r.enabler, [r.pc, r.clock, opcode_constant, r.src_off, r.imm, r.dst_off]⟩,
      ⟨.memory, -r.enabler, [r.fp + r.src_off, r.src_prev_clock, r.src_val]⟩,
      ⟨.memory, r.enabler, [r.fp + r.src_off, r.clock, r.src_val]⟩,
      ⟨.memory, -r.enabler, [r.fp + r.dst_off, r.dst_prev_clock, r.dst_prev_val]⟩,
      ⟨.memory, r.enabler, [r.fp + r.dst_off, r.clock, r.is_le]⟩,
      ⟨.rc16, -1, [r.arc_short_lo]⟩,
      ⟨.rc16, -1, [r.arc_short_hi]⟩,
      ⟨.rc16, -1, [r.arc_long_lo]⟩,
      ⟨.rc16, -1, [r.arc_long_hi]⟩,
      ⟨.rc20, -1, [r.clock - r.inst_prev_clock - r.enabler]⟩,
      ⟨.rc20, -1, [r.clock - r.src_prev_clock - r.enabler]⟩,
      ⟨.rc20, -1, [r.clock - r.dst_prev_clock - r.enabler]⟩] }

end StoreLeFpImm

/-! ### `assert_eq_fp_imm.rs` -/

namespace AssertEqFpImm

/-- Trace columns (`crates/prover/src/components/opcodes/assert_eq_fp_imm.rs:333`, `next_trace_mask` in order). -/
structure Row where
  (enabler pc fp clock inst_prev_clock src0_off imm op0_prev_clock op0_val : M31)

/-- `evaluate` (`crates/prover/src/components/opcodes/assert_eq_fp_imm.rs:333-414`). -/
def evaluate (r : Row) : Eval :=
  let one : M31 := 1
  let opcode_constant : M31 := (50 : M31)
  { constraints := [
      r.enabler * (one - r.enabler), r.op0_val - r.imm],
    entries := [
      ⟨.registers, -r.enabler, [r.pc, r.fp, r.clock]⟩,
      ⟨.registers, r.enabler, [r.pc + one, r.fp, r.clock + one]⟩,
      ⟨.memory, -r.enabler, [r.pc, r.inst_prev_clock, opcode_constant, r.src0_off, r.imm]⟩,
      ⟨.memory, r.enabler, [r.pc, r.clock, opcode_constant, r.src0_off, r.imm]⟩,
      ⟨.memory, -r.enabler, [r.fp + r.src0_off, r.op0_prev_clock, r.op0_val]⟩,
      ⟨.memory, r.enabler, [r.fp + r.src0_off, r.clock, r.op0_val]⟩,
      ⟨.rc20, -1, [r.clock - r.inst_prev_clock - r.enabler]⟩,
      ⟨.rc20, -1, [r.clock - r.op0_prev_clock - r.enabler]⟩] }

end AssertEqFpImm

/-! ### `store_imm.rs` -/

namespace StoreImm

/-- Trace columns (`crates/prover/src/components/opcodes/store_imm.rs:325`, `next_trace_mask` in order). -/
structure Row where
  (enabler pc fp clock inst_prev_clock off0 off2 dst_prev_clock dst_prev_val : M31)

/-- `evaluate` (`crates/prover/src/components/opcodes/store_imm.rs:325-416`). -/
def evaluate (r : Row) : Eval :=
  let one : M31 := 1
  let zero : M31 := 0
  let opcode_constant : M31 := (9 : M31)
  { constraints := [
      r.enabler * (one - r.enabler)],
    entries := [
      ⟨.registers, -r.enabler, [r.pc, r.fp, r.clock]⟩,
      ⟨.registers, r.enabler, [r.pc + one, r.fp, r.clock + one]⟩,
      ⟨.memory, -r.enabler, [r.pc, r.inst_prev_clock, opcode_constant, r.off0, r.off2]⟩,
      ⟨.memory, r.enabler, [r.pc, r.clock, opcode_constant, r.off0, r.off2]⟩,
      ⟨.memory, -r.enabler, [r.fp + r.off2, r.dst_prev_clock, r.dst_prev_val]⟩,
      ⟨.memory, r.enabler, [r.fp + r.off2, r.clock, r.off0, zero, zero, zero]⟩,
      ⟨.rc20, -1, [r.clock - r.inst_prev_clock - r.enabler]⟩,
      ⟨.rc20, -1, [r.clock - r.dst_prev_clock - r.enabler]⟩] }

end StoreImm

/-! ### `store_frame_pointer.rs` -/

namespace StoreFramePointer

/-- Trace columns (`crates/prover/src/components/opcodes/store_frame_pointer.rs:331`, `next_trace_mask` in order). -/
structure Row where
  (enabler pc fp clock inst_prev_clock imm dst_off dst_prev_val dst_prev_clock : M31)

/-- `evaluate` (`crates/prover/src/components/opcodes/store_frame_pointer.rs:331-414`). -/
def evaluate (r : Row) : Eval :=
  let one : M31 := 1
  let opcode_constant : M31 := (43 : M31)
  { constraints := [
      r.enabler * (one - r.enabler)],
    entries := [
      ⟨.registers, -r.enabler, [r.pc, r.fp, r.clock]⟩,
      ⟨.registers, r.enabler, [r.pc + one, r.fp, r.clock + one]⟩,
      ⟨.memory, -r.enabler, [r.pc, r.inst_prev_clock, opcode_constant, r.imm, r.dst_off]⟩,
      ⟨.memory, r.enabler, [r.pc, r.clock, opcode_constant, r.imm, r.dst_off]⟩,
      ⟨.memory, -r.enabler, [r.fp + r.dst_off, r.dst_prev_clock, r.dst_prev_val]⟩,
      ⟨.memory, r.enabler, [r.fp + r.dst_off, r.clock, r.fp + r.imm]⟩,
      ⟨.rc20, -1, [r.clock - r.inst_prev_clock - r.enabler]⟩,
      ⟨.rc20, -1, [r.clock - r.dst_prev_clock - r.enabler]⟩] }

end StoreFramePointer

/-! ### `double_deref_fp_imm.rs` -/

namespace DoubleDerefFpImm

/-- Trace columns (`crates/prover/src/components/opcodes/double_deref_fp_imm.rs:366`, `next_trace_mask` in order). -/
structure Row where
  (enabler pc fp clock inst_prev_clock opcode_constant off0 off1 off2 val0 prev_clock0 addr1 : M31)
  (val1 prev_clock1 addr2 prev_val2 prev_clock2 : M31)

/-- `evaluate` (`crates/prover/src/components/opcodes/double_deref_fp_imm.rs:366-506`). -/
def evaluate (r : Row) : Eval :=
  let one : M31 := 1
  let delta_inv : M31 := (36 : M31)⁻¹
  let store_double_deref_fp : M31 := (8 : M31)
  let write_lhs : M31 := (r.opcode_constant - store_double_deref_fp) * delta_inv
  { constraints := [
      r.enabler * (one - r.enabler), write_lhs * (one - write_lhs),
      r.enabler * (r.addr1 - write_lhs * (r.fp + r.off2) - (one - write_lhs) * (r.val0 + r.off1)),
      r.enabler * (r.addr2 - write_lhs * (r.val0 + r.off1) - (one - write_lhs) * (r.fp + r.off2))],
    entries := [
      ⟨.registers, -r.enabler, [r.pc, r.fp, r.clock]⟩,
      ⟨.registers, r.enabler, [r.pc + one, r.fp, r.clock + one]⟩,
      ⟨.memory, -r.enabler, [r.pc, r.inst_prev_clock, r.opcode_constant, r.off0, r.off1, r.off2]⟩,
      ⟨.memory, r.enabler, [r.pc, r.clock, r.opcode_constant, r.off0, r.off1, r.off2]⟩,
      ⟨.memory, -r.enabler, [r.fp + r.off0, r.prev_clock0, r.val0]⟩,
      ⟨.memory, r.enabler, [r.fp + r.off0, r.clock, r.val0]⟩,
      ⟨.memory, -r.enabler, [r.addr1, r.prev_clock1, r.val1]⟩,
      ⟨.memory, r.enabler, [r.addr1, r.clock, r.val1]⟩,
      ⟨.memory, -r.enabler, [r.addr2, r.prev_clock2, r.prev_val2]⟩,
      ⟨.memory, r.enabler, [r.addr2, r.clock, r.val1]⟩,
      ⟨.rc20, -1, [r.clock - r.inst_prev_clock - r.enabler]⟩,
      ⟨.rc20, -1, [r.clock - r.prev_clock0 - r.enabler]⟩,
      ⟨.rc20, -1, [r.clock - r.prev_clock1 - r.enabler]⟩,
      ⟨.rc20, -1, [r.clock - r.prev_clock2 - r.enabler]⟩] }

end DoubleDerefFpImm

/-! ### `double_deref_fp_fp.rs` -/

namespace DoubleDerefFpFp

/-- Trace columns (`crates/prover/src/components/opcodes/double_deref_fp_fp.rs:393`, `next_trace_mask` in order). -/
structure Row where
  (enabler pc fp clock inst_prev_clock opcode_constant off0 off1 off2 val0 prev_clock0 val1 : M31)
  (prev_clock1 addr2 val2 prev_clock2 addr3 prev_val3 prev_clock3 : M31)

/-- `evaluate` (`crates/prover/src/components/opcodes/double_deref_fp_fp.rs:393-559`). -/
def evaluate (r : Row) : Eval :=
  let one : M31 := 1
  let store_double_deref_fp_fp : M31 := (42 : M31)
  let delta_inv : M31 := (3 : M31)⁻¹
  let write_lhs : M31 := (r.opcode_constant - store_double_deref_fp_fp) * delta_inv
  { constraints := [
      r.enabler * (one - r.enabler), write_lhs * (one - write_lhs),
      r.enabler * (r.addr2 - write_lhs * (r.fp + r.off2) - (one - write_lhs) * (r.val0 + r.val1)),
      r.enabler * (r.addr3 - write_lhs * (r.val0 + r.val1) - (one - write_lhs) * (r.fp + r.off2))],
    entries := [
      ⟨.registers, -r.enabler, [r.pc, r.fp, r.clock]⟩,
      ⟨.registers, r.enabler, [r.pc + one, r.fp, r.clock + one]⟩,
      ⟨.memory, -r.enabler, [r.pc, r.inst_prev_clock, r.opcode_constant, r.off0, r.off1, r.off2]⟩,
      ⟨.memory, r.enabler, [r.pc, r.clock, r.opcode_constant, r.off0, r.off1, r.off2]⟩,
      ⟨.memory, -r.enabler, [r.fp + r.off0, r.prev_clock0, r.val0]⟩,
      ⟨.memory, r.enabler, [r.fp + r.off0, r.clock, r.val0]⟩,
      ⟨.memory, -r.enabler, [r.fp + r.off1, r.prev_clock1, r.val1]⟩,
      ⟨.memory, r.enabler, [r.fp + r.off1, r.clock, r.val1]⟩,
      ⟨.memory, -r.enabler, [r.addr2, r.prev_clock2, r.val2]⟩,
      ⟨.memory, r.enabler, [r.addr2, r.clock, r.val2]⟩,
      ⟨.memory, -r.enabler, [r.addr3, r.prev_clock3, r.prev_val3]⟩,
      ⟨.memory, r.enabler, [r.addr3, r.clock, r.val2]⟩,
      ⟨.rc20, -1, [r.clock - r.inst_prev_clock - r.enabler]⟩,
      ⟨.rc20, -1, [r.clock - r.prev_clock0 - r.enabler]⟩,
      ⟨.rc20, -1, [r.clock - r.prev_clock1 - r.enabler]⟩,
      ⟨.rc20, -1, [r.clock - r.prev_clock2 - r.enabler]⟩,
      ⟨.rc20, -1, [r.clock - r.prev_clock3 - r.enabler]⟩] }

end DoubleDerefFpFp

/-! ### `call_abs_imm.rs` -/

namespace CallAbsImm

/-- Trace columns (`crates/prover/src/components/opcodes/call_abs_imm.rs:381`, `next_trace_mask` in order). -/
structure Row where
  (enabler pc fp clock inst_prev_clock off0 off1 op0_prev_clock op0_prev_val : M31)
  (op0_plus_one_prev_clock op0_plus_one_prev_val : M31)

/-- `evaluate` (`crates/prover/src/components/opcodes/call_abs_imm.rs:381-491`). -/
def evaluate (r : Row) : Eval :=
  let one : M31 := 1
  let opcode_constant : M31 := (10 : M31)
  { constraints := [
      r.enabler * (one - r.enabler)],
    entries := [
      ⟨.registers, -r.enabler, [r.pc, r.fp, r.clock]⟩,
      ⟨.registers, r.enabler, [r.off1, r.fp + r.off0 + one + one, r.clock + one]⟩,
      ⟨.memory, -r.enabler, [r.pc, r.inst_prev_clock, opcode_constant, r.off0, r.off1]⟩,
      ⟨.memory, r.enabler, [r.pc, r.clock, opcode_constant, r.off0, r.off1]⟩,
      ⟨.memory, -r.enabler, [r.fp + r.off0, r.op0_prev_clock, r.op0_prev_val]⟩,
      ⟨.memory, r.enabler, [r.fp + r.off0, r.clock, r.fp]⟩,
      ⟨.memory, -r.enabler, [r.fp + r.off0 + one, r.op0_plus_one_prev_clock, r.op0_plus_one_prev_val]⟩,
      ⟨.memory, r.enabler, [r.fp + r.off0 + one, r.clock, r.pc + one]⟩,
      ⟨.rc20, -1, [r.clock - r.inst_prev_clock - r.enabler]⟩,
      ⟨.rc20, -1, [r.clock - r.op0_prev_clock - r.enabler]⟩,
      ⟨.rc20, -1, [r.clock - r.op0_plus_one_prev_clock - r.enabler]⟩] }

end CallAbsImm

/-! ### `ret.rs` -/

namespace Ret

/-- Trace columns (`crates/prover/src/components/opcodes/ret.rs:386`, `next_trace_mask` in order). -/
structure Row where
  (enabler pc fp clock inst_prev_clock fp_min_2_prev_clock fp_min_2_val fp_min_1_prev_clock : M31)
  (fp_min_1_val : M31)

/-- `evaluate` (`crates/prover/src/components/opcodes/ret.rs:386-483`). -/
def evaluate (r : Row) : Eval :=
  let one : M31 := 1
  let two : M31 := (2 : M31)
  let opcode_constant : M31 := (11 : M31)
  { constraints := [
      r.enabler * (one - r.enabler)],
    entries := [
      ⟨.registers, -r.enabler, [r.pc, r.fp, r.clock]⟩,
      ⟨.registers, r.enabler, [r.fp_min_1_val, r.fp_min_2_val, r.clock + one]⟩,
      ⟨.memory, -r.enabler, [r.pc, r.inst_prev_clock, opcode_constant]⟩,
      ⟨.memory, r.enabler, [r.pc, r.clock, opcode_constant]⟩,
      ⟨.memory, -r.enabler, [r.fp - two, r.fp_min_2_prev_clock, r.fp_min_2_val]⟩,
      ⟨.memory, r.enabler, [r.fp - two, r.clock, r.fp_min_2_val]⟩,
      ⟨.memory, -r.enabler, [r.fp - r.enabler, r.fp_min_1_prev_clock, r.fp_min_1_val]⟩,
      ⟨.memory, r.enabler, [r.fp - r.enabler, r.clock, r.fp_min_1_val]⟩,
      ⟨.rc20, -1, [r.clock - r.inst_prev_clock - r.enabler]⟩,
      ⟨.rc20, -1, [r.clock - r.fp_min_2_prev_clock - r.enabler]⟩,
      ⟨.rc20, -1, [r.clock - r.fp_min_1_prev_clock - r.enabler]⟩] }

end Ret

/-! ### `jmp_imm.rs` -/

namespace JmpImm

/-- Trace columns (`crates/prover/src/components/opcodes/jmp_imm.rs:285`, `next_trace_mask` in order). -/
structure Row where
  (enabler pc fp clock inst_prev_clock off0 is_rel : M31)

/-- `evaluate` (`crates/prover/src/components/opcodes/jmp_imm.rs:285-342`). -/
def evaluate (r : Row) : Eval :=
  let one : M31 := 1
  let opcode_constant : M31 := (12 : M31)
  let opcode_id : M31 := opcode_constant + r.is_rel
  { constraints := [
      r.enabler * (one - r.enabler), r.is_rel * (one - r.is_rel)],
    entries := [
      ⟨.memory, -r.enabler, [r.pc, r.inst_prev_clock, opcode_id, r.off0]⟩,
      ⟨.memory, r.enabler, [r.pc, r.clock, opcode_id, r.off0]⟩,
      ⟨.rc20, -1, [r.clock - r.inst_prev_clock - r.enabler]⟩,
      ⟨.registers, -r.enabler, [r.pc, r.fp, r.clock]⟩,
      ⟨.registers, r.enabler, [r.off0 + r.pc * r.is_rel, r.fp, r.clock + one]⟩] }

end JmpImm

/-! ### `jnz_fp_imm.rs` -/

namespace JnzFpImm

/-- Trace columns (`crates/prover/src/components/opcodes/jnz_fp_imm.rs:351`, `next_trace_mask` in order). -/
structure Row where
  (enabler pc fp clock inst_prev_clock off0 imm op0_prev_clock op0_val op0_val_inv taken : M31)
  (pc_new : M31)

/-- `evaluate` (`crates/prover/src/components/opcodes/jnz_fp_imm.rs:351-443`). -/
def evaluate (r : Row) : Eval :=
  let one : M31 := 1
  let opcode_constant : M31 := (14 : M31)
  { constraints := [
      r.enabler * (one - r.enabler), r.enabler * r.op0_val * (r.taken - one),
      r.enabler * (r.taken - r.op0_val * r.op0_val_inv),
      r.enabler * (r.pc_new - r.pc - one - r.taken * (r.imm - one))],
    entries := [
      ⟨.registers, -r.enabler, [r.pc, r.fp, r.clock]⟩,
      ⟨.registers, r.enabler, [r.pc_new, r.fp, r.clock + one]⟩,
      ⟨.memory, -r.enabler, [r.pc, r.inst_prev_clock, opcode_constant, r.off0, r.imm]⟩,
      ⟨.memory, r.enabler, [r.pc, r.clock, opcode_constant, r.off0, r.imm]⟩,
      ⟨.memory, -r.enabler, [r.fp + r.off0, r.op0_prev_clock, r.op0_val]⟩,
      ⟨.memory, r.enabler, [r.fp + r.off0, r.clock, r.op0_val]⟩,
      ⟨.rc20, -1, [r.clock - r.inst_prev_clock - r.enabler]⟩,
      ⟨.rc20, -1, [r.clock - r.op0_prev_clock - r.enabler]⟩] }

end JnzFpImm

end Air
end CairoM
