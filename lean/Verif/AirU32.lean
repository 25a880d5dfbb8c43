import Verif.AirCore

/-!
# Opcode circuits: 32-bit arithmetic

One namespace per component of `crates/prover/src/components/opcodes/`: the trace columns of a row and the
constraints and lookups of `evaluate`, statement by statement. `one.clone()`, `E::F::from(..)` and similar
wrappers are dropped; opcode constants are replaced by their values in `crates/common/src/instruction.rs`.
-/

namespace CairoM
namespace Air

/-! ### `u32_store_add_fp_fp.rs` -/

namespace U32StoreAddFpFp

/-- Trace columns (`crates/prover/src/components/opcodes/u32_store_add_fp_fp.rs:538`, `next_trace_mask` in order). -/
structure Row where
  (enabler pc fp clock inst_prev_clock src0_off src1_off dst_off op0_val_lo op0_val_hi : M31)
  (op0_prev_lo_clock op0_prev_hi_clock op1_val_lo op1_val_hi op1_prev_lo_clock : M31)
  (op1_prev_hi_clock dst_prev_val_lo dst_prev_val_hi dst_prev_lo_clock dst_prev_hi_clock : M31)
  (u16_carry u32_carry : M31)

/-- `evaluate` (`crates/prover/src/components/opcodes/u32_store_add_fp_fp.rs:538-806`). -/
def evaluate (r : Row) : Eval :=
  let one : M31 := 1
  let two_pow_16 : M31 := (65536 : M31)
  let opcode_constant : M31 := (15 : M31)
  let res_lo : M31 := r.op0_val_lo + r.op1_val_lo - r.u16_carry * two_pow_16
  let res_hi : M31 := r.op0_val_hi + r.op1_val_hi + r.u16_carry - r.u32_carry * two_pow_16
  { constraints := [
      r.enabler * (one - r.enabler), r.u16_carry * (one - r.u16_carry),
      r.u32_carry * (one - r.u32_carry)],
    entries := [
      ⟨.registers, -r.enabler, [r.pc, r.fp, r.clock]⟩,
      ⟨.registers, r.enabler, [r.pc + one, r.fp, r.clock + one]⟩,
      ⟨.memory, -r.enabler, [r.pc, r.inst_prev_clock, opcode_constant, r.src0_off, r.src1_off, r.dst_off]⟩,
      ⟨.memory, r.enabler, [r.pc, r.clock, opcode_constant, r.src0_off, r.src1_off, r.dst_off]⟩,
      ⟨.memory, -r.enabler, [r.fp + r.src0_off, r.op0_prev_lo_clock, r.op0_val_lo]⟩,
      ⟨.memory, r.enabler, [r.fp + r.src0_off, r.clock, r.op0_val_lo]⟩,
      ⟨.memory, -r.enabler, [r.fp + r.src0_off + one, r.op0_prev_hi_clock, r.op0_val_hi]⟩,
      ⟨.memory, r.enabler, [r.fp + r.src0_off + one, r.clock, r.op0_val_hi]⟩,
      ⟨.memory, -r.enabler, [r.fp + r.src1_off, r.op1_prev_lo_clock, r.op1_val_lo]⟩,
      ⟨.memory, r.enabler, [r.fp + r.src1_off, r.clock, r.op1_val_lo]⟩,
      ⟨.memory, -r.enabler, [r.fp + r.src1_off + one, r.op1_prev_hi_clock, r.op1_val_hi]⟩,
      ⟨.memory, r.enabler, [r.fp + r.src1_off + one, r.clock, r.op1_val_hi]⟩,
      ⟨.memory, -r.enabler, [r.fp + r.dst_off, r.dst_prev_lo_clock, r.dst_prev_val_lo]⟩,
      ⟨.memory, r.enabler, [r.fp + r.dst_off, r.clock, res_lo]⟩,
      ⟨.memory, -r.enabler, [r.fp + r.dst_off + one, r.dst_prev_hi_clock, r.dst_prev_val_hi]⟩,
      ⟨.memory, r.enabler, [r.fp + r.dst_off + one, r.clock, res_hi]⟩,
      ⟨.rc16, -1, [r.op0_val_lo]⟩,
      ⟨.rc16, -1, [r.op0_val_hi]⟩,
      ⟨.rc16, -1, [r.op1_val_lo]⟩,
      ⟨.rc16, -1, [r.op1_val_hi]⟩,
      ⟨.rc16, -1, [res_lo]⟩,
      ⟨.rc16, -1, [res_hi]⟩,
      ⟨.rc20, -1, [r.clock - r.inst_prev_clock - r.enabler]⟩,
      ⟨.rc20, -1, [r.clock - r.op0_prev_lo_clock - r.enabler]⟩,
      ⟨.rc20, -1, [r.clock - r.op0_prev_hi_clock - r.enabler]⟩,
      ⟨.rc20, -1, [r.clock - r.op1_prev_lo_clock - r.enabler]⟩,
      ⟨.rc20, -1, [r.clock - r.op1_prev_hi_clock - r.enabler]⟩,
      ⟨.rc20, -1, [r.clock - r.dst_prev_lo_clock - r.enabler]⟩,
      ⟨.rc20, -1, [r.clock - r.dst_prev_hi_clock - r.enabler]⟩] }

end U32StoreAddFpFp

/-! ### `u32_store_sub_fp_fp.rs` -/

namespace U32StoreSubFpFp

/-- Trace columns (`crates/prover/src/components/opcodes/u32_store_sub_fp_fp.rs:543`, `next_trace_mask` in order). -/
structure Row where
  (enabler pc fp clock inst_prev_clock src0_off src1_off dst_off op0_val_lo op0_val_hi : M31)
  (op0_prev_lo_clock op0_prev_hi_clock op1_val_lo op1_val_hi op1_prev_lo_clock : M31)
  (op1_prev_hi_clock dst_prev_val_lo dst_prev_val_hi dst_prev_lo_clock dst_prev_hi_clock : M31)
  (borrow_lo borrow_hi : M31)

/-- `evaluate` (`crates/prover/src/components/opcodes/u32_store_sub_fp_fp.rs:543-811`). -/
def evaluate (r : Row) : Eval :=
  let one : M31 := 1
  let two_pow_16 : M31 := (65536 : M31)
  let opcode_constant : M31 := (16 : M31)
  let res_lo : M31 := r.op0_val_lo + r.borrow_lo * two_pow_16 - r.op1_val_lo
  let res_hi : M31 := r.op0_val_hi - r.borrow_lo + r.borrow_hi * two_pow_16 - r.op1_val_hi
  { constraints := [
      r.enabler * (one - r.enabler), r.borrow_lo * (one - r.borrow_lo),
      r.borrow_hi * (one - r.borrow_hi)],
    entries := [
      ⟨.registers, -r.enabler, [r.pc, r.fp, r.clock]⟩,
      ⟨.registers, r.enabler, [r.pc + one, r.fp, r.clock + one]⟩,
      ⟨.memory, -r.enabler, [r.pc, r.inst_prev_clock, opcode_constant, r.src0_off, r.src1_off, r.dst_off]⟩,
      ⟨.memory, r.enabler, [r.pc, r.clock, opcode_constant, r.src0_off, r.src1_off, r.dst_off]⟩,
      ⟨.memory, -r.enabler, [r.fp + r.src0_off, r.op0_prev_lo_clock, r.op0_val_lo]⟩,
      ⟨.memory, r.enabler, [r.fp + r.src0_off, r.clock, r.op0_val_lo]⟩,
      ⟨.memory, -r.enabler, [r.fp + r.src0_off + one, r.op0_prev_hi_clock, r.op0_val_hi]⟩,
      ⟨.memory, r.enabler, [r.fp + r.src0_off + one, r.clock, r.op0_val_hi]⟩,
      ⟨.memory, -r.enabler, [r.fp + r.src1_off, r.op1_prev_lo_clock, r.op1_val_lo]⟩,
      ⟨.memory, r.enabler, [r.fp + r.src1_off, r.clock, r.op1_val_lo]⟩,
      ⟨.memory, -r.enabler, [r.fp + r.src1_off + one, r.op1_prev_hi_clock, r.op1_val_hi]⟩,
      ⟨.memory, r.enabler, [r.fp + r.src1_off + one, r.clock, r.op1_val_hi]⟩,
      ⟨.memory, -r.enabler, [r.fp + r.dst_off, r.dst_prev_lo_clock, r.dst_prev_val_lo]⟩,
      ⟨.memory, r.enabler, [r.fp + r.dst_off, r.clock, res_lo]⟩,
      ⟨.memory, -r.enabler, [r.fp + r.dst_off + one, r.dst_prev_hi_clock, r.dst_prev_val_hi]⟩,
      ⟨.memory, r.enabler, [r.fp + r.dst_off + one, r.clock, res_hi]⟩,
      ⟨.rc16, -1, [r.op0_val_lo]⟩,
      ⟨.rc16, -1, [r.op0_val_hi]⟩,
      ⟨.rc16, -1, [r.op1_val_lo]⟩,
      ⟨.rc16, -1, [r.op1_val_hi]⟩,
      ⟨.rc16, -1, [res_lo]⟩,
      ⟨.rc16, -1, [res_hi]⟩,
      ⟨.rc20, -1, [r.clock - r.inst_prev_clock - r.enabler]⟩,
      ⟨.rc20, -1, [r.clock - r.op0_prev_lo_clock - r.enabler]⟩,
      ⟨.rc20, -1, [r.clock - r.op0_prev_hi_clock - r.enabler]⟩,
      ⟨.rc20, -1, [r.clock - r.op1_prev_lo_clock - r.enabler]⟩,
      ⟨.rc20, -1, [r.clock - r.op1_prev_hi_clock - r.enabler]⟩,
      ⟨.rc20, -1, [r.clock - r.dst_prev_lo_clock - r.enabler]⟩,
      ⟨.rc20, -1, [r.clock - r.dst_prev_hi_clock - r.enabler]⟩] }

end U32StoreSubFpFp

/-! ### `u32_store_mul_fp_fp.rs` -/

namespace U32StoreMulFpFp

/-- Trace columns (`crates/prover/src/components/opcodes/u32_store_mul_fp_fp.rs:697`, `next_trace_mask` in order). -/
structure Row where
  (enabler pc fp clock inst_prev_clock src0_off src1_off dst_off op0_0 op0_1 op0_2 op0_3 : M31)
  (op0_prev_clock_lo op0_prev_clock_hi op1_0 op1_1 op1_2 op1_3 op1_prev_clock_lo : M31)
  (op1_prev_clock_hi dst_prev_val_lo dst_prev_val_hi dst_prev_clock_lo dst_prev_clock_hi : M31)
  (res_0 res_1 res_2 res_3 carry_0 carry_1 carry_2 carry_3 : M31)

/-- `evaluate` (`crates/prover/src/components/opcodes/u32_store_mul_fp_fp.rs:697-1059`). -/
def evaluate (r : Row) : Eval :=
  let one : M31 := 1
  let two_pow_8 : M31 := (256 : M31)
  let opcode_constant : M31 := (17 : M31)
  let max_carry_0 : M31 := (254 : M31)
  let max_carry_1 : M31 := (509 : M31)
  let max_carry_2 : M31 := (764 : M31)
  let max_carry_3 : M31 := (1019 : M31)
  { constraints := [
      r.enabler * (one - r.enabler),
      r.enabler * (r.res_0 - (r.op0_0 * r.op1_0 - r.carry_0 * two_pow_8)),
      r.enabler * (r.res_1 - (r.op0_0 * r.op1_1 + r.op0_1 * r.op1_0 + r.carry_0 - r.carry_1 * two_pow_8)),
      r.enabler * (r.res_2 - (r.op0_0 * r.op1_2 + r.op0_1 * r.op1_1 + r.op0_2 * r.op1_0 + r.carry_1 - r.carry_2
        * two_pow_8)),
      r.enabler * (r.res_3 - (r.op0_0 * r.op1_3 + r.op0_1 * r.op1_2 + r.op0_2 * r.op1_1 + r.op0_3 * r.op1_0
        + r.carry_2 - r.carry_3 * two_pow_8))],
    entries := [
      ⟨.registers, -r.enabler, [r.pc, r.fp, r.clock]⟩,
      ⟨.registers, r.enabler, [r.pc + one, r.fp, r.clock + one]⟩,
      ⟨.memory, -r.enabler, [r.pc, r.inst_prev_clock, opcode_constant, r.src0_off, r.src1_off, r.dst_off]⟩,
      ⟨.memory, r.enabler, [r.pc, r.clock, opcode_constant, r.src0_off, r.src1_off, r.dst_off]⟩,
      ⟨.memory, -r.enabler, [r.fp + r.src0_off, r.op0_prev_clock_lo, r.op0_0 + r.op0_1 * two_pow_8]⟩,
      ⟨.memory, r.enabler, [r.fp + r.src0_off, r.clock, r.op0_0 + r.op0_1 * two_pow_8]⟩,
      ⟨.memory, -r.enabler, [r.fp + r.src0_off + one, r.op0_prev_clock_hi, r.op0_2 + r.op0_3 * two_pow_8]⟩,
      ⟨.memory, r.enabler, [r.fp + r.src0_off + one, r.clock, r.op0_2 + r.op0_3 * two_pow_8]⟩,
      ⟨.memory, -r.enabler, [r.fp + r.src1_off, r.op1_prev_clock_lo, r.op1_0 + r.op1_1 * two_pow_8]⟩,
      ⟨.memory, r.enabler, [r.fp + r.src1_off, r.clock, r.op1_0 + r.op1_1 * two_pow_8]⟩,
      ⟨.memory, -r.enabler, [r.fp + r.src1_off + one, r.op1_prev_clock_hi, r.op1_2 + r.op1_3 * two_pow_8]⟩,
      ⟨.memory, r.enabler, [r.fp + r.src1_off + one, r.clock, r.op1_2 + r.op1_3 * two_pow_8]⟩,
      ⟨.memory, -r.enabler, [r.fp + r.dst_off, r.dst_prev_clock_lo, r.dst_prev_val_lo]⟩,
      ⟨.memory, r.enabler, [r.fp + r.dst_off, r.clock, r.res_0 + r.res_1 * two_pow_8]⟩,
      ⟨.memory, -r.enabler, [r.fp + r.dst_off + one, r.dst_prev_clock_hi, r.dst_prev_val_hi]⟩,
      ⟨.memory, r.enabler, [r.fp + r.dst_off + one, r.clock, r.res_2 + r.res_3 * two_pow_8]⟩,
      ⟨.rc8, -1, [r.op0_0]⟩,
      ⟨.rc8, -1, [r.op0_1]⟩,
      ⟨.rc8, -1, [r.op0_2]⟩,
      ⟨.rc8, -1, [r.op0_3]⟩,
      ⟨.rc8, -1, [r.op1_0]⟩,
      ⟨.rc8, -1, [r.op1_1]⟩,
      ⟨.rc8, -1, [r.op1_2]⟩,
      ⟨.rc8, -1, [r.op1_3]⟩,
      ⟨.rc8, -1, [r.res_0]⟩,
      ⟨.rc8, -1, [r.res_1]⟩,
      ⟨.rc8, -1, [r.res_2]⟩,
      ⟨.rc8, -1, [r.res_3]⟩,
      ⟨.rc16, -1, [max_carry_0 - r.carry_0]⟩,
      ⟨.rc16, -1, [max_carry_1 - r.carry_1]⟩,
      ⟨.rc16, -1, [max_carry_2 - r.carry_2]⟩,
      ⟨.rc16, -1, [max_carry_3 - r.carry_3]⟩,
      ⟨.rc20, -1, [r.clock - r.inst_prev_clock - r.enabler]⟩,
      ⟨.rc20, -1, [r.clock - r.op0_prev_clock_lo - r.enabler]⟩,
      ⟨.rc20, -1, [r.clock - r.op0_prev_clock_hi - r.enabler]⟩,
      ⟨.rc20, -1, [r.clock - r.dst_prev_clock_lo - r.enabler]⟩,
      ⟨.rc20, -1, [r.clock - r.dst_prev_clock_hi - r.enabler]⟩] }

end U32StoreMulFpFp

/-! ### `u32_store_div_fp_fp.rs` -/

namespace U32StoreDivFpFp

/-- Trace columns (`crates/prover/src/components/opcodes/u32_store_div_fp_fp.rs:977`, `next_trace_mask` in order). -/
structure Row where
  (enabler pc fp clock inst_prev_clock src0_off src1_off dst_off dst_rem_off n_lo n_hi : M31)
  (op0_prev_clock_lo op0_prev_clock_hi d_0 d_1 d_2 d_3 op1_prev_clock_lo op1_prev_clock_hi : M31)
  (dst_prev_val_lo dst_prev_val_hi dst_prev_clock_lo dst_prev_clock_hi dst_rem_prev_val_lo : M31)
  (dst_rem_prev_val_hi dst_rem_prev_clock_lo dst_rem_prev_clock_hi q_0 q_1 q_2 q_3 : M31)
  (mul_carry_0 mul_carry_1 mul_carry_2 mul_carry_3 mul_carry_4 mul_carry_5 mul_carry_6 prod_0 : M31)
  (prod_1 prod_2 prod_3 prod_4 prod_5 prod_6 prod_7 add_carry_0 add_carry_1 add_carry_2 : M31)
  (add_carry_3 sub_borrow_0 sub_borrow_1 r_lo r_hi : M31)

/-- `evaluate` (`crates/prover/src/components/opcodes/u32_store_div_fp_fp.rs:977-1510`). -/
def evaluate (r : Row) : Eval :=
  let one : M31 := 1
  let two_pow_8 : M31 := (256 : M31)
  let two_pow_16 : M31 := (65536 : M31)
  let opcode_constant : M31 := (18 : M31)
  let op1_val_lo : M31 := r.d_0 + r.d_1 * two_pow_8
  let op1_val_hi : M31 := r.d_2 + r.d_3 * two_pow_8
  let sub_check_lo : M31 := r.d_0 + r.d_1 * two_pow_8 + r.sub_borrow_0 * two_pow_16 - r.r_lo - one
  let sub_check_hi : M31 := r.d_2 + r.d_3 * two_pow_8 + r.sub_borrow_1 * two_pow_16 - r.r_hi - r.sub_borrow_0
  let res_lo : M31 := r.q_0 + r.q_1 * two_pow_8
  let res_hi : M31 := r.q_2 + r.q_3 * two_pow_8
  let max_carry_0 : M31 := (254 : M31)
  let max_carry_1 : M31 := (509 : M31)
  let max_carry_2 : M31 := (764 : M31)
  let max_carry_3 : M31 := (1019 : M31)
  let max_carry_4 : M31 := (765 : M31)
  let max_carry_5 : M31 := (510 : M31)
  let max_carry_6 : M31 := (255 : M31)
  { constraints := [
      r.enabler * (one - r.enabler), r.enabler * r.add_carry_0 * (one - r.add_carry_0),
      r.enabler * r.add_carry_1 * (one - r.add_carry_1),
      r.enabler * r.add_carry_2 * (one - r.add_carry_2),
      r.enabler * r.sub_borrow_0 * (one - r.sub_borrow_0),
      r.enabler * (r.q_0 * r.d_0 - r.mul_carry_0 * two_pow_8 - r.prod_0),
      r.enabler * (r.q_0 * r.d_1 + r.q_1 * r.d_0 + r.mul_carry_0 - r.mul_carry_1 * two_pow_8 - r.prod_1),
      r.enabler * (r.q_0 * r.d_2 + r.q_2 * r.d_0 + r.q_1 * r.d_1 + r.mul_carry_1 - r.mul_carry_2 * two_pow_8
        - r.prod_2),
      r.enabler * (r.q_0 * r.d_3 + r.q_3 * r.d_0 + r.q_1 * r.d_2 + r.q_2 * r.d_1 + r.mul_carry_2 - r.mul_carry_3
        * two_pow_8 - r.prod_3),
      r.enabler * (r.q_1 * r.d_3 + r.q_3 * r.d_1 + r.q_2 * r.d_2 + r.mul_carry_3 - r.mul_carry_4 * two_pow_8
        - r.prod_4),
      r.enabler * (r.q_2 * r.d_3 + r.q_3 * r.d_2 + r.mul_carry_4 - r.mul_carry_5 * two_pow_8 - r.prod_5),
      r.enabler * (r.q_3 * r.d_3 + r.mul_carry_5 - r.mul_carry_6 * two_pow_8 - r.prod_6),
      r.enabler * (r.mul_carry_6 - r.prod_7),
      r.enabler * (r.n_lo - (r.prod_0 + r.prod_1 * two_pow_8 + r.r_lo - r.add_carry_0 * two_pow_16)),
      r.enabler * (r.n_hi - (r.prod_2 + r.prod_3 * two_pow_8 + r.r_hi + r.add_carry_0 - r.add_carry_1 * two_pow_16)),
      r.enabler * (r.prod_4 + r.prod_5 * two_pow_8 + r.add_carry_1 - r.add_carry_2 * two_pow_16),
      r.enabler * (r.prod_6 + r.prod_7 * two_pow_8 + r.add_carry_2 - r.add_carry_3 * two_pow_16),
      r.enabler * r.add_carry_3, r.enabler * r.sub_borrow_1],
    entries := [
      ⟨.registers, -r.enabler, [r.pc, r.fp, r.clock]⟩,
      ⟨.registers, r.enabler, [r.pc + one + one, r.fp, r.clock + one]⟩,
      ⟨.memory, -r.enabler, [r.pc, r.inst_prev_clock, opcode_constant, r.src0_off, r.src1_off, r.dst_off]⟩,
      ⟨.memory, r.enabler, [r.pc, r.clock, opcode_constant, r.src0_off, r.src1_off, r.dst_off]⟩,
      ⟨.memory, -r.enabler, [r.pc + one, r.inst_prev_clock, r.dst_rem_off]⟩,
      ⟨.memory, r.enabler, [r.pc + one, r.clock, r.dst_rem_off]⟩,
      ⟨.memory, -r.enabler, [r.fp + r.src0_off, r.op0_prev_clock_lo, r.n_lo]⟩,
      ⟨.memory, r.enabler, [r.fp + r.src0_off, r.clock, r.n_lo]⟩,
      ⟨.memory, -r.enabler, [r.fp + r.src0_off + one, r.op0_prev_clock_hi, r.n_hi]⟩,
      ⟨.memory, r.enabler, [r.fp + r.src0_off + one, r.clock, r.n_hi]⟩,
      ⟨.memory, -r.enabler, [r.fp + r.src1_off, r.op1_prev_clock_lo, op1_val_lo]⟩,
      ⟨.memory, r.enabler, [r.fp + r.src1_off, r.clock, op1_val_lo]⟩,
      ⟨.memory, -r.enabler, [r.fp + r.src1_off + one, r.op1_prev_clock_hi, op1_val_hi]⟩,
      ⟨.memory, r.enabler, [r.fp + r.src1_off + one, r.clock, op1_val_hi]⟩,
      ⟨.memory, -r.enabler, [r.fp + r.dst_off, r.dst_prev_clock_lo, r.dst_prev_val_lo]⟩,
      ⟨.memory, r.enabler, [r.fp + r.dst_off, r.clock, res_lo]⟩,
      ⟨.memory, -r.enabler, [r.fp + r.dst_off + one, r.dst_prev_clock_hi, r.dst_prev_val_hi]⟩,
      ⟨.memory, r.enabler, [r.fp + r.dst_off + one, r.clock, res_hi]⟩,
      ⟨.memory, -r.enabler, [r.fp + r.dst_rem_off, r.dst_rem_prev_clock_lo, r.dst_rem_prev_val_lo]⟩,
      ⟨.memory, r.enabler, [r.fp + r.dst_rem_off, r.clock, r.r_lo]⟩,
      ⟨.memory, -r.enabler, [r.fp + r.dst_rem_off + one, r.dst_rem_prev_clock_hi, r.dst_rem_prev_val_hi]⟩,
      ⟨.memory, r.enabler, [r.fp + r.dst_rem_off + one, r.clock, r.r_hi]⟩,
      ⟨.rc8, -1, [r.d_0]⟩,
      ⟨.rc8, -1, [r.d_1]⟩,
      ⟨.rc8, -1, [r.d_2]⟩,
      ⟨.rc8, -1, [r.d_3]⟩,
      ⟨.rc8, -1, [r.q_0]⟩,
      ⟨.rc8, -1, [r.q_1]⟩,
      ⟨.rc8, -1, [r.q_2]⟩,
      ⟨.rc8, -1, [r.q_3]⟩,
      ⟨.rc8, -1, [r.prod_0]⟩,
      ⟨.rc8, -1, [r.prod_1]⟩,
      ⟨.rc8, -1, [r.prod_2]⟩,
      ⟨.rc8, -1, [r.prod_3]⟩,
      ⟨.rc8, -1, [r.prod_4]⟩,
      ⟨.rc8, -1, [r.prod_5]⟩,
      ⟨.rc8, -1, [r.prod_6]⟩,
      ⟨.rc8, -1, [r.prod_7]⟩,
      ⟨.rc16, -1, [r.n_lo]⟩,
      ⟨.rc16, -1, [r.n_hi]⟩,
      ⟨.rc16, -1, [r.r_lo]⟩,
      ⟨.rc16, -1, [r.r_hi]⟩,
      ⟨.rc16, -1, [max_carry_0 - r.mul_carry_0]⟩,
      ⟨.rc16, -1, [max_carry_1 - r.mul_carry_1]⟩,
      ⟨.rc16, -1, [max_carry_2 - r.mul_carry_2]⟩,
      ⟨.rc16, -1, [max_carry_3 - r.mul_carry_3]⟩,
      ⟨.rc16, -1, [max_carry_4 - r.mul_carry_4]⟩,
      ⟨.rc16, -1, [max_carry_5 - r.mul_carry_5]⟩,
      ⟨.rc16, -1, [max_carry_6 - r.mul_carry_6]⟩,
      ⟨.rc16, -1, [sub_check_lo]⟩,
      ⟨.rc16, -1, [sub_check_hi]⟩,
      ⟨.rc20, -1, [r.clock - r.inst_prev_clock - r.enabler]⟩,
      ⟨.rc20, -1, [r.clock - r.op0_prev_clock_lo - r.enabler]⟩,
      ⟨.rc20, -1, [r.clock - r.op0_prev_clock_hi - r.enabler]⟩,
      ⟨.rc20, -1, [r.clock - r.dst_prev_clock_lo - r.enabler]⟩,
      ⟨.rc20, -1, [r.clock - r.dst_prev_clock_hi - r.enabler]⟩,
      ⟨.rc20, -1, [r.clock - r.dst_rem_prev_clock_lo - r.enabler]⟩,
      ⟨.rc20, -1, [r.clock - r.dst_rem_prev_clock_hi - r.enabler]⟩] }

end U32StoreDivFpFp

/-! ### `u32_store_add_fp_imm.rs` -/

namespace U32StoreAddFpImm

/-- Trace columns (`crates/prover/src/components/opcodes/u32_store_add_fp_imm.rs:513`, `next_trace_mask` in order). -/
structure Row where
  (enabler pc fp clock inst_prev_clock src_off imm_lo imm_hi dst_off op0_val_lo op0_val_hi : M31)
  (op0_prev_clock_lo op0_prev_clock_hi dst_prev_val_lo dst_prev_val_hi dst_prev_clock_lo : M31)
  (dst_prev_clock_hi u16_carry u32_carry : M31)

/-- `evaluate` (`crates/prover/src/components/opcodes/u32_store_add_fp_imm.rs:513-743`). -/
def evaluate (r : Row) : Eval :=
  let one : M31 := 1
  let two_pow_16 : M31 := (65536 : M31)
  let opcode_constant : M31 := (19 : M31)
  let res_lo : M31 := r.op0_val_lo + r.imm_lo - r.u16_carry * two_pow_16
  let res_hi : M31 := r.op0_val_hi + r.imm_hi + r.u16_carry - r.u32_carry * two_pow_16
  { constraints := [
      r.enabler * (one - r.enabler), r.u16_carry * (one - r.u16_carry),
      r.u32_carry * (one - r.u32_carry)],
    entries := [
      ⟨.registers, -r.enabler, [r.pc, r.fp, r.clock]⟩,
      ⟨.registers, r.enabler, [r.pc + one + one, r.fp, r.clock + one]⟩,
      ⟨.memory, -r.enabler, [r.pc, r.inst_prev_clock, opcode_constant, r.src_off, r.imm_lo, r.imm_hi]⟩,
      ⟨.memory, r.enabler, [r.pc, r.clock, opcode_constant, r.src_off, r.imm_lo, r.imm_hi]⟩,
      ⟨.memory, -r.enabler, [r.pc + one, r.inst_prev_clock, r.dst_off]⟩,
      ⟨.memory, r.enabler, [r.pc + one, r.clock, r.dst_off]⟩,
      ⟨.memory, -r.enabler, [r.fp + r.src_off, r.op0_prev_clock_lo, r.op0_val_lo]⟩,
      ⟨.memory, r.enabler, [r.fp + r.src_off, r.clock, r.op0_val_lo]⟩,
      ⟨.memory, -r.enabler, [r.fp + r.src_off + one, r.op0_prev_clock_hi, r.op0_val_hi]⟩,
      ⟨.memory, r.enabler, [r.fp + r.src_off + one, r.clock, r.op0_val_hi]⟩,
      ⟨.memory, -r.enabler, [r.fp + r.dst_off, r.dst_prev_clock_lo, r.dst_prev_val_lo]⟩,
      ⟨.memory, r.enabler, [r.fp + r.dst_off, r.clock, res_lo]⟩,
      ⟨.memory, -r.enabler, [r.fp + r.dst_off + one, r.dst_prev_clock_hi, r.dst_prev_val_hi]⟩,
      ⟨.memory, r.enabler, [r.fp + r.dst_off + one, r.clock, res_hi]⟩,
      ⟨.rc16, -1, [r.op0_val_lo]⟩,
      ⟨.rc16, -1, [r.op0_val_hi]⟩,
      ⟨.rc16, -1, [r.imm_lo]⟩,
      ⟨.rc16, -1, [r.imm_hi]⟩,
      ⟨.rc16, -1, [res_lo]⟩,
      ⟨.rc16, -1, [res_hi]⟩,
      ⟨.rc20, -1, [r.clock - r.inst_prev_clock - r.enabler]⟩,
      ⟨.rc20, -1, [r.clock - r.op0_prev_clock_lo - r.enabler]⟩,
      ⟨.rc20, -1, [r.clock - r.op0_prev_clock_hi - r.enabler]⟩,
      ⟨.rc20, -1, [r.clock - r.dst_prev_clock_lo - r.enabler]⟩,
      ⟨.rc20, -1, [r.clock - r.dst_prev_clock_hi - r.enabler]⟩] }

end U32StoreAddFpImm

/-! ### `u32_store_mul_fp_imm.rs` -/

namespace U32StoreMulFpImm

/-- Trace columns (`crates/prover/src/components/opcodes/u32_store_mul_fp_imm.rs:651`, `next_trace_mask` in order). -/
structure Row where
  (enabler pc fp clock inst_prev_clock src_off imm_0 imm_1 imm_2 imm_3 dst_off op0_0 op0_1 : M31)
  (op0_2 op0_3 op0_prev_clock_lo op0_prev_clock_hi dst_prev_val_lo dst_prev_val_hi : M31)
  (dst_prev_clock_lo dst_prev_clock_hi res_0 res_1 res_2 res_3 carry_0 carry_1 carry_2 : M31)
  (carry_3 : M31)

/-- `evaluate` (`crates/prover/src/components/opcodes/u32_store_mul_fp_imm.rs:651-986`). -/
def evaluate (r : Row) : Eval :=
  let one : M31 := 1
  let two_pow_8 : M31 := (256 : M31)
  let opcode_constant : M31 := (21 : M31)
  let max_carry_0 : M31 := (254 : M31)
  let max_carry_1 : M31 := (509 : M31)
  let max_carry_2 : M31 := (764 : M31)
  let max_carry_3 : M31 := (1019 : M31)
  { constraints := [
      r.enabler * (one - r.enabler),
      r.enabler * (r.res_0 - (r.op0_0 * r.imm_0 - r.carry_0 * two_pow_8)),
      r.enabler * (r.res_1 - (r.op0_0 * r.imm_1 + r.op0_1 * r.imm_0 + r.carry_0 - r.carry_1 * two_pow_8)),
      r.enabler * (r.res_2 - (r.op0_0 * r.imm_2 + r.op0_1 * r.imm_1 + r.op0_2 * r.imm_0 + r.carry_1 - r.carry_2
        * two_pow_8)),
      r.enabler * (r.res_3 - (r.op0_0 * r.imm_3 + r.op0_1 * r.imm_2 + r.op0_2 * r.imm_1 + r.op0_3 * r.imm_0
        + r.carry_2 - r.carry_3 * two_pow_8))],
    entries := [
      ⟨.registers, -r.enabler, [r.pc, r.fp, r.clock]⟩,
      ⟨.registers, r.enabler, [r.pc + one + one, r.fp, r.clock + one]⟩,
      ⟨.memory, -r.enabler, [r.pc, r.inst_prev_clock, opcode_constant, r.src_off, r.imm_0 + r.imm_1 * two_pow_8,
        r.imm_2 + r.imm_3 * two_pow_8]⟩,
      ⟨.memory, r.enabler, [r.pc, r.clock, opcode_constant, r.src_off, r.imm_0 + r.imm_1 * two_pow_8, r.imm_2
        + r.imm_3 * two_pow_8]⟩,
      ⟨.memory, -r.enabler, [r.pc + one, r.inst_prev_clock, r.dst_off]⟩,
      ⟨.memory, r.enabler, [r.pc + one, r.clock, r.dst_off]⟩,
      ⟨.memory, -r.enabler, [r.fp + r.src_off, r.op0_prev_clock_lo, r.op0_0 + r.op0_1 * two_pow_8]⟩,
      ⟨.memory, r.enabler, [r.fp + r.src_off, r.clock, r.op0_0 + r.op0_1 * two_pow_8]⟩,
      ⟨.memory, -r.enabler, [r.fp + r.src_off + one, r.op0_prev_clock_hi, r.op0_2 + r.op0_3 * two_pow_8]⟩,
      ⟨.memory, r.enabler, [r.fp + r.src_off + one, r.clock, r.op0_2 + r.op0_3 * two_pow_8]⟩,
      ⟨.memory, -r.enabler, [r.fp + r.dst_off, r.dst_prev_clock_lo, r.dst_prev_val_lo]⟩,
      ⟨.memory, r.enabler, [r.fp + r.dst_off, r.clock, r.res_0 + r.res_1 * two_pow_8]⟩,
      ⟨.memory, -r.enabler, [r.fp + r.dst_off + one, r.dst_prev_clock_hi, r.dst_prev_val_hi]⟩,
      ⟨.memory, r.enabler, [r.fp + r.dst_off + one, r.clock, r.res_2 + r.res_3 * two_pow_8]⟩,
      ⟨.rc8, -1, [r.op0_0]⟩,
      ⟨.rc8, -1, [r.op0_1]⟩,
      ⟨.rc8, -1, [r.op0_2]⟩,
      ⟨.rc8, -1, [r.op0_3]⟩,
      ⟨.rc8, -1, [r.imm_0]⟩,
      ⟨.rc8, -1, [r.imm_1]⟩,
      ⟨.rc8, -1, [r.imm_2]⟩,
      ⟨.rc8, -1, [r.imm_3]⟩,
      ⟨.rc8, -1, [r.res_0]⟩,
      ⟨.rc8, -1, [r.res_1]⟩,
      ⟨.rc8, -1, [r.res_2]⟩,
      ⟨.rc8, -1, [r.res_3]⟩,
      ⟨.rc16, -1, [max_carry_0 - r.carry_0]⟩,
      ⟨.rc16, -1, [max_carry_1 - r.carry_1]⟩,
      ⟨.rc16, -1, [max_carry_2 - r.carry_2]⟩,
      ⟨.rc16, -1, [max_carry_3 - r.carry_3]⟩,
      ⟨.rc20, -1, [r.clock - r.inst_prev_clock - r.enabler]⟩,
      ⟨.rc20, -1, [r.clock - r.op0_prev_clock_lo - r.enabler]⟩,
      ⟨.rc20, -1, [r.clock - r.op0_prev_clock_hi - r.enabler]⟩,
      ⟨.rc20, -1, [r.clock - r.dst_prev_clock_lo - r.enabler]⟩,
      ⟨.rc20, -1, [r.clock - r.dst_prev_clock_hi - r.enabler]⟩] }

end U32StoreMulFpImm

/-! ### `u32_store_div_fp_imm.rs` -/

namespace U32StoreDivFpImm

/-- Trace columns (`crates/prover/src/components/opcodes/u32_store_div_fp_imm.rs:937`, `next_trace_mask` in order). -/
structure Row where
  (enabler pc fp clock inst_prev_clock src_off d_0 d_1 d_2 d_3 dst_off dst_rem_off n_lo n_hi : M31)
  (op0_prev_clock_lo op0_prev_clock_hi dst_prev_val_lo dst_prev_val_hi dst_prev_clock_lo : M31)
  (dst_prev_clock_hi dst_rem_prev_val_lo dst_rem_prev_val_hi dst_rem_prev_clock_lo : M31)
  (dst_rem_prev_clock_hi q_0 q_1 q_2 q_3 mul_carry_0 mul_carry_1 mul_carry_2 mul_carry_3 : M31)
  (mul_carry_4 mul_carry_5 mul_carry_6 prod_0 prod_1 prod_2 prod_3 prod_4 prod_5 prod_6 : M31)
  (prod_7 add_carry_0 add_carry_1 add_carry_2 add_carry_3 sub_borrow_0 sub_borrow_1 r_lo r_hi : M31)

/-- `evaluate` (`crates/prover/src/components/opcodes/u32_store_div_fp_imm.rs:937-1437`). -/
def evaluate (r : Row) : Eval :=
  let one : M31 := 1
  let two_pow_8 : M31 := (256 : M31)
  let two_pow_16 : M31 := (65536 : M31)
  let opcode_constant : M31 := (22 : M31)
  let imm_lo : M31 := r.d_0 + r.d_1 * two_pow_8
  let imm_hi : M31 := r.d_2 + r.d_3 * two_pow_8
  let sub_check_lo : M31 := r.d_0 + r.d_1 * two_pow_8 + r.sub_borrow_0 * two_pow_16 - r.r_lo - one
  let sub_check_hi : M31 := r.d_2 + r.d_3 * two_pow_8 + r.sub_borrow_1 * two_pow_16 - r.r_hi - r.sub_borrow_0
  let res_lo : M31 := r.q_0 + r.q_1 * two_pow_8
  let res_hi : M31 := r.q_2 + r.q_3 * two_pow_8
  let max_carry_0 : M31 := (254 : M31)
  let max_carry_1 : M31 := (509 : M31)
  let max_carry_2 : M31 := (764 : M31)
  let max_carry_3 : M31 := (1019 : M31)
  let max_carry_4 : M31 := (765 : M31)
  let max_carry_5 : M31 := (510 : M31)
  let max_carry_6 : M31 := (255 : M31)
  { constraints := [
      r.enabler * (one - r.enabler), r.enabler * r.add_carry_0 * (one - r.add_carry_0),
      r.enabler * r.add_carry_1 * (one - r.add_carry_1),
      r.enabler * r.add_carry_2 * (one - r.add_carry_2),
      r.enabler * r.sub_borrow_0 * (one - r.sub_borrow_0),
      r.enabler * (r.q_0 * r.d_0 - r.mul_carry_0 * two_pow_8 - r.prod_0),
      r.enabler * (r.q_0 * r.d_1 + r.q_1 * r.d_0 + r.mul_carry_0 - r.mul_carry_1 * two_pow_8 - r.prod_1),
      r.enabler * (r.q_0 * r.d_2 + r.q_2 * r.d_0 + r.q_1 * r.d_1 + r.mul_carry_1 - r.mul_carry_2 * two_pow_8
        - r.prod_2),
      r.enabler * (r.q_0 * r.d_3 + r.q_3 * r.d_0 + r.q_1 * r.d_2 + r.q_2 * r.d_1 + r.mul_carry_2 - r.mul_carry_3
        * two_pow_8 - r.prod_3),
      r.enabler * (r.q_1 * r.d_3 + r.q_3 * r.d_1 + r.q_2 * r.d_2 + r.mul_carry_3 - r.mul_carry_4 * two_pow_8
        - r.prod_4),
      r.enabler * (r.q_2 * r.d_3 + r.q_3 * r.d_2 + r.mul_carry_4 - r.mul_carry_5 * two_pow_8 - r.prod_5),
      r.enabler * (r.q_3 * r.d_3 + r.mul_carry_5 - r.mul_carry_6 * two_pow_8 - r.prod_6),
      r.enabler * (r.mul_carry_6 - r.prod_7),
      r.enabler * (r.n_lo - (r.prod_0 + r.prod_1 * two_pow_8 + r.r_lo - r.add_carry_0 * two_pow_16)),
      r.enabler * (r.n_hi - (r.prod_2 + r.prod_3 * two_pow_8 + r.r_hi + r.add_carry_0 - r.add_carry_1 * two_pow_16)),
      r.enabler * (r.prod_4 + r.prod_5 * two_pow_8 + r.add_carry_1 - r.add_carry_2 * two_pow_16),
      r.enabler * (r.prod_6 + r.prod_7 * two_pow_8 + r.add_carry_2 - r.add_carry_3 * two_pow_16),
      r.enabler * r.add_carry_3, r.enabler * r.sub_borrow_1],
    entries := [
      ⟨.registers, -r.enabler, [r.pc, r.fp, r.clock]⟩,
      ⟨.registers, r.enabler, [r.pc + one + one, r.fp, r.clock + one]⟩,
      ⟨.memory, -r.enabler, [r.pc, r.inst_prev_clock, opcode_constant, r.src_off, imm_lo, imm_hi]⟩,
      ⟨.memory, r.enabler, [r.pc, r.clock, opcode_constant, r.src_off, imm_lo, imm_hi]⟩,
      ⟨.memory, -r.enabler, [r.pc + one, r.inst_prev_clock, r.dst_off, r.dst_rem_off]⟩,
      ⟨.memory, r.enabler, [r.pc + one, r.clock, r.dst_off, r.dst_rem_off]⟩,
      ⟨.memory, -r.enabler, [r.fp + r.src_off, r.op0_prev_clock_lo, r.n_lo]⟩,
      ⟨.memory, r.enabler, [r.fp + r.src_off, r.clock, r.n_lo]⟩,
      ⟨.memory, -r.enabler, [r.fp + r.src_off + one, r.op0_prev_clock_hi, r.n_hi]⟩,
      ⟨.memory, r.enabler, [r.fp + r.src_off + one, r.clock, r.n_hi]⟩,
      ⟨.memory, -r.enabler, [r.fp + r.dst_off, r.dst_prev_clock_lo, r.dst_prev_val_lo]⟩,
      ⟨.memory, r.enabler, [r.fp + r.dst_off, r.clock, res_lo]⟩,
      ⟨.memory, -r.enabler, [r.fp + r.dst_off + one, r.dst_prev_clock_hi, r.dst_prev_val_hi]⟩,
      ⟨.memory, r.enabler, [r.fp + r.dst_off + one, r.clock, res_hi]⟩,
      ⟨.memory, -r.enabler, [r.fp + r.dst_rem_off, r.dst_rem_prev_clock_lo, r.dst_rem_prev_val_lo]⟩,
      ⟨.memory, r.enabler, [r.fp + r.dst_rem_off, r.clock, r.r_lo]⟩,
      ⟨.memory, -r.enabler, [r.fp + r.dst_rem_off + one, r.dst_rem_prev_clock_hi, r.dst_rem_prev_val_hi]⟩,
      ⟨.memory, r.enabler, [r.fp + r.dst_rem_off + one, r.clock, r.r_hi]⟩,
      ⟨.rc8, -1, [r.d_0]⟩,
      ⟨.rc8, -1, [r.d_1]⟩,
      ⟨.rc8, -1, [r.d_2]⟩,
      ⟨.rc8, -1, [r.d_3]⟩,
      ⟨.rc8, -1, [r.q_0]⟩,
      ⟨.rc8, -1, [r.q_1]⟩,
      ⟨.rc8, -1, [r.q_2]⟩,
      ⟨.rc8, -1, [r.q_3]⟩,
      ⟨.rc8, -1, [r.prod_0]⟩,
      ⟨.rc8, -1, [r.prod_1]⟩,
      ⟨.rc8, -1, [r.prod_2]⟩,
      ⟨.rc8, -1, [r.prod_3]⟩,
      ⟨.rc8, -1, [r.prod_4]⟩,
      ⟨.rc8, -1, [r.prod_5]⟩,
      ⟨.rc8, -1, [r.prod_6]⟩,
      ⟨.rc8, -1, [r.prod_7]⟩,
      ⟨.rc16, -1, [r.n_lo]⟩,
      ⟨.rc16, -1, [r.n_hi]⟩,
      ⟨.rc16, -1, [r.r_lo]⟩,
      ⟨.rc16, -1, [r.r_hi]⟩,
      ⟨.rc16, -1, [max_carry_0 - r.mul_carry_0]⟩,
      ⟨.rc16, -1, [max_carry_1 - r.mul_carry_1]⟩,
      ⟨.rc16, -1, [max_carry_2 - r.mul_carry_2]⟩,
      ⟨.rc16, -1, [max_carry_3 - r.mul_carry_3]⟩,
      ⟨.rc16, -1, [max_carry_4 - r.mul_carry_4]⟩,
      ⟨.rc16, -1, [max_carry_5 - r.mul_carry_5]⟩,
      ⟨.rc16, -1, [max_carry_6 - r.mul_carry_6]⟩,
      ⟨.rc16, -1, [sub_check_lo]⟩,
      ⟨.rc16, -1, [sub_check_hi]⟩,
      ⟨.rc20, -1, [r.clock - r.inst_prev_clock - r.enabler]⟩,
      ⟨.rc20, -1, [r.clock - r.op0_prev_clock_lo - r.enabler]⟩,
      ⟨.rc20, -1, [r.clock - r.op0_prev_clock_hi - r.enabler]⟩,
      ⟨.rc20, -1, [r.clock - r.dst_prev_clock_lo - r.enabler]⟩,
      ⟨.rc20, -1, [r.clock - r.dst_prev_clock_hi - r.enabler]⟩,
      ⟨.rc20, -1, [r.clock - r.dst_rem_prev_clock_lo - r.enabler]⟩,
      ⟨.rc20, -1, [r.clock - r.dst_rem_prev_clock_hi - r.enabler]⟩] }

end U32StoreDivFpImm

/-! ### `u32_store_imm.rs` -/

namespace U32StoreImm

/-- Trace columns (`crates/prover/src/components/opcodes/u32_store_imm.rs:437`, `next_trace_mask` in order). -/
structure Row where
  (enabler pc fp clock inst_prev_clock imm_lo imm_hi dst_off dst_prev_val_lo dst_prev_val_hi : M31)
  (dst_prev_clock_lo dst_prev_clock_hi : M31)

/-- `evaluate` (`crates/prover/src/components/opcodes/u32_store_imm.rs:437-563`). -/
def evaluate (r : Row) : Eval :=
  let one : M31 := 1
  let opcode_constant : M31 := (23 : M31)
  { constraints := [
      r.enabler * (one - r.enabler)],
    entries := [
      ⟨.registers, -r.enabler, [r.pc, r.fp, r.clock]⟩,
      ⟨.registers, r.enabler, [r.pc + one, r.fp, r.clock + one]⟩,
      ⟨.memory, -r.enabler, [r.pc, r.inst_prev_clock, opcode_constant, r.imm_lo, r.imm_hi, r.dst_off]⟩,
      ⟨.memory, r.enabler, [r.pc, r.clock, opcode_constant, r.imm_lo, r.imm_hi, r.dst_off]⟩,
      ⟨.memory, -r.enabler, [r.fp + r.dst_off, r.dst_prev_clock_lo, r.dst_prev_val_lo]⟩,
      ⟨.memory, r.enabler, [r.fp + r.dst_off, r.clock, r.imm_lo]⟩,
      ⟨.memory, -r.enabler, [r.fp + r.dst_off + one, r.dst_prev_clock_hi, r.dst_prev_val_hi]⟩,
      ⟨.memory, r.enabler, [r.fp + r.dst_off + one, r.clock, r.imm_hi]⟩,
      ⟨.rc16, -1, [r.imm_lo]⟩,
      ⟨.rc16, -1, [r.imm_hi]⟩,
      ⟨.rc20, -1, [r.clock - r.inst_prev_clock - r.enabler]⟩,
      ⟨.rc20, -1, [r.clock - r.dst_prev_clock_lo - r.enabler]⟩,
      ⟨.rc20, -1, [r.clock - r.dst_prev_clock_hi - r.enabler]⟩] }

end U32StoreImm

/-! ### `u32_store_eq_fp_fp.rs` -/

namespace U32StoreEqFpFp

/-- Trace columns (`crates/prover/src/components/opcodes/u32_store_eq_fp_fp.rs:498`, `next_trace_mask` in order). -/
structure Row where
  (enabler pc fp clock inst_prev_clock src0_off src1_off dst_off op0_val_lo op0_val_hi : M31)
  (op0_prev_clock_lo op0_prev_clock_hi op1_val_lo op1_val_hi op1_prev_clock_lo : M31)
  (op1_prev_clock_hi dst_prev_val dst_prev_clock diff_inv_lo diff_inv_hi is_eq_lo is_eq_prod : M31)

/-- `evaluate` (`crates/prover/src/components/opcodes/u32_store_eq_fp_fp.rs:498-743`). -/
def evaluate (r : Row) : Eval :=
  let one : M31 := 1
  let opcode_constant : M31 := (24 : M31)
  let diff_lo : M31 := r.op1_val_lo - r.op0_val_lo
  let diff_hi : M31 := r.op1_val_hi - r.op0_val_hi
  { constraints := [
      r.enabler * (one - r.enabler), diff_lo * (r.diff_inv_lo * diff_lo - one),
      diff_hi * (r.diff_inv_hi * diff_hi - one), r.is_eq_lo - (one - diff_lo * r.diff_inv_lo),
      r.is_eq_prod - r.is_eq_lo * (one - diff_hi * r.diff_inv_hi)],
    entries := [
      ⟨.registers, -r.enabler, [r.pc, r.fp, r.clock]⟩,
      ⟨.registers, r.enabler, [r.pc + one, r.fp, r.clock + one]⟩,
      ⟨.memory, -r.enabler, [r.pc, r.inst_prev_clock, opcode_constant, r.src0_off, r.src1_off, r.dst_off]⟩,
      ⟨.memory, r.enabler, [r.pc, r.clock, opcode_constant, r.src0_off, r.src1_off, r.dst_off]⟩,
      ⟨.memory, -r.enabler, [r.fp + r.src0_off, r.op0_prev_clock_lo, r.op0_val_lo]⟩,
      ⟨.memory, r.enabler, [r.fp + r.src0_off, r.clock, r.op0_val_lo]⟩,
      ⟨.memory, -r.enabler, [r.fp + r.src0_off + one, r.op0_prev_clock_hi, r.op0_val_hi]⟩,
      ⟨.memory, r.enabler, [r.fp + r.src0_off + one, r.clock, r.op0_val_hi]⟩,
      ⟨.memory, -r.enabler, [r.fp + r.src1_off, r.op1_prev_clock_lo, r.op1_val_lo]⟩,
      ⟨.memory, r.enabler, [r.fp + r.src1_off, r.clock, r.op1_val_lo]⟩,
      ⟨.memory, -r.enabler, [r.fp + r.src1_off + one, r.op1_prev_clock_hi, r.op1_val_hi]⟩,
      ⟨.memory, r.enabler, [r.fp + r.src1_off + one, r.clock, r.op1_val_hi]⟩,
      ⟨.memory, -r.enabler, [r.fp + r.dst_off, r.dst_prev_clock, r.dst_prev_val]⟩,
      ⟨.memory, r.enabler, [r.fp + r.dst_off, r.clock, r.is_eq_prod]⟩,
      ⟨.rc16, -1, [r.op0_val_lo]⟩,
      ⟨.rc16, -1, [r.op0_val_hi]⟩,
      ⟨.rc16, -1, [r.op1_val_lo]⟩,
      ⟨.rc16, -1, [r.op1_val_hi]⟩,
      ⟨.rc20, -1, [r.clock - r.inst_prev_clock - r.enabler]⟩,
      ⟨.rc20, -1, [r.clock - r.op0_prev_clock_lo - r.enabler]⟩,
      ⟨.rc20, -1, [r.clock - r.op0_prev_clock_hi - r.enabler]⟩,
      ⟨.rc20, -1, [r.clock - r.op1_prev_clock_lo - r.enabler]⟩,
      ⟨.rc20, -1, [r.clock - r.op1_prev_clock_hi - r.enabler]⟩,
      ⟨.rc20, -1, [r.clock - r.dst_prev_clock - r.enabler]⟩] }

end U32StoreEqFpFp

/-! ### `u32_store_lt_fp_fp.rs` -/

namespace U32StoreLtFpFp

/-- Trace columns (`crates/prover/src/components/opcodes/u32_store_lt_fp_fp.rs:551`, `next_trace_mask` in order). -/
structure Row where
  (enabler pc fp clock inst_prev_clock src0_off src1_off dst_off op0_val_lo op0_val_hi : M31)
  (op0_prev_clock_lo op0_prev_clock_hi op1_val_lo op1_val_hi op1_prev_clock_lo : M31)
  (op1_prev_clock_hi dst_prev_val dst_prev_clock borrow_lo borrow_hi : M31)

/-- `evaluate` (`crates/prover/src/components/opcodes/u32_store_lt_fp_fp.rs:551-791`). -/
def evaluate (r : Row) : Eval :=
  let one : M31 := 1
  let two_pow_16 : M31 := (65536 : M31)
  let opcode_constant : M31 := (28 : M31)
  { constraints := [
      r.enabler * (one - r.enabler), r.borrow_lo * (one - r.borrow_lo),
      r.borrow_hi * (one - r.borrow_hi)],
    entries := [
      ⟨.registers, -r.enabler, [r.pc, r.fp, r.clock]⟩,
      ⟨.registers, r.enabler, [r.pc + one, r.fp, r.clock + one]⟩,
      ⟨.memory, -r.enabler, [r.pc, r.inst_prev_clock, opcode_constant, r.src0_off, r.src1_off, r.dst_off]⟩,
      ⟨.memory, r.enabler, [r.pc, r.clock, opcode_constant, r.src0_off, r.src1_off, r.dst_off]⟩,
      ⟨.memory, -r.enabler, [r.fp + r.src0_off, r.op0_prev_clock_lo, r.op0_val_lo]⟩,
      ⟨.memory, r.enabler, [r.fp + r.src0_off, r.clock, r.op0_val_lo]⟩,
      ⟨.memory, -r.enabler, [r.fp + r.src0_off + one, r.op0_prev_clock_hi, r.op0_val_hi]⟩,
      ⟨.memory, r.enabler, [r.fp + r.src0_off + one, r.clock, r.op0_val_hi]⟩,
      ⟨.memory, -r.enabler, [r.fp + r.src1_off, r.op1_prev_clock_lo, r.op1_val_lo]⟩,
      ⟨.memory, r.enabler, [r.fp + r.src1_off, r.clock, r.op1_val_lo]⟩,
      ⟨.memory, -r.enabler, [r.fp + r.src1_off + one, r.op1_prev_clock_hi, r.op1_val_hi]⟩,
      ⟨.memory, r.enabler, [r.fp + r.src1_off + one, r.clock, r.op1_val_hi]⟩,
      ⟨.memory, -r.enabler, [r.fp + r.dst_off, r.dst_prev_clock, r.dst_prev_val]⟩,
      ⟨.memory, r.enabler, [r.fp + r.dst_off, r.clock, one - r.borrow_hi]⟩,
      ⟨.rc16, -1, [r.op0_val_lo]⟩,
      ⟨.rc16, -1, [r.op0_val_hi]⟩,
      ⟨.rc16, -1, [r.op1_val_lo]⟩,
      ⟨.rc16, -1, [r.op1_val_hi]⟩,
      ⟨.rc16, -1, [r.op1_val_lo - r.enabler + r.borrow_lo * two_pow_16 - r.op0_val_lo]⟩,
      ⟨.rc16, -1, [r.op1_val_hi - r.borrow_lo + r.borrow_hi * two_pow_16 - r.op0_val_hi]⟩,
      ⟨.rc20, -1, [r.clock - r.inst_prev_clock - r.enabler]⟩,
      ⟨.rc20, -1, [r.clock - r.op0_prev_clock_lo - r.enabler]⟩,
      ⟨.rc20, -1, [r.clock - r.op0_prev_clock_hi - r.enabler]⟩,
      ⟨.rc20, -1, [r.clock - r.op1_prev_clock_lo - r.enabler]⟩,
      ⟨.rc20, -1, [r.clock - r.op1_prev_clock_hi - r.enabler]⟩,
      ⟨.rc20, -1, [r.clock - r.dst_prev_clock - r.enabler]⟩] }

end U32StoreLtFpFp

/-! ### `u32_store_eq_fp_imm.rs` -/

namespace U32StoreEqFpImm

/-- Trace columns (`crates/prover/src/components/opcodes/u32_store_eq_fp_imm.rs:438`, `next_trace_mask` in order). -/
structure Row where
  (enabler pc fp clock inst_prev_clock src0_off imm_lo imm_hi dst_off op0_val_lo op0_val_hi : M31)
  (op0_prev_clock_lo op0_prev_clock_hi dst_prev_val dst_prev_clock diff_inv : M31)

/-- `evaluate` (`crates/prover/src/components/opcodes/u32_store_eq_fp_imm.rs:438-629`). -/
def evaluate (r : Row) : Eval :=
  let one : M31 := 1
  let two_pow_16 : M31 := (65536 : M31)
  let opcode_constant : M31 := (30 : M31)
  let diff : M31 := r.op0_val_lo + r.op0_val_hi * two_pow_16 - r.imm_lo - r.imm_hi * two_pow_16
  { constraints := [
      r.enabler * (one - r.enabler), diff * (r.diff_inv * diff - one),
      r.diff_inv * (r.diff_inv * diff - one)],
    entries := [
      ⟨.registers, -r.enabler, [r.pc, r.fp, r.clock]⟩,
      ⟨.registers, r.enabler, [r.pc + one + one, r.fp, r.clock + one]⟩,
      ⟨.memory, -r.enabler, [r.pc, r.inst_prev_clock, opcode_constant, r.src0_off, r.imm_lo, r.imm_hi]⟩,
      ⟨.memory, r.enabler, [r.pc, r.clock, opcode_constant, r.src0_off, r.imm_lo, r.imm_hi]⟩,
      ⟨.memory, -r.enabler, [r.pc, r.inst_prev_clock, r.dst_off]⟩,
      ⟨.memory, r.enabler, [r.pc, r.clock, r.dst_off]⟩,
      ⟨.memory, -r.enabler, [r.fp + r.src0_off, r.op0_prev_clock_lo, r.op0_val_lo]⟩,
      ⟨.memory, r.enabler, [r.fp + r.src0_off, r.clock, r.op0_val_lo]⟩,
      ⟨.memory, -r.enabler, [r.fp + r.src0_off + one, r.op0_prev_clock_hi, r.op0_val_hi]⟩,
      ⟨.memory, r.enabler, [r.fp + r.src0_off + one, r.clock, r.op0_val_hi]⟩,
      ⟨.memory, -r.enabler, [r.fp + r.dst_off, r.dst_prev_clock, r.dst_prev_val]⟩,
      ⟨.memory, r.enabler, [r.fp + r.dst_off, r.clock, one - diff * r.diff_inv]⟩,
      ⟨.rc16, -1, [r.op0_val_lo]⟩,
      ⟨.rc16, -1, [r.op0_val_hi]⟩,
      ⟨.rc16, -1, [r.imm_lo]⟩,
      ⟨.rc16, -1, [r.imm_hi]⟩,
      ⟨.rc20, -1, [r.clock - r.inst_prev_clock - r.enabler]⟩,
      ⟨.rc20, -1, [r.clock - r.op0_prev_clock_lo - r.enabler]⟩,
      ⟨.rc20, -1, [r.clock - r.op0_prev_clock_hi - r.enabler]⟩,
      ⟨.rc20, -1, [r.clock - r.dst_prev_clock - r.enabler]⟩] }

end U32StoreEqFpImm

/-! ### `u32_store_lt_fp_imm.rs` -/

namespace U32StoreLtFpImm

/-- Trace columns (`crates/prover/src/components/opcodes/u32_store_lt_fp_imm.rs:492`, `next_trace_mask` in order). -/
structure Row where
  (enabler pc fp clock inst_prev_clock src_off imm_lo imm_hi dst_off op0_val_lo op0_val_hi : M31)
  (op0_prev_clock_lo op0_prev_clock_hi dst_prev_val dst_prev_clock borrow_lo borrow_hi : M31)

/-- `evaluate` (`crates/prover/src/components/opcodes/u32_store_lt_fp_imm.rs:492-695`). -/
def evaluate (r : Row) : Eval :=
  let one : M31 := 1
  let two_pow_16 : M31 := (65536 : M31)
  let opcode_constant : M31 := (34 : M31)
  { constraints := [
      r.enabler * (one - r.enabler), r.borrow_lo * (one - r.borrow_lo),
      r.borrow_hi * (one - r.borrow_hi)],
    entries := [
      ⟨.registers, -r.enabler, [r.pc, r.fp, r.clock]⟩,
      ⟨.registers, r.enabler, [r.pc + one + one, r.fp, r.clock + one]⟩,
      ⟨.memory, -r.enabler, [r.pc, r.inst_prev_clock, opcode_constant, r.src_off, r.imm_lo, r.imm_hi]⟩,
      ⟨.memory, r.enabler, [r.pc, r.clock, opcode_constant, r.src_off, r.imm_lo, r.imm_hi]⟩,
      ⟨.memory, -r.enabler, [r.pc + one, r.inst_prev_clock, r.dst_off]⟩,
      ⟨.memory, r.enabler, [r.pc + one, r.clock, r.dst_off]⟩,
      ⟨.memory, -r.enabler, [r.fp + r.src_off, r.op0_prev_clock_lo, r.op0_val_lo]⟩,
      ⟨.memory, r.enabler, [r.fp + r.src_off, r.clock, r.op0_val_lo]⟩,
      ⟨.memory, -r.enabler, [r.fp + r.src_off + one, r.op0_prev_clock_hi, r.op0_val_hi]⟩,
      ⟨.memory, r.enabler, [r.fp + r.src_off + one, r.clock, r.op0_val_hi]⟩,
      ⟨.memory, -r.enabler, [r.fp + r.dst_off, r.dst_prev_clock, r.dst_prev_val]⟩,
      ⟨.memory, r.enabler, [r.fp + r.dst_off, r.clock, one - r.borrow_hi]⟩,
      ⟨.rc16, -1, [r.op0_val_lo]⟩,
      ⟨.rc16, -1, [r.op0_val_hi]⟩,
      ⟨.rc16, -1, [r.imm_lo]⟩,
      ⟨.rc16, -1, [r.imm_hi]⟩,
      ⟨.rc16, -1, [r.imm_lo - r.enabler + r.borrow_lo * two_pow_16 - r.op0_val_lo]⟩,
      ⟨.rc16, -1, [r.imm_hi - r.borrow_lo + r.borrow_hi * two_pow_16 - r.op0_val_hi]⟩,
      ⟨.rc20, -1, [r.clock - r.inst_prev_clock - r.enabler]⟩,
      ⟨.rc20, -1, [r.clock - r.op0_prev_clock_lo - r.enabler]⟩,
      ⟨.rc20, -1, [r.clock - r.op0_prev_clock_hi - r.enabler]⟩,
      ⟨.rc20, -1, [r.clock - r.dst_prev_clock - r.enabler]⟩] }

end U32StoreLtFpImm

/-! ### `u32_store_bitwise_fp_fp.rs` -/

namespace U32StoreBitwiseFpFp

/-- Trace columns (`crates/prover/src/components/opcodes/u32_store_bitwise_fp_fp.rs:533`,
  `next_trace_mask` in order). -/
structure Row where
  (enabler pc fp clock inst_prev_clock opcode_constant src0_off src1_off dst_off op0_val_0 : M31)
  (op0_val_1 op0_val_2 op0_val_3 op0_prev_clock_lo op0_prev_clock_hi op1_val_0 op1_val_1 : M31)
  (op1_val_2 op1_val_3 op1_prev_clock_lo op1_prev_clock_hi dst_prev_val_lo dst_prev_val_hi : M31)
  (dst_val_0 dst_val_1 dst_val_2 dst_val_3 dst_prev_clock_lo dst_prev_clock_hi : M31)

/-- `evaluate` (`crates/prover/src/components/opcodes/u32_store_bitwise_fp_fp.rs:533-780`). -/
def evaluate (r : Row) : Eval :=
  let two_pow_8 : M31 := (256 : M31)
  let one : M31 := 1
  let bitwise_op : M31 := r.opcode_constant - (36 : M31)
  let op0_val_lo : M31 := r.op0_val_0 + r.op0_val_1 * two_pow_8
  let op0_val_hi : M31 := r.op0_val_2 + r.op0_val_3 * two_pow_8
  let op1_val_lo : M31 := r.op1_val_0 + r.op1_val_1 * two_pow_8
  let op1_val_hi : M31 := r.op1_val_2 + r.op1_val_3 * two_pow_8
  let dst_val_lo : M31 := r.dst_val_0 + r.dst_val_1 * two_pow_8
  let dst_val_hi : M31 := r.dst_val_2 + r.dst_val_3 * two_pow_8
  { constraints := [
      r.enabler * (r.enabler - one)],
    entries := [
      ⟨.registers, -r.enabler, [r.pc, r.fp, r.clock]⟩,
      ⟨.registers, r.enabler, [r.pc + one, r.fp, r.clock + one]⟩,
      ⟨.memory, -r.enabler, [r.pc, r.inst_prev_clock, r.opcode_constant, r.src0_off, r.src1_off, r.dst_off]⟩,
      ⟨.memory, r.enabler, [r.pc, r.clock, r.opcode_constant, r.src0_off, r.src1_off, r.dst_off]⟩,
      ⟨.memory, -r.enabler, [r.fp + r.src0_off, r.op0_prev_clock_lo, op0_val_lo]⟩,
      ⟨.memory, r.enabler, [r.fp + r.src0_off, r.clock, op0_val_lo]⟩,
      ⟨.memory, -r.enabler, [r.fp + r.src0_off + one, r.op0_prev_clock_hi, op0_val_hi]⟩,
      ⟨.memory, r.enabler, [r.fp + r.src0_off + one, r.clock, op0_val_hi]⟩,
      ⟨.memory, -r.enabler, [r.fp + r.src1_off, r.op1_prev_clock_lo, op1_val_lo]⟩,
      ⟨.memory, r.enabler, [r.fp + r.src1_off, r.clock, op1_val_lo]⟩,
      ⟨.memory, -r.enabler, [r.fp + r.src1_off + one, r.op1_prev_clock_hi, op1_val_hi]⟩,
      ⟨.memory, r.enabler, [r.fp + r.src1_off + one, r.clock, op1_val_hi]⟩,
      ⟨.memory, -r.enabler, [r.fp + r.dst_off, r.dst_prev_clock_lo, r.dst_prev_val_lo]⟩,
      ⟨.memory, r.enabler, [r.fp + r.dst_off, r.clock, dst_val_lo]⟩,
      ⟨.memory, -r.enabler, [r.fp + r.dst_off + one, r.dst_prev_clock_hi, r.dst_prev_val_hi]⟩,
      ⟨.memory, r.enabler, [r.fp + r.dst_off + one, r.clock, dst_val_hi]⟩,
      ⟨.bitwise, -1, [bitwise_op, r.op0_val_0, r.op1_val_0, r.dst_val_0]⟩,
      ⟨.bitwise, -1, [bitwise_op, r.op0_val_1, r.op1_val_1, r.dst_val_1]⟩,
      ⟨.bitwise, -1, [bitwise_op, r.op0_val_2, r.op1_val_2, r.dst_val_2]⟩,
      ⟨.bitwise, -1, [bitwise_op, r.op0_val_3, r.op1_val_3, r.dst_val_3]⟩,
      ⟨.rc20, -1, [r.clock - r.inst_prev_clock - r.enabler]⟩,
      ⟨.rc20, -1, [r.clock - r.op0_prev_clock_lo - r.enabler]⟩,
      ⟨.rc20, -1, [r.clock - r.op0_prev_clock_hi - r.enabler]⟩,
      ⟨.rc20, -1, [r.clock - r.op1_prev_clock_lo - r.enabler]⟩,
      ⟨.rc20, -1, [r.clock - r.op1_prev_clock_hi - r.enabler]⟩,
      ⟨.rc20, -1, [r.clock - r.dst_prev_clock_lo - r.enabler]⟩,
      ⟨.rc20, -1, [r.clock - r.dst_prev_clock_hi - r.enabler]⟩] }

end U32StoreBitwiseFpFp

/-! ### `u32_store_bitwise_fp_imm.rs` -/

namespace U32StoreBitwiseFpImm

/-- Trace columns (`crates/prover/src/components/opcodes/u32_store_bitwise_fp_imm.rs:500`,
  `next_trace_mask` in order). -/
structure Row where
  (enabler pc fp clock inst_prev_clock opcode_constant src_off imm_0 imm_1 imm_2 imm_3 : M31)
  (dst_off op0_val_0 op0_val_1 op0_val_2 op0_val_3 op0_prev_clock_lo op0_prev_clock_hi : M31)
  (dst_prev_val_lo dst_prev_val_hi dst_val_0 dst_val_1 dst_val_2 dst_val_3 dst_prev_clock_lo : M31)
  (dst_prev_clock_hi : M31)

/-- `evaluate` (`crates/prover/src/components/opcodes/u32_store_bitwise_fp_imm.rs:500-717`). -/
def evaluate (r : Row) : Eval :=
  let two_pow_8 : M31 := (256 : M31)
  let one : M31 := 1
  let bitwise_op : M31 := r.opcode_constant - (39 : M31)
  let op0_val_lo : M31 := r.op0_val_0 + r.op0_val_1 * two_pow_8
  let op0_val_hi : M31 := r.op0_val_2 + r.op0_val_3 * two_pow_8
  let imm_lo : M31 := r.imm_0 + r.imm_1 * two_pow_8
  let imm_hi : M31 := r.imm_2 + r.imm_3 * two_pow_8
  let dst_val_lo : M31 := r.dst_val_0 + r.dst_val_1 * two_pow_8
  let dst_val_hi : M31 := r.dst_val_2 + r.dst_val_3 * two_pow_8
  { constraints := [
      r.enabler * (r.enabler - one)],
    entries := [
      ⟨.registers, -r.enabler, [r.pc, r.fp, r.clock]⟩,
      ⟨.registers, r.enabler, [r.pc + one + one, r.fp, r.clock + one]⟩,
      ⟨.memory, -r.enabler, [r.pc, r.inst_prev_clock, r.opcode_constant, r.src_off, imm_lo, imm_hi]⟩,
      ⟨.memory, r.enabler, [r.pc, r.clock, r.opcode_constant, r.src_off, imm_lo, imm_hi]⟩,
      ⟨.memory, -r.enabler, [r.pc + one, r.inst_prev_clock, r.dst_off]⟩,
      ⟨.memory, r.enabler, [r.pc + one, r.clock, r.dst_off]⟩,
      ⟨.memory, -r.enabler, [r.fp + r.src_off, r.op0_prev_clock_lo, op0_val_lo]⟩,
      ⟨.memory, r.enabler, [r.fp + r.src_off, r.clock, op0_val_lo]⟩,
      ⟨.memory, -r.enabler, [r.fp + r.src_off + one, r.op0_prev_clock_hi, op0_val_hi]⟩,
      ⟨.memory, r.enabler, [r.fp + r.src_off + one, r.clock, op0_val_hi]⟩,
      ⟨.memory, -r.enabler, [r.fp + r.dst_off, r.dst_prev_clock_lo, r.dst_prev_val_lo]⟩,
      ⟨.memory, r.enabler, [r.fp + r.dst_off, r.clock, dst_val_lo]⟩,
      ⟨.memory, -r.enabler, [r.fp + r.dst_off + one, r.dst_prev_clock_hi, r.dst_prev_val_hi]⟩,
      ⟨.memory, r.enabler, [r.fp + r.dst_off + one, r.clock, dst_val_hi]⟩,
      ⟨.bitwise, -1, [bitwise_op, r.op0_val_0, r.imm_0, r.dst_val_0]⟩,
      ⟨.bitwise, -1, [bitwise_op, r.op0_val_1, r.imm_1, r.dst_val_1]⟩,
      ⟨.bitwise, -1, [bitwise_op, r.op0_val_2, r.imm_2, r.dst_val_2]⟩,
      ⟨.bitwise, -1, [bitwise_op, r.op0_val_3, r.imm_3, r.dst_val_3]⟩,
      ⟨.rc20, -1, [r.clock - r.inst_prev_clock - r.enabler]⟩,
      ⟨.rc20, -1, [r.clock - r.op0_prev_clock_lo - r.enabler]⟩,
      ⟨.rc20, -1, [r.clock - r.op0_prev_clock_hi - r.enabler]⟩,
      ⟨.rc20, -1, [r.clock - r.dst_prev_clock_lo - r.enabler]⟩,
      ⟨.rc20, -1, [r.clock - r.dst_prev_clock_hi - r.enabler]⟩] }

end U32StoreBitwiseFpImm

end Air
end CairoM
