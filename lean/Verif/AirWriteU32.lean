import Mathlib.Data.Nat.Log
import Verif.AirWrite

/-!
# Trace writers of the u32 opcode components

See `AirWrite`.
-/

namespace CairoM
namespace Air

open Adapter (Bundle DataAccess)

/-! ### `u32_store_imm.rs` -/

namespace U32StoreImm

/-- One row of `write_trace` and of `write_interaction_trace`
(`crates/prover/src/components/opcodes/u32_store_imm.rs:131-255`,
`crates/prover/src/components/opcodes/u32_store_imm.rs:267-420`). -/
def write (enabler : M31) (x : Bundle) : Written Row :=
  let zero : M31 := 0
  let one : M31 := 1
  let pc : M31 := x.registers.pc
  let fp : M31 := x.registers.fp
  let clock : M31 := x.clock
  let inst_prev_clock : M31 := x.prevClock
  let opcode_constant : M31 := (23 : M31)
  let imm_lo : M31 := (instValue x 1)
  let imm_hi : M31 := (instValue x 2)
  let dst_off : M31 := (instValue x 3)
  let dst_prev_clock_lo : M31 := accClock x 0
  let dst_prev_val_lo : M31 := prevValue x 0
  let dst_prev_clock_hi : M31 := accClock x 1
  let dst_prev_val_hi : M31 := prevValue x 1
  { row := {
      enabler := enabler, pc := pc, fp := fp, clock := clock, inst_prev_clock := inst_prev_clock,
      imm_lo := imm_lo, imm_hi := imm_hi, dst_off := dst_off, dst_prev_val_lo := dst_prev_val_lo,
      dst_prev_val_hi := dst_prev_val_hi, dst_prev_clock_lo := dst_prev_clock_lo,
      dst_prev_clock_hi := dst_prev_clock_hi },
    entries := [
      ⟨.registers, -enabler, [x.registers.pc, x.registers.fp, x.clock]⟩,
      ⟨.registers, enabler, [x.registers.pc + one, x.registers.fp, x.clock + one]⟩,
      ⟨.memory, -enabler, [x.registers.pc, inst_prev_clock, opcode_constant, imm_lo, imm_hi, dst_off]⟩,
      ⟨.memory, enabler, [x.registers.pc, clock, opcode_constant, imm_lo, imm_hi, dst_off]⟩,
      ⟨.memory, -enabler, [fp + dst_off, dst_prev_clock_lo, dst_prev_val_lo, zero, zero, zero]⟩,
      ⟨.memory, enabler, [fp + dst_off, clock, imm_lo, zero, zero, zero]⟩,
      ⟨.memory, -enabler, [fp + dst_off + one, dst_prev_clock_hi, dst_prev_val_hi, zero, zero, zero]⟩,
      ⟨.memory, enabler, [fp + dst_off + one, clock, imm_hi, zero, zero, zero]⟩,
      ⟨.rc16, -1, [imm_lo]⟩,
      ⟨.rc16, -1, [imm_hi]⟩,
      ⟨.rc20, -1, [clock - inst_prev_clock - enabler]⟩,
      ⟨.rc20, -1, [clock - dst_prev_clock_lo - enabler]⟩,
      ⟨.rc20, -1, [clock - dst_prev_clock_hi - enabler]⟩] }

end U32StoreImm

/-! ### `u32_store_add_fp_imm.rs` -/

namespace U32StoreAddFpImm

/-- One row of `write_trace` and of `write_interaction_trace`
(`crates/prover/src/components/opcodes/u32_store_add_fp_imm.rs:150-343`,
`crates/prover/src/components/opcodes/u32_store_add_fp_imm.rs:355-496`). -/
def write (enabler : M31) (x : Bundle) : Written Row :=
  let zero : M31 := 0
  let one : M31 := 1
  let two_pow_16 : M31 := (65536 : M31)
  let pc : M31 := x.registers.pc
  let fp : M31 := x.registers.fp
  let clock : M31 := x.clock
  let inst_prev_clock : M31 := x.prevClock
  let opcode_constant : M31 := (19 : M31)
  let src_off : M31 := (instValue x 1)
  let imm_lo : M31 := (instValue x 2)
  let imm_hi : M31 := (instValue x 3)
  let dst_off : M31 := (instValue x 4)
  let op0_val_lo : M31 := value x 0
  let op0_val_hi : M31 := value x 1
  let op0_prev_clock_lo : M31 := accClock x 0
  let op0_prev_clock_hi : M31 := accClock x 1
  let dst_prev_val_lo : M31 := prevValue x 2
  let dst_prev_val_hi : M31 := prevValue x 3
  let dst_prev_clock_lo : M31 := accClock x 2
  let dst_prev_clock_hi : M31 := accClock x 3
  let u16_carry : M31 := over16 (op0_val_lo + imm_lo)
  let u32_carry : M31 := over16 (op0_val_hi + imm_hi + u16_carry)
  let res_lo : M31 := op0_val_lo + imm_lo - u16_carry * two_pow_16
  let res_hi : M31 := op0_val_hi + imm_hi + u16_carry - u32_carry * two_pow_16
  { row := {
      enabler := enabler, pc := pc, fp := fp, clock := clock, inst_prev_clock := inst_prev_clock,
      src_off := src_off, imm_lo := imm_lo, imm_hi := imm_hi, dst_off := dst_off,
      op0_val_lo := op0_val_lo, op0_val_hi := op0_val_hi, op0_prev_clock_lo := op0_prev_clock_lo,
      op0_prev_clock_hi := op0_prev_clock_hi, dst_prev_val_lo := dst_prev_val_lo,
      dst_prev_val_hi := dst_prev_val_hi, dst_prev_clock_lo := dst_prev_clock_lo,
      dst_prev_clock_hi := dst_prev_clock_hi, u16_carry := u16_carry, u32_carry := u32_carry },
    entries := [
      ⟨.registers, -enabler, [x.registers.pc, x.registers.fp, x.clock]⟩,
      ⟨.registers, enabler, [x.registers.pc + one + one, x.registers.fp, x.clock + one]⟩,
      ⟨.memory, -enabler, [x.registers.pc, inst_prev_clock, opcode_constant, src_off, imm_lo, imm_hi]⟩,
      ⟨.memory, enabler, [x.registers.pc, clock, opcode_constant, src_off, imm_lo, imm_hi]⟩,
      ⟨.memory, -enabler, [x.registers.pc + one, inst_prev_clock, dst_off, zero, zero, zero]⟩,
      ⟨.memory, enabler, [x.registers.pc + one, clock, dst_off, zero, zero, zero]⟩,
      ⟨.memory, -enabler, [fp + src_off, op0_prev_clock_lo, op0_val_lo, zero, zero, zero]⟩,
      ⟨.memory, enabler, [fp + src_off, clock, op0_val_lo, zero, zero, zero]⟩,
      ⟨.memory, -enabler, [fp + src_off + one, op0_prev_clock_hi, op0_val_hi, zero, zero, zero]⟩,
      ⟨.memory, enabler, [fp + src_off + one, clock, op0_val_hi, zero, zero, zero]⟩,
      ⟨.memory, -enabler, [fp + dst_off, dst_prev_clock_lo, dst_prev_val_lo, zero, zero, zero]⟩,
      ⟨.memory, enabler, [fp + dst_off, clock, res_lo, zero, zero, zero]⟩,
      ⟨.memory, -enabler, [fp + dst_off + one, dst_prev_clock_hi, dst_prev_val_hi, zero, zero, zero]⟩,
      ⟨.memory, enabler, [fp + dst_off + one, clock, res_hi, zero, zero, zero]⟩,
      ⟨.rc16, -1, [op0_val_lo]⟩,
      ⟨.rc16, -1, [op0_val_hi]⟩,
      ⟨.rc16, -1, [imm_lo]⟩,
      ⟨.rc16, -1, [imm_hi]⟩,
      ⟨.rc16, -1, [res_lo]⟩,
      ⟨.rc16, -1, [res_hi]⟩,
      ⟨.rc20, -1, [clock - inst_prev_clock - enabler]⟩,
      ⟨.rc20, -1, [clock - op0_prev_clock_lo - enabler]⟩,
      ⟨.rc20, -1, [clock - op0_prev_clock_hi - enabler]⟩,
      ⟨.rc20, -1, [clock - dst_prev_clock_lo - enabler]⟩,
      ⟨.rc20, -1, [clock - dst_prev_clock_hi - enabler]⟩] }

end U32StoreAddFpImm

/-! ### `u32_store_mul_fp_imm.rs` -/

namespace U32StoreMulFpImm

/-- One row of `write_trace` and of `write_interaction_trace`
(`crates/prover/src/components/opcodes/u32_store_mul_fp_imm.rs:189-458`,
`crates/prover/src/components/opcodes/u32_store_mul_fp_imm.rs:470-634`). -/
def write (enabler : M31) (x : Bundle) : Written Row :=
  let zero : M31 := 0
  let one : M31 := 1
  let pc : M31 := x.registers.pc
  let fp : M31 := x.registers.fp
  let clock : M31 := x.clock
  let inst_prev_clock : M31 := x.prevClock
  let opcode_constant : M31 := (21 : M31)
  let src_off : M31 := (instValue x 1)
  let imm_lo : M31 := (instValue x 2)
  let imm_hi : M31 := (instValue x 3)
  let dst_off : M31 := (instValue x 4)
  let op0_prev_clock_lo : M31 := accClock x 0
  let op0_val_lo : M31 := value x 0
  let op0_prev_clock_hi : M31 := accClock x 1
  let op0_val_hi : M31 := value x 1
  let dst_prev_clock_lo : M31 := accClock x 2
  let dst_prev_val_lo : M31 := prevValue x 2
  let dst_prev_clock_hi : M31 := accClock x 3
  let dst_prev_val_hi : M31 := prevValue x 3
  let op0_0 : M31 := low8 op0_val_lo
  let op0_1 : M31 := shr8 op0_val_lo
  let op0_2 : M31 := low8 op0_val_hi
  let op0_3 : M31 := shr8 op0_val_hi
  let imm_0 : M31 := low8 imm_lo
  let imm_1 : M31 := shr8 imm_lo
  let imm_2 : M31 := low8 imm_hi
  let imm_3 : M31 := shr8 imm_hi
  let two_pow_8 : M31 := (256 : M31)
  let prod_0 : M31 := op0_0 * imm_0
  let carry_0 : M31 := shr8 prod_0
  let res_0 : M31 := prod_0 - carry_0 * two_pow_8
  let sum_1 : M31 := op0_0 * imm_1 + op0_1 * imm_0 + carry_0
  let carry_1 : M31 := shr8 sum_1
  let res_1 : M31 := sum_1 - carry_1 * two_pow_8
  let sum_2 : M31 := op0_0 * imm_2 + op0_1 * imm_1 + op0_2 * imm_0 + carry_1
  let carry_2 : M31 := shr8 sum_2
  let res_2 : M31 := sum_2 - carry_2 * two_pow_8
  let sum_3 : M31 := op0_0 * imm_3 + op0_1 * imm_2 + op0_2 * imm_1 + op0_3 * imm_0 + carry_2
  let carry_3 : M31 := shr8 sum_3
  let res_3 : M31 := sum_3 - carry_3 * two_pow_8
  let two_pow_8 : M31 := (256 : M31)
  let max_carry_0 : M31 := (254 : M31)
  let max_carry_1 : M31 := (509 : M31)
  let max_carry_2 : M31 := (764 : M31)
  let max_carry_3 : M31 := (1019 : M31)
  { row := {
      enabler := enabler, pc := pc, fp := fp, clock := clock, inst_prev_clock := inst_prev_clock,
      src_off := src_off, imm_0 := imm_0, imm_1 := imm_1, imm_2 := imm_2, imm_3 := imm_3,
      dst_off := dst_off, op0_0 := op0_0, op0_1 := op0_1, op0_2 := op0_2, op0_3 := op0_3,
      op0_prev_clock_lo := op0_prev_clock_lo, op0_prev_clock_hi := op0_prev_clock_hi,
      dst_prev_val_lo := dst_prev_val_lo, dst_prev_val_hi := dst_prev_val_hi,
      dst_prev_clock_lo := dst_prev_clock_lo, dst_prev_clock_hi := dst_prev_clock_hi, res_0 := res_0,
      res_1 := res_1, res_2 := res_2, res_3 := res_3, carry_0 := carry_0, carry_1 := carry_1,
      carry_2 := carry_2, carry_3 := carry_3 },
    entries := [
      ⟨.registers, -enabler, [x.registers.pc, x.registers.fp, x.clock]⟩,
      ⟨.registers, enabler, [x.registers.pc + one + one, x.registers.fp, x.clock + one]⟩,
      ⟨.memory, -enabler, [x.registers.pc, inst_prev_clock, opcode_constant, src_off,
        imm_0 + imm_1 * two_pow_8, imm_2 + imm_3 * two_pow_8]⟩,
      ⟨.memory, enabler, [x.registers.pc, clock, opcode_constant, src_off,
        imm_0 + imm_1 * two_pow_8, imm_2 + imm_3 * two_pow_8]⟩,
      ⟨.memory, -enabler, [x.registers.pc + one, inst_prev_clock, dst_off, zero, zero, zero]⟩,
      ⟨.memory, enabler, [x.registers.pc + one, clock, dst_off, zero, zero, zero]⟩,
      ⟨.memory, -enabler, [fp + src_off, op0_prev_clock_lo, op0_0 + op0_1 * two_pow_8, zero, zero, zero]⟩,
      ⟨.memory, enabler, [fp + src_off, clock, op0_0 + op0_1 * two_pow_8, zero, zero, zero]⟩,
      ⟨.memory, -enabler, [fp + src_off + one, op0_prev_clock_hi, op0_2 + op0_3 * two_pow_8, zero, zero, zero]⟩,
      ⟨.memory, enabler, [fp + src_off + one, clock, op0_2 + op0_3 * two_pow_8, zero, zero, zero]⟩,
      ⟨.memory, -enabler, [fp + dst_off, dst_prev_clock_lo, dst_prev_val_lo, zero, zero, zero]⟩,
      ⟨.memory, enabler, [fp + dst_off, clock, res_0 + res_1 * two_pow_8, zero, zero, zero]⟩,
      ⟨.memory, -enabler, [fp + dst_off + one, dst_prev_clock_hi, dst_prev_val_hi, zero, zero, zero]⟩,
      ⟨.memory, enabler, [fp + dst_off + one, clock, res_2 + res_3 * two_pow_8, zero, zero, zero]⟩,
      ⟨.rc8, -1, [op0_0]⟩,
      ⟨.rc8, -1, [op0_1]⟩,
      ⟨.rc8, -1, [op0_2]⟩,
      ⟨.rc8, -1, [op0_3]⟩,
      ⟨.rc8, -1, [imm_0]⟩,
      ⟨.rc8, -1, [imm_1]⟩,
      ⟨.rc8, -1, [imm_2]⟩,
      ⟨.rc8, -1, [imm_3]⟩,
      ⟨.rc8, -1, [res_0]⟩,
      ⟨.rc8, -1, [res_1]⟩,
      ⟨.rc8, -1, [res_2]⟩,
      ⟨.rc8, -1, [res_3]⟩,
      ⟨.rc16, -1, [max_carry_0 - carry_0]⟩,
      ⟨.rc16, -1, [max_carry_1 - carry_1]⟩,
      ⟨.rc16, -1, [max_carry_2 - carry_2]⟩,
      ⟨.rc16, -1, [max_carry_3 - carry_3]⟩,
      ⟨.rc20, -1, [clock - inst_prev_clock - enabler]⟩,
      ⟨.rc20, -1, [clock - op0_prev_clock_lo - enabler]⟩,
      ⟨.rc20, -1, [clock - op0_prev_clock_hi - enabler]⟩,
      ⟨.rc20, -1, [clock - dst_prev_clock_lo - enabler]⟩,
      ⟨.rc20, -1, [clock - dst_prev_clock_hi - enabler]⟩] }

end U32StoreMulFpImm

/-! ### `u32_store_div_fp_imm.rs` -/

namespace U32StoreDivFpImm

/-- One row of `write_trace` and of `write_interaction_trace`
(`crates/prover/src/components/opcodes/u32_store_div_fp_imm.rs:251-719`,
`crates/prover/src/components/opcodes/u32_store_div_fp_imm.rs:731-920`). -/
def write (enabler : M31) (x : Bundle) : Written Row :=
  let zero : M31 := 0
  let one : M31 := 1
  let two_pow_16 : M31 := (65536 : M31)
  let pc : M31 := x.registers.pc
  let fp : M31 := x.registers.fp
  let clock : M31 := x.clock
  let inst_prev_clock : M31 := x.prevClock
  let opcode_constant : M31 := (22 : M31)
  let src_off : M31 := (instValue x 1)
  let imm_lo : M31 := (instValue x 2)
  let imm_hi : M31 := (instValue x 3)
  let dst_off : M31 := (instValue x 4)
  let dst_rem_prev_val_lo : M31 := prevValue x 4
  let dst_rem_prev_val_hi : M31 := prevValue x 5
  let dst_rem_prev_clock_lo : M31 := accClock x 4
  let dst_rem_prev_clock_hi : M31 := accClock x 5
  let dst_rem_addr_lo : M31 := address x 4
  let dst_rem_off : M31 := dst_rem_addr_lo - fp
  let n_lo : M31 := value x 0
  let n_hi : M31 := value x 1
  let op0_prev_clock_lo : M31 := accClock x 0
  let op0_prev_clock_hi : M31 := accClock x 1
  let dst_prev_val_lo : M31 := prevValue x 2
  let dst_prev_val_hi : M31 := prevValue x 3
  let dst_prev_clock_lo : M31 := accClock x 2
  let dst_prev_clock_hi : M31 := accClock x 3
  let two_pow_8 : M31 := (256 : M31)
  let d_0 : M31 := low8 imm_lo
  let d_1 : M31 := mid8 imm_lo
  let d_2 : M31 := low8 imm_hi
  let d_3 : M31 := mid8 imm_hi
  let n_lo_array : M31 := n_lo
  let n_hi_array : M31 := n_hi
  let imm_lo_array : M31 := imm_lo
  let imm_hi_array : M31 := imm_hi
  let n_u32_iter : ℕ := joined n_lo_array n_hi_array
  let d_u32_iter : ℕ := joined imm_lo_array imm_hi_array
  let q_r_u32_iter : ℕ × ℕ := divMod n_u32_iter d_u32_iter
  let q_lo : M31 := (q_r_u32_iter.1 % 2 ^ 16 : ℕ)
  let q_hi : M31 := (q_r_u32_iter.1 / 2 ^ 16 : ℕ)
  let r_lo : M31 := (q_r_u32_iter.2 % 2 ^ 16 : ℕ)
  let r_hi : M31 := (q_r_u32_iter.2 / 2 ^ 16 : ℕ)
  let q_0 : M31 := low8 q_lo
  let q_1 : M31 := mid8 q_lo
  let q_2 : M31 := low8 q_hi
  let q_3 : M31 := mid8 q_hi
  let prod_0 : M31 := q_0 * d_0
  let prod_1_raw : M31 := q_0 * d_1 + q_1 * d_0
  let prod_2_raw : M31 := q_0 * d_2 + q_2 * d_0 + q_1 * d_1
  let prod_3_raw : M31 := q_0 * d_3 + q_3 * d_0 + q_1 * d_2 + q_2 * d_1
  let prod_4_raw : M31 := q_1 * d_3 + q_3 * d_1 + q_2 * d_2
  let prod_5_raw : M31 := q_2 * d_3 + q_3 * d_2
  let prod_6_raw : M31 := q_3 * d_3
  let mul_carry_0 : M31 := shr8 prod_0
  let prod_1_with_carry : M31 := prod_1_raw + mul_carry_0
  let mul_carry_1 : M31 := shr8 prod_1_with_carry
  let prod_2_with_carry : M31 := prod_2_raw + mul_carry_1
  let mul_carry_2 : M31 := shr8 prod_2_with_carry
  let prod_3_with_carry : M31 := prod_3_raw + mul_carry_2
  let mul_carry_3 : M31 := shr8 prod_3_with_carry
  let prod_4_with_carry : M31 := prod_4_raw + mul_carry_3
  let mul_carry_4 : M31 := shr8 prod_4_with_carry
  let prod_5_with_carry : M31 := prod_5_raw + mul_carry_4
  let mul_carry_5 : M31 := shr8 prod_5_with_carry
  let prod_6_with_carry : M31 := prod_6_raw + mul_carry_5
  let mul_carry_6 : M31 := shr8 prod_6_with_carry
  let prod_0 : M31 := prod_0 - mul_carry_0 * two_pow_8
  let prod_1 : M31 := prod_1_with_carry - mul_carry_1 * two_pow_8
  let prod_2 : M31 := prod_2_with_carry - mul_carry_2 * two_pow_8
  let prod_3 : M31 := prod_3_with_carry - mul_carry_3 * two_pow_8
  let prod_4 : M31 := prod_4_with_carry - mul_carry_4 * two_pow_8
  let prod_5 : M31 := prod_5_with_carry - mul_carry_5 * two_pow_8
  let prod_6 : M31 := prod_6_with_carry - mul_carry_6 * two_pow_8
  let prod_7 : M31 := mul_carry_6
  let add_0_raw : M31 := prod_0 + prod_1 * two_pow_8 + r_lo
  let add_carry_0 : M31 := over16 add_0_raw
  let add_1_raw : M31 := prod_2 + prod_3 * two_pow_8 + r_hi + add_carry_0
  let add_carry_1 : M31 := over16 add_1_raw
  let add_2_raw : M31 := prod_4 + prod_5 * two_pow_8 + add_carry_1
  let add_carry_2 : M31 := over16 add_2_raw
  let add_3_raw : M31 := prod_6 + prod_7 * two_pow_8 + add_carry_2
  let add_carry_3 : M31 := over16 add_3_raw
  let sub_borrow_0 : M31 := borrowByte d_0 d_1 r_lo 1
  let sub_borrow_1 : M31 := borrowByte d_2 d_3 r_hi sub_borrow_0
  let res_lo : M31 := q_0 + q_1 * two_pow_8
  let res_hi : M31 := q_2 + q_3 * two_pow_8
  let max_carry_0 : M31 := (254 : M31)
  let max_carry_1 : M31 := (509 : M31)
  let max_carry_2 : M31 := (764 : M31)
  let max_carry_3 : M31 := (1019 : M31)
  let max_carry_4 : M31 := (765 : M31)
  let max_carry_5 : M31 := (510 : M31)
  let max_carry_6 : M31 := (255 : M31)
  let sub_check_lo : M31 := d_0 + d_1 * two_pow_8 + sub_borrow_0 * two_pow_16 - r_lo - one
  let sub_check_hi : M31 := d_2 + d_3 * two_pow_8 + sub_borrow_1 * two_pow_16 - r_hi - sub_borrow_0
  { row := {
      enabler := enabler, pc := pc, fp := fp, clock := clock, inst_prev_clock := inst_prev_clock,
      src_off := src_off, d_0 := d_0, d_1 := d_1, d_2 := d_2, d_3 := d_3, dst_off := dst_off,
      dst_rem_off := dst_rem_off, n_lo := n_lo, n_hi := n_hi, op0_prev_clock_lo := op0_prev_clock_lo,
      op0_prev_clock_hi := op0_prev_clock_hi, dst_prev_val_lo := dst_prev_val_lo,
      dst_prev_val_hi := dst_prev_val_hi, dst_prev_clock_lo := dst_prev_clock_lo,
      dst_prev_clock_hi := dst_prev_clock_hi, dst_rem_prev_val_lo := dst_rem_prev_val_lo,
      dst_rem_prev_val_hi := dst_rem_prev_val_hi, dst_rem_prev_clock_lo := dst_rem_prev_clock_lo,
      dst_rem_prev_clock_hi := dst_rem_prev_clock_hi, q_0 := q_0, q_1 := q_1, q_2 := q_2, q_3 := q_3,
      mul_carry_0 := mul_carry_0, mul_carry_1 := mul_carry_1, mul_carry_2 := mul_carry_2,
      mul_carry_3 := mul_carry_3, mul_carry_4 := mul_carry_4, mul_carry_5 := mul_carry_5,
      mul_carry_6 := mul_carry_6, prod_0 := prod_0, prod_1 := prod_1, prod_2 := prod_2,
      prod_3 := prod_3, prod_4 := prod_4, prod_5 := prod_5, prod_6 := prod_6, prod_7 := prod_7,
      add_carry_0 := add_carry_0, add_carry_1 := add_carry_1, add_carry_2 := add_carry_2,
      add_carry_3 := add_carry_3, sub_borrow_0 := sub_borrow_0, sub_borrow_1 := sub_borrow_1,
      r_lo := r_lo, r_hi := r_hi },
    entries := [
      ⟨.registers, -enabler, [x.registers.pc, x.registers.fp, x.clock]⟩,
      ⟨.registers, enabler, [x.registers.pc + one + one, x.registers.fp, x.clock + one]⟩,
      ⟨.memory, -enabler, [x.registers.pc, inst_prev_clock, opcode_constant, src_off, imm_lo, imm_hi]⟩,
      ⟨.memory, enabler, [x.registers.pc, clock, opcode_constant, src_off, imm_lo, imm_hi]⟩,
      ⟨.memory, -enabler, [x.registers.pc + one, inst_prev_clock, dst_off, dst_rem_off, zero, zero]⟩,
      ⟨.memory, enabler, [x.registers.pc + one, clock, dst_off, dst_rem_off, zero, zero]⟩,
      ⟨.memory, -enabler, [fp + src_off, op0_prev_clock_lo, n_lo, zero, zero, zero]⟩,
      ⟨.memory, enabler, [fp + src_off, clock, n_lo, zero, zero, zero]⟩,
      ⟨.memory, -enabler, [fp + src_off + one, op0_prev_clock_hi, n_hi, zero, zero, zero]⟩,
      ⟨.memory, enabler, [fp + src_off + one, clock, n_hi, zero, zero, zero]⟩,
      ⟨.memory, -enabler, [fp + dst_off, dst_prev_clock_lo, dst_prev_val_lo, zero, zero, zero]⟩,
      ⟨.memory, enabler, [fp + dst_off, clock, res_lo, zero, zero, zero]⟩,
      ⟨.memory, -enabler, [fp + dst_off + one, dst_prev_clock_hi, dst_prev_val_hi, zero, zero, zero]⟩,
      ⟨.memory, enabler, [fp + dst_off + one, clock, res_hi, zero, zero, zero]⟩,
      ⟨.memory, -enabler, [fp + dst_rem_off, dst_rem_prev_clock_lo, dst_rem_prev_val_lo, zero, zero, zero]⟩,
      ⟨.memory, enabler, [fp + dst_rem_off, clock, r_lo, zero, zero, zero]⟩,
      ⟨.memory, -enabler, [fp + dst_rem_off + one, dst_rem_prev_clock_hi, dst_rem_prev_val_hi, zero, zero, zero]⟩,
      ⟨.memory, enabler, [fp + dst_rem_off + one, clock, r_hi, zero, zero, zero]⟩,
      ⟨.rc8, -1, [d_0]⟩,
      ⟨.rc8, -1, [d_1]⟩,
      ⟨.rc8, -1, [d_2]⟩,
      ⟨.rc8, -1, [d_3]⟩,
      ⟨.rc8, -1, [q_0]⟩,
      ⟨.rc8, -1, [q_1]⟩,
      ⟨.rc8, -1, [q_2]⟩,
      ⟨.rc8, -1, [q_3]⟩,
      ⟨.rc8, -1, [prod_0]⟩,
      ⟨.rc8, -1, [prod_1]⟩,
      ⟨.rc8, -1, [prod_2]⟩,
      ⟨.rc8, -1, [prod_3]⟩,
      ⟨.rc8, -1, [prod_4]⟩,
      ⟨.rc8, -1, [prod_5]⟩,
      ⟨.rc8, -1, [prod_6]⟩,
      ⟨.rc8, -1, [prod_7]⟩,
      ⟨.rc16, -1, [n_lo]⟩,
      ⟨.rc16, -1, [n_hi]⟩,
      ⟨.rc16, -1, [r_lo]⟩,
      ⟨.rc16, -1, [r_hi]⟩,
      ⟨.rc16, -1, [max_carry_0 - mul_carry_0]⟩,
      ⟨.rc16, -1, [max_carry_1 - mul_carry_1]⟩,
      ⟨.rc16, -1, [max_carry_2 - mul_carry_2]⟩,
      ⟨.rc16, -1, [max_carry_3 - mul_carry_3]⟩,
      ⟨.rc16, -1, [max_carry_4 - mul_carry_4]⟩,
      ⟨.rc16, -1, [max_carry_5 - mul_carry_5]⟩,
      ⟨.rc16, -1, [max_carry_6 - mul_carry_6]⟩,
      ⟨.rc16, -1, [sub_check_lo]⟩,
      ⟨.rc16, -1, [sub_check_hi]⟩,
      ⟨.rc20, -1, [clock - inst_prev_clock - enabler]⟩,
      ⟨.rc20, -1, [clock - op0_prev_clock_lo - enabler]⟩,
      ⟨.rc20, -1, [clock - op0_prev_clock_hi - enabler]⟩,
      ⟨.rc20, -1, [clock - dst_prev_clock_lo - enabler]⟩,
      ⟨.rc20, -1, [clock - dst_prev_clock_hi - enabler]⟩,
      ⟨.rc20, -1, [clock - dst_rem_prev_clock_lo - enabler]⟩,
      ⟨.rc20, -1, [clock - dst_rem_prev_clock_hi - enabler]⟩] }

end U32StoreDivFpImm

/-! ### `u32_store_eq_fp_fp.rs` -/

namespace U32StoreEqFpFp

/-- One row of `write_trace` and of `write_interaction_trace`
(`crates/prover/src/components/opcodes/u32_store_eq_fp_fp.rs:160-360`,
`crates/prover/src/components/opcodes/u32_store_eq_fp_fp.rs:372-481`). -/
def write (enabler : M31) (x : Bundle) : Written Row :=
  let zero : M31 := 0
  let one : M31 := 1
  let pc : M31 := x.registers.pc
  let fp : M31 := x.registers.fp
  let clock : M31 := x.clock
  let inst_prev_clock : M31 := x.prevClock
  let opcode_constant : M31 := (24 : M31)
  let src0_off : M31 := (instValue x 1)
  let src1_off : M31 := (instValue x 2)
  let dst_off : M31 := (instValue x 4)
  let op0_val_lo : M31 := value x 0
  let op0_val_hi : M31 := value x 1
  let op0_prev_clock_lo : M31 := accClock x 0
  let op0_prev_clock_hi : M31 := accClock x 1
  let op1_val_lo : M31 := value x 2
  let op1_val_hi : M31 := value x 3
  let op1_prev_clock_lo : M31 := accClock x 2
  let op1_prev_clock_hi : M31 := accClock x 3
  let dst_prev_val : M31 := prevValue x 4
  let dst_prev_clock : M31 := accClock x 4
  let diff_lo : M31 := op1_val_lo - op0_val_lo
  let diff_hi : M31 := op1_val_hi - op0_val_hi
  let diff_inv_lo : M31 := invOrZero diff_lo
  let diff_inv_hi : M31 := invOrZero diff_hi
  let is_eq_lo : M31 := one - diff_lo * diff_inv_lo
  let is_eq_prod : M31 := is_eq_lo * (one - diff_hi * diff_inv_hi)
  { row := {
      enabler := enabler, pc := pc, fp := fp, clock := clock, inst_prev_clock := inst_prev_clock,
      src0_off := src0_off, src1_off := src1_off, dst_off := dst_off, op0_val_lo := op0_val_lo,
      op0_val_hi := op0_val_hi, op0_prev_clock_lo := op0_prev_clock_lo,
      op0_prev_clock_hi := op0_prev_clock_hi, op1_val_lo := op1_val_lo, op1_val_hi := op1_val_hi,
      op1_prev_clock_lo := op1_prev_clock_lo, op1_prev_clock_hi := op1_prev_clock_hi,
      dst_prev_val := dst_prev_val, dst_prev_clock := dst_prev_clock, diff_inv_lo := diff_inv_lo,
      diff_inv_hi := diff_inv_hi, is_eq_lo := is_eq_lo, is_eq_prod := is_eq_prod },
    entries := [
      ⟨.registers, -enabler, [x.registers.pc, x.registers.fp, x.clock]⟩,
      ⟨.registers, enabler, [x.registers.pc + one, x.registers.fp, x.clock + one]⟩,
      ⟨.memory, -enabler, [x.registers.pc, inst_prev_clock, opcode_constant, src0_off, src1_off, dst_off]⟩,
      ⟨.memory, enabler, [x.registers.pc, clock, opcode_constant, src0_off, src1_off, dst_off]⟩,
      ⟨.memory, -enabler, [fp + src0_off, op0_prev_clock_lo, op0_val_lo, zero, zero, zero]⟩,
      ⟨.memory, enabler, [fp + src0_off, clock, op0_val_lo, zero, zero, zero]⟩,
      ⟨.memory, -enabler, [fp + src0_off + one, op0_prev_clock_hi, op0_val_hi, zero, zero, zero]⟩,
      ⟨.memory, enabler, [fp + src0_off + one, clock, op0_val_hi, zero, zero, zero]⟩,
      ⟨.memory, -enabler, [fp + src1_off, op1_prev_clock_lo, op1_val_lo, zero, zero, zero]⟩,
      ⟨.memory, enabler, [fp + src1_off, clock, op1_val_lo, zero, zero, zero]⟩,
      ⟨.memory, -enabler, [fp + src1_off + one, op1_prev_clock_hi, op1_val_hi, zero, zero, zero]⟩,
      ⟨.memory, enabler, [fp + src1_off + one, clock, op1_val_hi, zero, zero, zero]⟩,
      ⟨.memory, -enabler, [fp + dst_off, dst_prev_clock, dst_prev_val, zero, zero, zero]⟩,
      ⟨.memory, enabler, [fp + dst_off, clock, is_eq_prod, zero, zero, zero]⟩,
      ⟨.rc16, -1, [op0_val_lo]⟩,
      ⟨.rc16, -1, [op0_val_hi]⟩,
      ⟨.rc16, -1, [op1_val_lo]⟩,
      ⟨.rc16, -1, [op1_val_hi]⟩,
      ⟨.rc20, -1, [clock - inst_prev_clock - enabler]⟩,
      ⟨.rc20, -1, [clock - op0_prev_clock_lo - enabler]⟩,
      ⟨.rc20, -1, [clock - op0_prev_clock_hi - enabler]⟩,
      ⟨.rc20, -1, [clock - op1_prev_clock_lo - enabler]⟩,
      ⟨.rc20, -1, [clock - op1_prev_clock_hi - enabler]⟩,
      ⟨.rc20, -1, [clock - dst_prev_clock - enabler]⟩] }

end U32StoreEqFpFp

/-! ### `u32_store_eq_fp_imm.rs` -/

namespace U32StoreEqFpImm

/-- One row of `write_trace` and of `write_interaction_trace`
(`crates/prover/src/components/opcodes/u32_store_eq_fp_imm.rs:150-301`,
`crates/prover/src/components/opcodes/u32_store_eq_fp_imm.rs:313-421`). -/
def write (enabler : M31) (x : Bundle) : Written Row :=
  let zero : M31 := 0
  let one : M31 := 1
  let two_pow_16 : M31 := (65536 : M31)
  let pc : M31 := x.registers.pc
  let fp : M31 := x.registers.fp
  let clock : M31 := x.clock
  let inst_prev_clock : M31 := x.prevClock
  let opcode_constant : M31 := (30 : M31)
  let src0_off : M31 := (instValue x 1)
  let imm_lo : M31 := (instValue x 2)
  let imm_hi : M31 := (instValue x 3)
  let dst_off : M31 := (instValue x 4)
  let op0_val_lo : M31 := value x 0
  let op0_val_hi : M31 := value x 1
  let op0_prev_clock_lo : M31 := accClock x 0
  let op0_prev_clock_hi : M31 := accClock x 1
  let dst_prev_val : M31 := prevValue x 2
  let dst_prev_clock : M31 := accClock x 2
  let diff : M31 := op0_val_lo + op0_val_hi * two_pow_16 - imm_lo - imm_hi * two_pow_16
  let diff_inv : M31 := invOrZero diff
  { row := {
      enabler := enabler, pc := pc, fp := fp, clock := clock, inst_prev_clock := inst_prev_clock,
      src0_off := src0_off, imm_lo := imm_lo, imm_hi := imm_hi, dst_off := dst_off,
      op0_val_lo := op0_val_lo, op0_val_hi := op0_val_hi, op0_prev_clock_lo := op0_prev_clock_lo,
      op0_prev_clock_hi := op0_prev_clock_hi, dst_prev_val := dst_prev_val,
      dst_prev_clock := dst_prev_clock, diff_inv := diff_inv },
    entries := [
      ⟨.registers, -enabler, [x.registers.pc, x.registers.fp, x.clock]⟩,
      ⟨.registers, enabler, [x.registers.pc + one, x.registers.fp, x.clock + one]⟩,
      ⟨.memory, -enabler, [x.registers.pc, inst_prev_clock, opcode_constant, src0_off, imm_lo, imm_hi]⟩,
      ⟨.memory, enabler, [x.registers.pc, clock, opcode_constant, src0_off, imm_lo, imm_hi]⟩,
      ⟨.memory, -enabler, [x.registers.pc, inst_prev_clock, dst_off, zero, zero, zero]⟩,
      ⟨.memory, enabler, [x.registers.pc, clock, dst_off, zero, zero, zero]⟩,
      ⟨.memory, -enabler, [fp + src0_off, op0_prev_clock_lo, op0_val_lo, zero, zero, zero]⟩,
      ⟨.memory, enabler, [fp + src0_off, clock, op0_val_lo, zero, zero, zero]⟩,
      ⟨.memory, -enabler, [fp + src0_off + one, op0_prev_clock_hi, op0_val_hi, zero, zero, zero]⟩,
      ⟨.memory, enabler, [fp + src0_off + one, clock, op0_val_hi, zero, zero, zero]⟩,
      ⟨.memory, -enabler, [fp + dst_off, dst_prev_clock, dst_prev_val, zero, zero, zero]⟩,
      ⟨.memory, enabler, [fp + dst_off, clock, one - diff * diff_inv, zero, zero, zero]⟩,
      ⟨.rc16, -1, [op0_val_lo]⟩,
      ⟨.rc16, -1, [op0_val_hi]⟩,
      ⟨.rc16, -1, [imm_lo]⟩,
      ⟨.rc16, -1, [imm_hi]⟩,
      ⟨.rc20, -1, [clock - inst_prev_clock - enabler]⟩,
      ⟨.rc20, -1, [clock - op0_prev_clock_lo - enabler]⟩,
      ⟨.rc20, -1, [clock - op0_prev_clock_hi - enabler]⟩,
      ⟨.rc20, -1, [clock - dst_prev_clock - enabler]⟩] }

end U32StoreEqFpImm

/-! ### `u32_store_lt_fp_imm.rs` -/

namespace U32StoreLtFpImm

/-- One row of `write_trace` and of `write_interaction_trace`
(`crates/prover/src/components/opcodes/u32_store_lt_fp_imm.rs:147-338`,
`crates/prover/src/components/opcodes/u32_store_lt_fp_imm.rs:350-475`). -/
def write (enabler : M31) (x : Bundle) : Written Row :=
  let zero : M31 := 0
  let one : M31 := 1
  let two_pow_16 : M31 := (65536 : M31)
  let pc : M31 := x.registers.pc
  let fp : M31 := x.registers.fp
  let clock : M31 := x.clock
  let inst_prev_clock : M31 := x.prevClock
  let opcode_constant : M31 := (34 : M31)
  let src_off : M31 := (instValue x 1)
  let imm_lo : M31 := (instValue x 2)
  let imm_hi : M31 := (instValue x 3)
  let dst_off : M31 := (instValue x 4)
  let op0_val_lo : M31 := value x 0
  let op0_prev_clock_lo : M31 := accClock x 0
  let op0_val_hi : M31 := value x 1
  let op0_prev_clock_hi : M31 := accClock x 1
  let dst_prev_val : M31 := prevValue x 2
  let dst_prev_clock : M31 := accClock x 2
  let borrow_lo : M31 := belowSum imm_lo op0_val_lo enabler
  let borrow_hi : M31 := belowSum imm_hi op0_val_hi borrow_lo
  { row := {
      enabler := enabler, pc := pc, fp := fp, clock := clock, inst_prev_clock := inst_prev_clock,
      src_off := src_off, imm_lo := imm_lo, imm_hi := imm_hi, dst_off := dst_off,
      op0_val_lo := op0_val_lo, op0_val_hi := op0_val_hi, op0_prev_clock_lo := op0_prev_clock_lo,
      op0_prev_clock_hi := op0_prev_clock_hi, dst_prev_val := dst_prev_val,
      dst_prev_clock := dst_prev_clock, borrow_lo := borrow_lo, borrow_hi := borrow_hi },
    entries := [
      ⟨.registers, -enabler, [x.registers.pc, x.registers.fp, x.clock]⟩,
      ⟨.registers, enabler, [x.registers.pc + one + one, x.registers.fp, x.clock + one]⟩,
      ⟨.memory, -enabler, [x.registers.pc, inst_prev_clock, opcode_constant, src_off, imm_lo, imm_hi]⟩,
      ⟨.memory, enabler, [x.registers.pc, clock, opcode_constant, src_off, imm_lo, imm_hi]⟩,
      ⟨.memory, -enabler, [x.registers.pc + one, inst_prev_clock, dst_off, zero, zero, zero]⟩,
      ⟨.memory, enabler, [x.registers.pc + one, clock, dst_off, zero, zero, zero]⟩,
      ⟨.memory, -enabler, [fp + src_off, op0_prev_clock_lo, op0_val_lo, zero, zero, zero]⟩,
      ⟨.memory, enabler, [fp + src_off, clock, op0_val_lo, zero, zero, zero]⟩,
      ⟨.memory, -enabler, [fp + src_off + one, op0_prev_clock_hi, op0_val_hi, zero, zero, zero]⟩,
      ⟨.memory, enabler, [fp + src_off + one, clock, op0_val_hi, zero, zero, zero]⟩,
      ⟨.memory, -enabler, [fp + dst_off, dst_prev_clock, dst_prev_val, zero, zero, zero]⟩,
      ⟨.memory, enabler, [fp + dst_off, clock, one - borrow_hi, zero, zero, zero]⟩,
      ⟨.rc16, -1, [op0_val_lo]⟩,
      ⟨.rc16, -1, [op0_val_hi]⟩,
      ⟨.rc16, -1, [imm_lo]⟩,
      ⟨.rc16, -1, [imm_hi]⟩,
      ⟨.rc16, -1, [imm_lo - enabler + borrow_lo * two_pow_16 - op0_val_lo]⟩,
      ⟨.rc16, -1, [imm_hi - borrow_lo + borrow_hi * two_pow_16 - op0_val_hi]⟩,
      ⟨.rc20, -1, [clock - inst_prev_clock - enabler]⟩,
      ⟨.rc20, -1, [clock - op0_prev_clock_lo - enabler]⟩,
      ⟨.rc20, -1, [clock - op0_prev_clock_hi - enabler]⟩,
      ⟨.rc20, -1, [clock - dst_prev_clock - enabler]⟩] }

end U32StoreLtFpImm

/-! ### `u32_store_lt_fp_fp.rs` -/

namespace U32StoreLtFpFp

/-- One row of `write_trace` and of `write_interaction_trace`
(`crates/prover/src/components/opcodes/u32_store_lt_fp_fp.rs:153-377`,
`crates/prover/src/components/opcodes/u32_store_lt_fp_fp.rs:389-534`). -/
def write (enabler : M31) (x : Bundle) : Written Row :=
  let zero : M31 := 0
  let one : M31 := 1
  let two_pow_16 : M31 := (65536 : M31)
  let pc : M31 := x.registers.pc
  let fp : M31 := x.registers.fp
  let clock : M31 := x.clock
  let inst_prev_clock : M31 := x.prevClock
  let opcode_constant : M31 := (28 : M31)
  let src0_off : M31 := (instValue x 1)
  let src1_off : M31 := (instValue x 2)
  let dst_off : M31 := (instValue x 3)
  let op0_val_lo : M31 := value x 0
  let op0_prev_clock_lo : M31 := accClock x 0
  let op0_val_hi : M31 := value x 1
  let op0_prev_clock_hi : M31 := accClock x 1
  let op1_val_lo : M31 := value x 2
  let op1_prev_clock_lo : M31 := accClock x 2
  let op1_val_hi : M31 := value x 3
  let op1_prev_clock_hi : M31 := accClock x 3
  let dst_prev_val : M31 := prevValue x 4
  let dst_prev_clock : M31 := accClock x 4
  let borrow_lo : M31 := belowSum op1_val_lo op0_val_lo enabler
  let borrow_hi : M31 := belowSum op1_val_hi op0_val_hi borrow_lo
  { row := {
      enabler := enabler, pc := pc, fp := fp, clock := clock, inst_prev_clock := inst_prev_clock,
      src0_off := src0_off, src1_off := src1_off, dst_off := dst_off, op0_val_lo := op0_val_lo,
      op0_val_hi := op0_val_hi, op0_prev_clock_lo := op0_prev_clock_lo,
      op0_prev_clock_hi := op0_prev_clock_hi, op1_val_lo := op1_val_lo, op1_val_hi := op1_val_hi,
      op1_prev_clock_lo := op1_prev_clock_lo, op1_prev_clock_hi := op1_prev_clock_hi,
      dst_prev_val := dst_prev_val, dst_prev_clock := dst_prev_clock, borrow_lo := borrow_lo,
      borrow_hi := borrow_hi },
    entries := [
      ⟨.registers, -enabler, [x.registers.pc, x.registers.fp, x.clock]⟩,
      ⟨.registers, enabler, [x.registers.pc + one, x.registers.fp, x.clock + one]⟩,
      ⟨.memory, -enabler, [x.registers.pc, inst_prev_clock, opcode_constant, src0_off, src1_off, dst_off]⟩,
      ⟨.memory, enabler, [x.registers.pc, clock, opcode_constant, src0_off, src1_off, dst_off]⟩,
      ⟨.memory, -enabler, [fp + src0_off, op0_prev_clock_lo, op0_val_lo, zero, zero, zero]⟩,
      ⟨.memory, enabler, [fp + src0_off, clock, op0_val_lo, zero, zero, zero]⟩,
      ⟨.memory, -enabler, [fp + src0_off + one, op0_prev_clock_hi, op0_val_hi, zero, zero, zero]⟩,
      ⟨.memory, enabler, [fp + src0_off + one, clock, op0_val_hi, zero, zero, zero]⟩,
      ⟨.memory, -enabler, [fp + src1_off, op1_prev_clock_lo, op1_val_lo, zero, zero, zero]⟩,
      ⟨.memory, enabler, [fp + src1_off, clock, op1_val_lo, zero, zero, zero]⟩,
      ⟨.memory, -enabler, [fp + src1_off + one, op1_prev_clock_hi, op1_val_hi, zero, zero, zero]⟩,
      ⟨.memory, enabler, [fp + src1_off + one, clock, op1_val_hi, zero, zero, zero]⟩,
      ⟨.memory, -enabler, [fp + dst_off, dst_prev_clock, dst_prev_val, zero, zero, zero]⟩,
      ⟨.memory, enabler, [fp + dst_off, clock, one - borrow_hi, zero, zero, zero]⟩,
      ⟨.rc16, -1, [op0_val_lo]⟩,
      ⟨.rc16, -1, [op0_val_hi]⟩,
      ⟨.rc16, -1, [op1_val_lo]⟩,
      ⟨.rc16, -1, [op1_val_hi]⟩,
      ⟨.rc16, -1, [op1_val_lo - enabler + borrow_lo * two_pow_16 - op0_val_lo]⟩,
      ⟨.rc16, -1, [op1_val_hi - borrow_lo + borrow_hi * two_pow_16 - op0_val_hi]⟩,
      ⟨.rc20, -1, [clock - inst_prev_clock - enabler]⟩,
      ⟨.rc20, -1, [clock - op0_prev_clock_lo - enabler]⟩,
      ⟨.rc20, -1, [clock - op0_prev_clock_hi - enabler]⟩,
      ⟨.rc20, -1, [clock - op1_prev_clock_lo - enabler]⟩,
      ⟨.rc20, -1, [clock - op1_prev_clock_hi - enabler]⟩,
      ⟨.rc20, -1, [clock - dst_prev_clock - enabler]⟩] }

end U32StoreLtFpFp

/-! ### `u32_store_add_fp_fp.rs` -/

namespace U32StoreAddFpFp

/-- One row of `write_trace` and of `write_interaction_trace`
(`crates/prover/src/components/opcodes/u32_store_add_fp_fp.rs:155-383`,
`crates/prover/src/components/opcodes/u32_store_add_fp_fp.rs:395-521`). -/
def write (enabler : M31) (x : Bundle) : Written Row :=
  let zero : M31 := 0
  let one : M31 := 1
  let two_pow_16 : M31 := (65536 : M31)
  let pc : M31 := x.registers.pc
  let fp : M31 := x.registers.fp
  let clock : M31 := x.clock
  let inst_prev_clock : M31 := x.prevClock
  let opcode_constant : M31 := (15 : M31)
  let src0_off : M31 := (instValue x 1)
  let src1_off : M31 := (instValue x 2)
  let dst_off : M31 := (instValue x 3)
  let op0_prev_lo_clock : M31 := accClock x 0
  let op0_val_lo : M31 := value x 0
  let op0_prev_hi_clock : M31 := accClock x 1
  let op0_val_hi : M31 := value x 1
  let op1_prev_lo_clock : M31 := accClock x 2
  let op1_val_lo : M31 := value x 2
  let op1_prev_hi_clock : M31 := accClock x 3
  let op1_val_hi : M31 := value x 3
  let dst_prev_lo_clock : M31 := accClock x 4
  let dst_prev_val_lo : M31 := prevValue x 4
  let dst_prev_hi_clock : M31 := accClock x 5
  let dst_prev_val_hi : M31 := prevValue x 5
  let u16_carry : M31 := over16 (op0_val_lo + op1_val_lo)
  let u32_carry : M31 := over16 (op0_val_hi + op1_val_hi + u16_carry)
  let res_lo : M31 := op0_val_lo + op1_val_lo - u16_carry * two_pow_16
  let res_hi : M31 := op0_val_hi + op1_val_hi + u16_carry - u32_carry * two_pow_16
  { row := {
      enabler := enabler, pc := pc, fp := fp, clock := clock, inst_prev_clock := inst_prev_clock,
      src0_off := src0_off, src1_off := src1_off, dst_off := dst_off, op0_val_lo := op0_val_lo,
      op0_val_hi := op0_val_hi, op0_prev_lo_clock := op0_prev_lo_clock,
      op0_prev_hi_clock := op0_prev_hi_clock, op1_val_lo := op1_val_lo, op1_val_hi := op1_val_hi,
      op1_prev_lo_clock := op1_prev_lo_clock, op1_prev_hi_clock := op1_prev_hi_clock,
      dst_prev_val_lo := dst_prev_val_lo, dst_prev_val_hi := dst_prev_val_hi,
      dst_prev_lo_clock := dst_prev_lo_clock, dst_prev_hi_clock := dst_prev_hi_clock,
      u16_carry := u16_carry, u32_carry := u32_carry },
    entries := [
      ⟨.registers, -enabler, [x.registers.pc, x.registers.fp, x.clock]⟩,
      ⟨.registers, enabler, [x.registers.pc + one, x.registers.fp, x.clock + one]⟩,
      ⟨.memory, -enabler, [x.registers.pc, inst_prev_clock, opcode_constant, src0_off, src1_off, dst_off]⟩,
      ⟨.memory, enabler, [x.registers.pc, clock, opcode_constant, src0_off, src1_off, dst_off]⟩,
      ⟨.memory, -enabler, [fp + src0_off, op0_prev_lo_clock, op0_val_lo, zero, zero, zero]⟩,
      ⟨.memory, enabler, [fp + src0_off, clock, op0_val_lo, zero, zero, zero]⟩,
      ⟨.memory, -enabler, [fp + src0_off + one, op0_prev_hi_clock, op0_val_hi, zero, zero, zero]⟩,
      ⟨.memory, enabler, [fp + src0_off + one, clock, op0_val_hi, zero, zero, zero]⟩,
      ⟨.memory, -enabler, [fp + src1_off, op1_prev_lo_clock, op1_val_lo, zero, zero, zero]⟩,
      ⟨.memory, enabler, [fp + src1_off, clock, op1_val_lo, zero, zero, zero]⟩,
      ⟨.memory, -enabler, [fp + src1_off + one, op1_prev_hi_clock, op1_val_hi, zero, zero, zero]⟩,
      ⟨.memory, enabler, [fp + src1_off + one, clock, op1_val_hi, zero, zero, zero]⟩,
      ⟨.memory, -enabler, [fp + dst_off, dst_prev_lo_clock, dst_prev_val_lo, zero, zero, zero]⟩,
      ⟨.memory, enabler, [fp + dst_off, clock, res_lo, zero, zero, zero]⟩,
      ⟨.memory, -enabler, [fp + dst_off + one, dst_prev_hi_clock, dst_prev_val_hi, zero, zero, zero]⟩,
      ⟨.memory, enabler, [fp + dst_off + one, clock, res_hi, zero, zero, zero]⟩,
      ⟨.rc16, -1, [op0_val_lo]⟩,
      ⟨.rc16, -1, [op0_val_hi]⟩,
      ⟨.rc16, -1, [op1_val_lo]⟩,
      ⟨.rc16, -1, [op1_val_hi]⟩,
      ⟨.rc16, -1, [res_lo]⟩,
      ⟨.rc16, -1, [res_hi]⟩,
      ⟨.rc20, -1, [clock - inst_prev_clock - enabler]⟩,
      ⟨.rc20, -1, [clock - op0_prev_lo_clock - enabler]⟩,
      ⟨.rc20, -1, [clock - op0_prev_hi_clock - enabler]⟩,
      ⟨.rc20, -1, [clock - op1_prev_lo_clock - enabler]⟩,
      ⟨.rc20, -1, [clock - op1_prev_hi_clock - enabler]⟩,
      ⟨.rc20, -1, [clock - dst_prev_lo_clock - enabler]⟩,
      ⟨.rc20, -1, [clock - dst_prev_hi_clock - enabler]⟩] }

end U32StoreAddFpFp

/-! ### `u32_store_sub_fp_fp.rs` -/

namespace U32StoreSubFpFp

/-- One row of `write_trace` and of `write_interaction_trace`
(`crates/prover/src/components/opcodes/u32_store_sub_fp_fp.rs:158-389`,
`crates/prover/src/components/opcodes/u32_store_sub_fp_fp.rs:401-526`). -/
def write (enabler : M31) (x : Bundle) : Written Row :=
  let zero : M31 := 0
  let one : M31 := 1
  let two_pow_16 : M31 := (65536 : M31)
  let pc : M31 := x.registers.pc
  let fp : M31 := x.registers.fp
  let clock : M31 := x.clock
  let inst_prev_clock : M31 := x.prevClock
  let opcode_constant : M31 := (16 : M31)
  let src0_off : M31 := (instValue x 1)
  let src1_off : M31 := (instValue x 2)
  let dst_off : M31 := (instValue x 3)
  let op0_prev_lo_clock : M31 := accClock x 0
  let op0_val_lo : M31 := value x 0
  let op0_prev_hi_clock : M31 := accClock x 1
  let op0_val_hi : M31 := value x 1
  let op1_prev_lo_clock : M31 := accClock x 2
  let op1_val_lo : M31 := value x 2
  let op1_prev_hi_clock : M31 := accClock x 3
  let op1_val_hi : M31 := value x 3
  let dst_prev_lo_clock : M31 := accClock x 4
  let dst_prev_val_lo : M31 := prevValue x 4
  let dst_prev_hi_clock : M31 := accClock x 5
  let dst_prev_val_hi : M31 := prevValue x 5
  let borrow_lo : M31 := below op0_val_lo op1_val_lo
  let borrow_hi : M31 := below op0_val_hi (op1_val_hi + borrow_lo)
  let res_lo : M31 := op0_val_lo + borrow_lo * two_pow_16 - op1_val_lo
  let res_hi : M31 := op0_val_hi - borrow_lo + borrow_hi * two_pow_16 - op1_val_hi
  { row := {
      enabler := enabler, pc := pc, fp := fp, clock := clock, inst_prev_clock := inst_prev_clock,
      src0_off := src0_off, src1_off := src1_off, dst_off := dst_off, op0_val_lo := op0_val_lo,
      op0_val_hi := op0_val_hi, op0_prev_lo_clock := op0_prev_lo_clock,
      op0_prev_hi_clock := op0_prev_hi_clock, op1_val_lo := op1_val_lo, op1_val_hi := op1_val_hi,
      op1_prev_lo_clock := op1_prev_lo_clock, op1_prev_hi_clock := op1_prev_hi_clock,
      dst_prev_val_lo := dst_prev_val_lo, dst_prev_val_hi := dst_prev_val_hi,
      dst_prev_lo_clock := dst_prev_lo_clock, dst_prev_hi_clock := dst_prev_hi_clock,
      borrow_lo := borrow_lo, borrow_hi := borrow_hi },
    entries := [
      ⟨.registers, -enabler, [x.registers.pc, x.registers.fp, x.clock]⟩,
      ⟨.registers, enabler, [x.registers.pc + one, x.registers.fp, x.clock + one]⟩,
      ⟨.memory, -enabler, [x.registers.pc, inst_prev_clock, opcode_constant, src0_off, src1_off, dst_off]⟩,
      ⟨.memory, enabler, [x.registers.pc, clock, opcode_constant, src0_off, src1_off, dst_off]⟩,
      ⟨.memory, -enabler, [fp + src0_off, op0_prev_lo_clock, op0_val_lo, zero, zero, zero]⟩,
      ⟨.memory, enabler, [fp + src0_off, clock, op0_val_lo, zero, zero, zero]⟩,
      ⟨.memory, -enabler, [fp + src0_off + one, op0_prev_hi_clock, op0_val_hi, zero, zero, zero]⟩,
      ⟨.memory, enabler, [fp + src0_off + one, clock, op0_val_hi, zero, zero, zero]⟩,
      ⟨.memory, -enabler, [fp + src1_off, op1_prev_lo_clock, op1_val_lo, zero, zero, zero]⟩,
      ⟨.memory, enabler, [fp + src1_off, clock, op1_val_lo, zero, zero, zero]⟩,
      ⟨.memory, -enabler, [fp + src1_off + one, op1_prev_hi_clock, op1_val_hi, zero, zero, zero]⟩,
      ⟨.memory, enabler, [fp + src1_off + one, clock, op1_val_hi, zero, zero, zero]⟩,
      ⟨.memory, -enabler, [fp + dst_off, dst_prev_lo_clock, dst_prev_val_lo, zero, zero, zero]⟩,
      ⟨.memory, enabler, [fp + dst_off, clock, res_lo, zero, zero, zero]⟩,
      ⟨.memory, -enabler, [fp + dst_off + one, dst_prev_hi_clock, dst_prev_val_hi, zero, zero, zero]⟩,
      ⟨.memory, enabler, [fp + dst_off + one, clock, res_hi, zero, zero, zero]⟩,
      ⟨.rc16, -1, [op0_val_lo]⟩,
      ⟨.rc16, -1, [op0_val_hi]⟩,
      ⟨.rc16, -1, [op1_val_lo]⟩,
      ⟨.rc16, -1, [op1_val_hi]⟩,
      ⟨.rc16, -1, [res_lo]⟩,
      ⟨.rc16, -1, [res_hi]⟩,
      ⟨.rc20, -1, [clock - inst_prev_clock - enabler]⟩,
      ⟨.rc20, -1, [clock - op0_prev_lo_clock - enabler]⟩,
      ⟨.rc20, -1, [clock - op0_prev_hi_clock - enabler]⟩,
      ⟨.rc20, -1, [clock - op1_prev_lo_clock - enabler]⟩,
      ⟨.rc20, -1, [clock - op1_prev_hi_clock - enabler]⟩,
      ⟨.rc20, -1, [clock - dst_prev_lo_clock - enabler]⟩,
      ⟨.rc20, -1, [clock - dst_prev_hi_clock - enabler]⟩] }

end U32StoreSubFpFp

/-! ### `u32_store_mul_fp_fp.rs` -/

namespace U32StoreMulFpFp

/-- One row of `write_trace` and of `write_interaction_trace`
(`crates/prover/src/components/opcodes/u32_store_mul_fp_fp.rs:196-504`,
`crates/prover/src/components/opcodes/u32_store_mul_fp_fp.rs:516-680`). -/
def write (enabler : M31) (x : Bundle) : Written Row :=
  let zero : M31 := 0
  let one : M31 := 1
  let pc : M31 := x.registers.pc
  let fp : M31 := x.registers.fp
  let clock : M31 := x.clock
  let inst_prev_clock : M31 := x.prevClock
  let opcode_constant : M31 := (17 : M31)
  let src0_off : M31 := (instValue x 1)
  let src1_off : M31 := (instValue x 2)
  let dst_off : M31 := (instValue x 3)
  let op0_prev_clock_lo : M31 := accClock x 0
  let op0_val_lo : M31 := value x 0
  let op0_prev_clock_hi : M31 := accClock x 1
  let op0_val_hi : M31 := value x 1
  let op1_prev_clock_lo : M31 := accClock x 2
  let op1_val_lo : M31 := value x 2
  let op1_prev_clock_hi : M31 := accClock x 3
  let op1_val_hi : M31 := value x 3
  let dst_prev_clock_lo : M31 := accClock x 4
  let dst_prev_val_lo : M31 := prevValue x 4
  let dst_prev_clock_hi : M31 := accClock x 5
  let dst_prev_val_hi : M31 := prevValue x 5
  let op0_0 : M31 := low8 op0_val_lo
  let op0_1 : M31 := shr8 op0_val_lo
  let op0_2 : M31 := low8 op0_val_hi
  let op0_3 : M31 := shr8 op0_val_hi
  let op1_0 : M31 := low8 op1_val_lo
  let op1_1 : M31 := shr8 op1_val_lo
  let op1_2 : M31 := low8 op1_val_hi
  let op1_3 : M31 := shr8 op1_val_hi
  let two_pow_8 : M31 := (256 : M31)
  let prod_0 : M31 := op0_0 * op1_0
  let carry_0 : M31 := shr8 prod_0
  let res_0 : M31 := prod_0 - carry_0 * two_pow_8
  let sum_1 : M31 := op0_0 * op1_1 + op0_1 * op1_0 + carry_0
  let carry_1 : M31 := shr8 sum_1
  let res_1 : M31 := sum_1 - carry_1 * two_pow_8
  let sum_2 : M31 := op0_0 * op1_2 + op0_1 * op1_1 + op0_2 * op1_0 + carry_1
  let carry_2 : M31 := shr8 sum_2
  let res_2 : M31 := sum_2 - carry_2 * two_pow_8
  let sum_3 : M31 := op0_0 * op1_3 + op0_1 * op1_2 + op0_2 * op1_1 + op0_3 * op1_0 + carry_2
  let carry_3 : M31 := shr8 sum_3
  let res_3 : M31 := sum_3 - carry_3 * two_pow_8
  let two_pow_8 : M31 := (256 : M31)
  let max_carry_0 : M31 := (254 : M31)
  let max_carry_1 : M31 := (509 : M31)
  let max_carry_2 : M31 := (764 : M31)
  let max_carry_3 : M31 := (1019 : M31)
  { row := {
      enabler := enabler, pc := pc, fp := fp, clock := clock, inst_prev_clock := inst_prev_clock,
      src0_off := src0_off, src1_off := src1_off, dst_off := dst_off, op0_0 := op0_0, op0_1 := op0_1,
      op0_2 := op0_2, op0_3 := op0_3, op0_prev_clock_lo := op0_prev_clock_lo,
      op0_prev_clock_hi := op0_prev_clock_hi, op1_0 := op1_0, op1_1 := op1_1, op1_2 := op1_2,
      op1_3 := op1_3, op1_prev_clock_lo := op1_prev_clock_lo, op1_prev_clock_hi := op1_prev_clock_hi,
      dst_prev_val_lo := dst_prev_val_lo, dst_prev_val_hi := dst_prev_val_hi,
      dst_prev_clock_lo := dst_prev_clock_lo, dst_prev_clock_hi := dst_prev_clock_hi, res_0 := res_0,
      res_1 := res_1, res_2 := res_2, res_3 := res_3, carry_0 := carry_0, carry_1 := carry_1,
      carry_2 := carry_2, carry_3 := carry_3 },
    entries := [
      ⟨.registers, -enabler, [x.registers.pc, x.registers.fp, x.clock]⟩,
      ⟨.registers, enabler, [x.registers.pc + one, x.registers.fp, x.clock + one]⟩,
      ⟨.memory, -enabler, [x.registers.pc, inst_prev_clock, opcode_constant, src0_off, src1_off, dst_off]⟩,
      ⟨.memory, enabler, [x.registers.pc, clock, opcode_constant, src0_off, src1_off, dst_off]⟩,
      ⟨.memory, -enabler, [fp + src0_off, op0_prev_clock_lo, op0_0 + op0_1 * two_pow_8, zero, zero, zero]⟩,
      ⟨.memory, enabler, [fp + src0_off, clock, op0_0 + op0_1 * two_pow_8, zero, zero, zero]⟩,
      ⟨.memory, -enabler, [fp + src0_off + one, op0_prev_clock_hi, op0_2 + op0_3 * two_pow_8, zero, zero, zero]⟩,
      ⟨.memory, enabler, [fp + src0_off + one, clock, op0_2 + op0_3 * two_pow_8, zero, zero, zero]⟩,
      ⟨.memory, -enabler, [fp + src1_off, op1_prev_clock_lo, op1_0 + op1_1 * two_pow_8, zero, zero, zero]⟩,
      ⟨.memory, enabler, [fp + src1_off, clock, op1_0 + op1_1 * two_pow_8, zero, zero, zero]⟩,
      ⟨.memory, -enabler, [fp + src1_off + one, op1_prev_clock_hi, op1_2 + op1_3 * two_pow_8, zero, zero, zero]⟩,
      ⟨.memory, enabler, [fp + src1_off + one, clock, op1_2 + op1_3 * two_pow_8, zero, zero, zero]⟩,
      ⟨.memory, -enabler, [fp + dst_off, dst_prev_clock_lo, dst_prev_val_lo, zero, zero, zero]⟩,
      ⟨.memory, enabler, [fp + dst_off, clock, res_0 + res_1 * two_pow_8, zero, zero, zero]⟩,
      ⟨.memory, -enabler, [fp + dst_off + one, dst_prev_clock_hi, dst_prev_val_hi, zero, zero, zero]⟩,
      ⟨.memory, enabler, [fp + dst_off + one, clock, res_2 + res_3 * two_pow_8, zero, zero, zero]⟩,
      ⟨.rc8, -1, [op0_0]⟩,
      ⟨.rc8, -1, [op0_1]⟩,
      ⟨.rc8, -1, [op0_2]⟩,
      ⟨.rc8, -1, [op0_3]⟩,
      ⟨.rc8, -1, [op1_0]⟩,
      ⟨.rc8, -1, [op1_1]⟩,
      ⟨.rc8, -1, [op1_2]⟩,
      ⟨.rc8, -1, [op1_3]⟩,
      ⟨.rc8, -1, [res_0]⟩,
      ⟨.rc8, -1, [res_1]⟩,
      ⟨.rc8, -1, [res_2]⟩,
      ⟨.rc8, -1, [res_3]⟩,
      ⟨.rc16, -1, [max_carry_0 - carry_0]⟩,
      ⟨.rc16, -1, [max_carry_1 - carry_1]⟩,
      ⟨.rc16, -1, [max_carry_2 - carry_2]⟩,
      ⟨.rc16, -1, [max_carry_3 - carry_3]⟩,
      ⟨.rc20, -1, [clock - inst_prev_clock - enabler]⟩,
      ⟨.rc20, -1, [clock - op0_prev_clock_lo - enabler]⟩,
      ⟨.rc20, -1, [clock - op0_prev_clock_hi - enabler]⟩,
      ⟨.rc20, -1, [clock - dst_prev_clock_lo - enabler]⟩,
      ⟨.rc20, -1, [clock - dst_prev_clock_hi - enabler]⟩] }

end U32StoreMulFpFp

/-! ### `u32_store_div_fp_fp.rs` -/

namespace U32StoreDivFpFp

/-- One row of `write_trace` and of `write_interaction_trace`
(`crates/prover/src/components/opcodes/u32_store_div_fp_fp.rs:257-759`,
`crates/prover/src/components/opcodes/u32_store_div_fp_fp.rs:771-960`). -/
def write (enabler : M31) (x : Bundle) : Written Row :=
  let zero : M31 := 0
  let one : M31 := 1
  let two_pow_16 : M31 := (65536 : M31)
  let pc : M31 := x.registers.pc
  let fp : M31 := x.registers.fp
  let clock : M31 := x.clock
  let inst_prev_clock : M31 := x.prevClock
  let opcode_constant : M31 := (18 : M31)
  let src0_off : M31 := (instValue x 1)
  let src1_off : M31 := (instValue x 2)
  let dst_off : M31 := (instValue x 3)
  let dst_rem_off : M31 := (instValue x 4)
  let n_lo : M31 := value x 0
  let n_hi : M31 := value x 1
  let op0_prev_clock_lo : M31 := accClock x 0
  let op0_prev_clock_hi : M31 := accClock x 1
  let op1_val_lo : M31 := value x 2
  let op1_val_hi : M31 := value x 3
  let op1_prev_clock_lo : M31 := accClock x 2
  let op1_prev_clock_hi : M31 := accClock x 3
  let dst_prev_val_lo : M31 := prevValue x 4
  let dst_prev_val_hi : M31 := prevValue x 5
  let dst_prev_clock_lo : M31 := accClock x 4
  let dst_prev_clock_hi : M31 := accClock x 5
  let dst_rem_prev_val_lo : M31 := prevValue x 6
  let dst_rem_prev_val_hi : M31 := prevValue x 7
  let dst_rem_prev_clock_lo : M31 := accClock x 6
  let dst_rem_prev_clock_hi : M31 := accClock x 7
  let two_pow_8 : M31 := (256 : M31)
  let d_0 : M31 := low8 op1_val_lo
  let d_1 : M31 := mid8 op1_val_lo
  let d_2 : M31 := low8 op1_val_hi
  let d_3 : M31 := mid8 op1_val_hi
  let n_lo_array : M31 := n_lo
  let n_hi_array : M31 := n_hi
  let op1_val_lo_array : M31 := op1_val_lo
  let op1_val_hi_array : M31 := op1_val_hi
  let n_u32_iter : ℕ := joined n_lo_array n_hi_array
  let d_u32_iter : ℕ := joined op1_val_lo_array op1_val_hi_array
  let q_r_u32_iter : ℕ × ℕ := divMod n_u32_iter d_u32_iter
  let q_lo : M31 := (q_r_u32_iter.1 % 2 ^ 16 : ℕ)
  let q_hi : M31 := (q_r_u32_iter.1 / 2 ^ 16 : ℕ)
  let r_lo : M31 := (q_r_u32_iter.2 % 2 ^ 16 : ℕ)
  let r_hi : M31 := (q_r_u32_iter.2 / 2 ^ 16 : ℕ)
  let q_0 : M31 := low8 q_lo
  let q_1 : M31 := mid8 q_lo
  let q_2 : M31 := low8 q_hi
  let q_3 : M31 := mid8 q_hi
  let prod_0 : M31 := q_0 * d_0
  let prod_1_raw : M31 := q_0 * d_1 + q_1 * d_0
  let prod_2_raw : M31 := q_0 * d_2 + q_2 * d_0 + q_1 * d_1
  let prod_3_raw : M31 := q_0 * d_3 + q_3 * d_0 + q_1 * d_2 + q_2 * d_1
  let prod_4_raw : M31 := q_1 * d_3 + q_3 * d_1 + q_2 * d_2
  let prod_5_raw : M31 := q_2 * d_3 + q_3 * d_2
  let prod_6_raw : M31 := q_3 * d_3
  let mul_carry_0 : M31 := shr8 prod_0
  let prod_1_with_carry : M31 := prod_1_raw + mul_carry_0
  let mul_carry_1 : M31 := shr8 prod_1_with_carry
  let prod_2_with_carry : M31 := prod_2_raw + mul_carry_1
  let mul_carry_2 : M31 := shr8 prod_2_with_carry
  let prod_3_with_carry : M31 := prod_3_raw + mul_carry_2
  let mul_carry_3 : M31 := shr8 prod_3_with_carry
  let prod_4_with_carry : M31 := prod_4_raw + mul_carry_3
  let mul_carry_4 : M31 := shr8 prod_4_with_carry
  let prod_5_with_carry : M31 := prod_5_raw + mul_carry_4
  let mul_carry_5 : M31 := shr8 prod_5_with_carry
  let prod_6_with_carry : M31 := prod_6_raw + mul_carry_5
  let mul_carry_6 : M31 := shr8 prod_6_with_carry
  let prod_0 : M31 := prod_0 - mul_carry_0 * two_pow_8
  let prod_1 : M31 := prod_1_with_carry - mul_carry_1 * two_pow_8
  let prod_2 : M31 := prod_2_with_carry - mul_carry_2 * two_pow_8
  let prod_3 : M31 := prod_3_with_carry - mul_carry_3 * two_pow_8
  let prod_4 : M31 := prod_4_with_carry - mul_carry_4 * two_pow_8
  let prod_5 : M31 := prod_5_with_carry - mul_carry_5 * two_pow_8
  let prod_6 : M31 := prod_6_with_carry - mul_carry_6 * two_pow_8
  let prod_7 : M31 := mul_carry_6
  let add_0_raw : M31 := prod_0 + prod_1 * two_pow_8 + r_lo
  let add_carry_0 : M31 := over16 add_0_raw
  let add_1_raw : M31 := prod_2 + prod_3 * two_pow_8 + r_hi + add_carry_0
  let add_carry_1 : M31 := over16 add_1_raw
  let add_2_raw : M31 := prod_4 + prod_5 * two_pow_8 + add_carry_1
  let add_carry_2 : M31 := over16 add_2_raw
  let add_3_raw : M31 := prod_6 + prod_7 * two_pow_8 + add_carry_2
  let add_carry_3 : M31 := over16 add_3_raw
  let sub_borrow_0 : M31 := borrowByte d_0 d_1 r_lo 1
  let sub_borrow_1 : M31 := borrowByte d_2 d_3 r_hi sub_borrow_0
  let res_lo : M31 := q_0 + q_1 * two_pow_8
  let res_hi : M31 := q_2 + q_3 * two_pow_8
  let max_carry_0 : M31 := (254 : M31)
  let max_carry_1 : M31 := (509 : M31)
  let max_carry_2 : M31 := (764 : M31)
  let max_carry_3 : M31 := (1019 : M31)
  let max_carry_4 : M31 := (765 : M31)
  let max_carry_5 : M31 := (510 : M31)
  let max_carry_6 : M31 := (255 : M31)
  let sub_check_lo : M31 := d_0 + d_1 * two_pow_8 + sub_borrow_0 * two_pow_16 - r_lo - one
  let sub_check_hi : M31 := d_2 + d_3 * two_pow_8 + sub_borrow_1 * two_pow_16 - r_hi - sub_borrow_0
  { row := {
      enabler := enabler, pc := pc, fp := fp, clock := clock, inst_prev_clock := inst_prev_clock,
      src0_off := src0_off, src1_off := src1_off, dst_off := dst_off, dst_rem_off := dst_rem_off,
      n_lo := n_lo, n_hi := n_hi, op0_prev_clock_lo := op0_prev_clock_lo,
      op0_prev_clock_hi := op0_prev_clock_hi, d_0 := d_0, d_1 := d_1, d_2 := d_2, d_3 := d_3,
      op1_prev_clock_lo := op1_prev_clock_lo, op1_prev_clock_hi := op1_prev_clock_hi,
      dst_prev_val_lo := dst_prev_val_lo, dst_prev_val_hi := dst_prev_val_hi,
      dst_prev_clock_lo := dst_prev_clock_lo, dst_prev_clock_hi := dst_prev_clock_hi,
      dst_rem_prev_val_lo := dst_rem_prev_val_lo, dst_rem_prev_val_hi := dst_rem_prev_val_hi,
      dst_rem_prev_clock_lo := dst_rem_prev_clock_lo, dst_rem_prev_clock_hi := dst_rem_prev_clock_hi,
      q_0 := q_0, q_1 := q_1, q_2 := q_2, q_3 := q_3, mul_carry_0 := mul_carry_0,
      mul_carry_1 := mul_carry_1, mul_carry_2 := mul_carry_2, mul_carry_3 := mul_carry_3,
      mul_carry_4 := mul_carry_4, mul_carry_5 := mul_carry_5, mul_carry_6 := mul_carry_6,
      prod_0 := prod_0, prod_1 := prod_1, prod_2 := prod_2, prod_3 := prod_3, prod_4 := prod_4,
      prod_5 := prod_5, prod_6 := prod_6, prod_7 := prod_7, add_carry_0 := add_carry_0,
      add_carry_1 := add_carry_1, add_carry_2 := add_carry_2, add_carry_3 := add_carry_3,
      sub_borrow_0 := sub_borrow_0, sub_borrow_1 := sub_borrow_1, r_lo := r_lo, r_hi := r_hi },
    entries := [
      ⟨.registers, -enabler, [x.registers.pc, x.registers.fp, x.clock]⟩,
      ⟨.registers, enabler, [x.registers.pc + one + one, x.registers.fp, x.clock + one]⟩,
      ⟨.memory, -enabler, [x.registers.pc, inst_prev_clock, opcode_constant, src0_off, src1_off, dst_off]⟩,
      ⟨.memory, enabler, [x.registers.pc, clock, opcode_constant, src0_off, src1_off, dst_off]⟩,
      ⟨.memory, -enabler, [x.registers.pc + one, inst_prev_clock, dst_rem_off, zero, zero, zero]⟩,
      ⟨.memory, enabler, [x.registers.pc + one, clock, dst_rem_off, zero, zero, zero]⟩,
      ⟨.memory, -enabler, [fp + src0_off, op0_prev_clock_lo, n_lo, zero, zero, zero]⟩,
      ⟨.memory, enabler, [fp + src0_off, clock, n_lo, zero, zero, zero]⟩,
      ⟨.memory, -enabler, [fp + src0_off + one, op0_prev_clock_hi, n_hi, zero, zero, zero]⟩,
      ⟨.memory, enabler, [fp + src0_off + one, clock, n_hi, zero, zero, zero]⟩,
      ⟨.memory, -enabler, [fp + src1_off, op1_prev_clock_lo, op1_val_lo, zero, zero, zero]⟩,
      ⟨.memory, enabler, [fp + src1_off, clock, op1_val_lo, zero, zero, zero]⟩,
      ⟨.memory, -enabler, [fp + src1_off + one, op1_prev_clock_hi, op1_val_hi, zero, zero, zero]⟩,
      ⟨.memory, enabler, [fp + src1_off + one, clock, op1_val_hi, zero, zero, zero]⟩,
      ⟨.memory, -enabler, [fp + dst_off, dst_prev_clock_lo, dst_prev_val_lo, zero, zero, zero]⟩,
      ⟨.memory, enabler, [fp + dst_off, clock, res_lo, zero, zero, zero]⟩,
      ⟨.memory, -enabler, [fp + dst_off + one, dst_prev_clock_hi, dst_prev_val_hi, zero, zero, zero]⟩,
      ⟨.memory, enabler, [fp + dst_off + one, clock, res_hi, zero, zero, zero]⟩,
      ⟨.memory, -enabler, [fp + dst_rem_off, dst_rem_prev_clock_lo, dst_rem_prev_val_lo, zero, zero, zero]⟩,
      ⟨.memory, enabler, [fp + dst_rem_off, clock, r_lo, zero, zero, zero]⟩,
      ⟨.memory, -enabler, [fp + dst_rem_off + one, dst_rem_prev_clock_hi, dst_rem_prev_val_hi, zero, zero, zero]⟩,
      ⟨.memory, enabler, [fp + dst_rem_off + one, clock, r_hi, zero, zero, zero]⟩,
      ⟨.rc8, -1, [d_0]⟩,
      ⟨.rc8, -1, [d_1]⟩,
      ⟨.rc8, -1, [d_2]⟩,
      ⟨.rc8, -1, [d_3]⟩,
      ⟨.rc8, -1, [q_0]⟩,
      ⟨.rc8, -1, [q_1]⟩,
      ⟨.rc8, -1, [q_2]⟩,
      ⟨.rc8, -1, [q_3]⟩,
      ⟨.rc8, -1, [prod_0]⟩,
      ⟨.rc8, -1, [prod_1]⟩,
      ⟨.rc8, -1, [prod_2]⟩,
      ⟨.rc8, -1, [prod_3]⟩,
      ⟨.rc8, -1, [prod_4]⟩,
      ⟨.rc8, -1, [prod_5]⟩,
      ⟨.rc8, -1, [prod_6]⟩,
      ⟨.rc8, -1, [prod_7]⟩,
      ⟨.rc16, -1, [n_lo]⟩,
      ⟨.rc16, -1, [n_hi]⟩,
      ⟨.rc16, -1, [r_lo]⟩,
      ⟨.rc16, -1, [r_hi]⟩,
      ⟨.rc16, -1, [max_carry_0 - mul_carry_0]⟩,
      ⟨.rc16, -1, [max_carry_1 - mul_carry_1]⟩,
      ⟨.rc16, -1, [max_carry_2 - mul_carry_2]⟩,
      ⟨.rc16, -1, [max_carry_3 - mul_carry_3]⟩,
      ⟨.rc16, -1, [max_carry_4 - mul_carry_4]⟩,
      ⟨.rc16, -1, [max_carry_5 - mul_carry_5]⟩,
      ⟨.rc16, -1, [max_carry_6 - mul_carry_6]⟩,
      ⟨.rc16, -1, [sub_check_lo]⟩,
      ⟨.rc16, -1, [sub_check_hi]⟩,
      ⟨.rc20, -1, [clock - inst_prev_clock - enabler]⟩,
      ⟨.rc20, -1, [clock - op0_prev_clock_lo - enabler]⟩,
      ⟨.rc20, -1, [clock - op0_prev_clock_hi - enabler]⟩,
      ⟨.rc20, -1, [clock - dst_prev_clock_lo - enabler]⟩,
      ⟨.rc20, -1, [clock - dst_prev_clock_hi - enabler]⟩,
      ⟨.rc20, -1, [clock - dst_rem_prev_clock_lo - enabler]⟩,
      ⟨.rc20, -1, [clock - dst_rem_prev_clock_hi - enabler]⟩] }

end U32StoreDivFpFp

/-! ### `u32_store_bitwise_fp_fp.rs` -/

namespace U32StoreBitwiseFpFp

/-- One row of `write_trace` and of `write_interaction_trace`
(`crates/prover/src/components/opcodes/u32_store_bitwise_fp_fp.rs:151-381`,
`crates/prover/src/components/opcodes/u32_store_bitwise_fp_fp.rs:394-515`). -/
def write (enabler : M31) (x : Bundle) : Written Row :=
  let zero : M31 := 0
  let one : M31 := 1
  let pc : M31 := x.registers.pc
  let fp : M31 := x.registers.fp
  let clock : M31 := x.clock
  let inst_prev_clock : M31 := x.prevClock
  let opcode_constant : M31 := notRet 36 (instValue x 0)
  let src0_off : M31 := (instValue x 1)
  let src1_off : M31 := (instValue x 2)
  let dst_off : M31 := (instValue x 3)
  let op0_val_lo : M31 := value x 0
  let op0_val_hi : M31 := value x 1
  let op0_prev_clock_lo : M31 := accClock x 0
  let op0_prev_clock_hi : M31 := accClock x 1
  let op1_val_lo : M31 := value x 2
  let op1_val_hi : M31 := value x 3
  let op1_prev_clock_lo : M31 := accClock x 2
  let op1_prev_clock_hi : M31 := accClock x 3
  let dst_val_lo : M31 := value x 4
  let dst_val_hi : M31 := value x 5
  let dst_prev_val_lo : M31 := prevValue x 4
  let dst_prev_val_hi : M31 := prevValue x 5
  let dst_prev_clock_lo : M31 := accClock x 4
  let dst_prev_clock_hi : M31 := accClock x 5
  let op0_val_0 : M31 := low8 op0_val_lo
  let op0_val_1 : M31 := mid8 op0_val_lo
  let op0_val_2 : M31 := low8 op0_val_hi
  let op0_val_3 : M31 := mid8 op0_val_hi
  let op1_val_0 : M31 := low8 op1_val_lo
  let op1_val_1 : M31 := mid8 op1_val_lo
  let op1_val_2 : M31 := low8 op1_val_hi
  let op1_val_3 : M31 := mid8 op1_val_hi
  let dst_val_0 : M31 := low8 dst_val_lo
  let dst_val_1 : M31 := mid8 dst_val_lo
  let dst_val_2 : M31 := low8 dst_val_hi
  let dst_val_3 : M31 := mid8 dst_val_hi
  let bitwise_op : M31 := opcode_constant - (36 : M31)
  { row := {
      enabler := enabler, pc := pc, fp := fp, clock := clock, inst_prev_clock := inst_prev_clock,
      opcode_constant := opcode_constant, src0_off := src0_off, src1_off := src1_off,
      dst_off := dst_off, op0_val_0 := op0_val_0, op0_val_1 := op0_val_1, op0_val_2 := op0_val_2,
      op0_val_3 := op0_val_3, op0_prev_clock_lo := op0_prev_clock_lo,
      op0_prev_clock_hi := op0_prev_clock_hi, op1_val_0 := op1_val_0, op1_val_1 := op1_val_1,
      op1_val_2 := op1_val_2, op1_val_3 := op1_val_3, op1_prev_clock_lo := op1_prev_clock_lo,
      op1_prev_clock_hi := op1_prev_clock_hi, dst_prev_val_lo := dst_prev_val_lo,
      dst_prev_val_hi := dst_prev_val_hi, dst_val_0 := dst_val_0, dst_val_1 := dst_val_1,
      dst_val_2 := dst_val_2, dst_val_3 := dst_val_3, dst_prev_clock_lo := dst_prev_clock_lo,
      dst_prev_clock_hi := dst_prev_clock_hi },
    entries := [
      ⟨.registers, -enabler, [x.registers.pc, x.registers.fp, x.clock]⟩,
      ⟨.registers, enabler, [x.registers.pc + one, x.registers.fp, x.clock + one]⟩,
      ⟨.memory, -enabler, [x.registers.pc, inst_prev_clock, opcode_constant, src0_off, src1_off, dst_off]⟩,
      ⟨.memory, enabler, [x.registers.pc, clock, opcode_constant, src0_off, src1_off, dst_off]⟩,
      ⟨.memory, -enabler, [fp + src0_off, op0_prev_clock_lo, op0_val_lo, zero, zero, zero]⟩,
      ⟨.memory, enabler, [fp + src0_off, clock, op0_val_lo, zero, zero, zero]⟩,
      ⟨.memory, -enabler, [fp + src0_off + one, op0_prev_clock_hi, op0_val_hi, zero, zero, zero]⟩,
      ⟨.memory, enabler, [fp + src0_off + one, clock, op0_val_hi, zero, zero, zero]⟩,
      ⟨.memory, -enabler, [fp + src1_off, op1_prev_clock_lo, op1_val_lo, zero, zero, zero]⟩,
      ⟨.memory, enabler, [fp + src1_off, clock, op1_val_lo, zero, zero, zero]⟩,
      ⟨.memory, -enabler, [fp + src1_off + one, op1_prev_clock_hi, op1_val_hi, zero, zero, zero]⟩,
      ⟨.memory, enabler, [fp + src1_off + one, clock, op1_val_hi, zero, zero, zero]⟩,
      ⟨.memory, -enabler, [fp + dst_off, dst_prev_clock_lo, dst_prev_val_lo, zero, zero, zero]⟩,
      ⟨.memory, enabler, [fp + dst_off, clock, dst_val_lo, zero, zero, zero]⟩,
      ⟨.memory, -enabler, [fp + dst_off + one, dst_prev_clock_hi, dst_prev_val_hi, zero, zero, zero]⟩,
      ⟨.memory, enabler, [fp + dst_off + one, clock, dst_val_hi, zero, zero, zero]⟩,
      ⟨.bitwise, -1, [bitwise_op, op0_val_0, op1_val_0, dst_val_0]⟩,
      ⟨.bitwise, -1, [bitwise_op, op0_val_1, op1_val_1, dst_val_1]⟩,
      ⟨.bitwise, -1, [bitwise_op, op0_val_2, op1_val_2, dst_val_2]⟩,
      ⟨.bitwise, -1, [bitwise_op, op0_val_3, op1_val_3, dst_val_3]⟩,
      ⟨.rc20, -1, [clock - inst_prev_clock - enabler]⟩,
      ⟨.rc20, -1, [clock - op0_prev_clock_lo - enabler]⟩,
      ⟨.rc20, -1, [clock - op0_prev_clock_hi - enabler]⟩,
      ⟨.rc20, -1, [clock - op1_prev_clock_lo - enabler]⟩,
      ⟨.rc20, -1, [clock - op1_prev_clock_hi - enabler]⟩,
      ⟨.rc20, -1, [clock - dst_prev_clock_lo - enabler]⟩,
      ⟨.rc20, -1, [clock - dst_prev_clock_hi - enabler]⟩] }

end U32StoreBitwiseFpFp

/-! ### `u32_store_bitwise_fp_imm.rs` -/

namespace U32StoreBitwiseFpImm

/-- One row of `write_trace` and of `write_interaction_trace`
(`crates/prover/src/components/opcodes/u32_store_bitwise_fp_imm.rs:145-348`,
`crates/prover/src/components/opcodes/u32_store_bitwise_fp_imm.rs:361-482`). -/
def write (enabler : M31) (x : Bundle) : Written Row :=
  let zero : M31 := 0
  let one : M31 := 1
  let two_pow_8 : M31 := (256 : M31)
  let pc : M31 := x.registers.pc
  let fp : M31 := x.registers.fp
  let clock : M31 := x.clock
  let inst_prev_clock : M31 := x.prevClock
  let opcode_constant : M31 := notRet 39 (instValue x 0)
  let src_off : M31 := (instValue x 1)
  let imm_lo : M31 := (instValue x 2)
  let imm_hi : M31 := (instValue x 3)
  let dst_off : M31 := (instValue x 4)
  let op0_val_lo : M31 := value x 0
  let op0_val_hi : M31 := value x 1
  let op0_prev_clock_lo : M31 := accClock x 0
  let op0_prev_clock_hi : M31 := accClock x 1
  let dst_val_lo : M31 := value x 2
  let dst_val_hi : M31 := value x 3
  let dst_prev_val_lo : M31 := prevValue x 2
  let dst_prev_val_hi : M31 := prevValue x 3
  let dst_prev_clock_lo : M31 := accClock x 2
  let dst_prev_clock_hi : M31 := accClock x 3
  let op0_val_0 : M31 := low8 op0_val_lo
  let op0_val_1 : M31 := mid8 op0_val_lo
  let op0_val_2 : M31 := low8 op0_val_hi
  let op0_val_3 : M31 := mid8 op0_val_hi
  let imm_0 : M31 := low8 imm_lo
  let imm_1 : M31 := mid8 imm_lo
  let imm_2 : M31 := low8 imm_hi
  let imm_3 : M31 := mid8 imm_hi
  let dst_val_0 : M31 := low8 dst_val_lo
  let dst_val_1 : M31 := mid8 dst_val_lo
  let dst_val_2 : M31 := low8 dst_val_hi
  let dst_val_3 : M31 := mid8 dst_val_hi
  let bitwise_op : M31 := opcode_constant - (39 : M31)
  let imm_lo : M31 := imm_0 + imm_1 * two_pow_8
  let imm_hi : M31 := imm_2 + imm_3 * two_pow_8
  { row := {
      enabler := enabler, pc := pc, fp := fp, clock := clock, inst_prev_clock := inst_prev_clock,
      opcode_constant := opcode_constant, src_off := src_off, imm_0 := imm_0, imm_1 := imm_1,
      imm_2 := imm_2, imm_3 := imm_3, dst_off := dst_off, op0_val_0 := op0_val_0,
      op0_val_1 := op0_val_1, op0_val_2 := op0_val_2, op0_val_3 := op0_val_3,
      op0_prev_clock_lo := op0_prev_clock_lo, op0_prev_clock_hi := op0_prev_clock_hi,
      dst_prev_val_lo := dst_prev_val_lo, dst_prev_val_hi := dst_prev_val_hi, dst_val_0 := dst_val_0,
      dst_val_1 := dst_val_1, dst_val_2 := dst_val_2, dst_val_3 := dst_val_3,
      dst_prev_clock_lo := dst_prev_clock_lo, dst_prev_clock_hi := dst_prev_clock_hi },
    entries := [
      ⟨.registers, -enabler, [x.registers.pc, x.registers.fp, x.clock]⟩,
      ⟨.registers, enabler, [x.registers.pc + one + one, x.registers.fp, x.clock + one]⟩,
      ⟨.memory, -enabler, [x.registers.pc, inst_prev_clock, opcode_constant, src_off, imm_lo, imm_hi]⟩,
      ⟨.memory, enabler, [x.registers.pc, clock, opcode_constant, src_off, imm_lo, imm_hi]⟩,
      ⟨.memory, -enabler, [x.registers.pc + one, inst_prev_clock, dst_off, zero, zero, zero]⟩,
      ⟨.memory, enabler, [x.registers.pc + one, clock, dst_off, zero, zero, zero]⟩,
      ⟨.memory, -enabler, [fp + src_off, op0_prev_clock_lo, op0_val_lo, zero, zero, zero]⟩,
      ⟨.memory, enabler, [fp + src_off, clock, op0_val_lo, zero, zero, zero]⟩,
      ⟨.memory, -enabler, [fp + src_off + one, op0_prev_clock_hi, op0_val_hi, zero, zero, zero]⟩,
      ⟨.memory, enabler, [fp + src_off + one, clock, op0_val_hi, zero, zero, zero]⟩,
      ⟨.memory, -enabler, [fp + dst_off, dst_prev_clock_lo, dst_prev_val_lo, zero, zero, zero]⟩,
      ⟨.memory, enabler, [fp + dst_off, clock, dst_val_lo, zero, zero, zero]⟩,
      ⟨.memory, -enabler, [fp + dst_off + one, dst_prev_clock_hi, dst_prev_val_hi, zero, zero, zero]⟩,
      ⟨.memory, enabler, [fp + dst_off + one, clock, dst_val_hi, zero, zero, zero]⟩,
      ⟨.bitwise, -1, [bitwise_op, op0_val_0, imm_0, dst_val_0]⟩,
      ⟨.bitwise, -1, [bitwise_op, op0_val_1, imm_1, dst_val_1]⟩,
      ⟨.bitwise, -1, [bitwise_op, op0_val_2, imm_2, dst_val_2]⟩,
      ⟨.bitwise, -1, [bitwise_op, op0_val_3, imm_3, dst_val_3]⟩,
      ⟨.rc20, -1, [clock - inst_prev_clock - enabler]⟩,
      ⟨.rc20, -1, [clock - op0_prev_clock_lo - enabler]⟩,
      ⟨.rc20, -1, [clock - op0_prev_clock_hi - enabler]⟩,
      ⟨.rc20, -1, [clock - dst_prev_clock_lo - enabler]⟩,
      ⟨.rc20, -1, [clock - dst_prev_clock_hi - enabler]⟩] }

end U32StoreBitwiseFpImm

/-! ### All components -/

/-- `write_trace` and `write_interaction_trace` of a component, one row. -/
def Comp.write : (c : Comp) → M31 → Bundle → Written c.Row
  | .assertEqFpImm, en, x => AssertEqFpImm.write en x
  | .callAbsImm, en, x => CallAbsImm.write en x
  | .jmpImm, en, x => JmpImm.write en x
  | .jnzFpImm, en, x => JnzFpImm.write en x
  | .ret, en, x => Ret.write en x
  | .storeImm, en, x => StoreImm.write en x
  | .storeFpFp, en, x => StoreFpFp.write en x
  | .storeFpImm, en, x => StoreFpImm.write en x
  | .doubleDerefFpImm, en, x => DoubleDerefFpImm.write en x
  | .doubleDerefFpFp, en, x => DoubleDerefFpFp.write en x
  | .storeFramePointer, en, x => StoreFramePointer.write en x
  | .u32StoreImm, en, x => U32StoreImm.write en x
  | .u32StoreAddFpImm, en, x => U32StoreAddFpImm.write en x
  | .u32StoreMulFpImm, en, x => U32StoreMulFpImm.write en x
  | .u32StoreDivFpImm, en, x => U32StoreDivFpImm.write en x
  | .u32StoreEqFpFp, en, x => U32StoreEqFpFp.write en x
  | .u32StoreEqFpImm, en, x => U32StoreEqFpImm.write en x
  | .u32StoreLtFpImm, en, x => U32StoreLtFpImm.write en x
  | .u32StoreLtFpFp, en, x => U32StoreLtFpFp.write en x
  | .u32StoreAddFpFp, en, x => U32StoreAddFpFp.write en x
  | .u32StoreSubFpFp, en, x => U32StoreSubFpFp.write en x
  | .u32StoreMulFpFp, en, x => U32StoreMulFpFp.write en x
  | .u32StoreDivFpFp, en, x => U32StoreDivFpFp.write en x
  | .u32StoreBitwiseFpFp, en, x => U32StoreBitwiseFpFp.write en x
  | .u32StoreBitwiseFpImm, en, x => U32StoreBitwiseFpImm.write en x
  | .storeLeFpImm, en, x => StoreLeFpImm.write en x

/-- Number of rows of a component with `n` executed instructions: `1 << max(LOG_N_LANES, next_power_of_two(n).ilog2())`
with 16 lanes (e.g. `crates/prover/src/components/opcodes/ret.rs:125`); the second number is the logarithm rounded up. -/
def paddedLength (n : ℕ) : ℕ := 2 ^ max 4 (Nat.clog 2 n)

/-- `Enabler::packed_at` (`crates/prover/src/utils/enabler.rs:57-76`) with `padding_offset = n`: lane `j` of vector `v`, by
the three cases of the code. -/
def packedAt (n v j : ℕ) : M31 :=
  if n ≤ v * 16 then 0
  else if v * 16 + 16 ≤ n then 1
  else if j < n - v * 16 then 1 else 0

/-- The inputs of a component after `inputs.resize(1 << log_size, ExecutionBundle::default())`
(e.g. `crates/prover/src/components/opcodes/ret.rs:133`). -/
def resized (xs : List Bundle) : List Bundle := xs ++ List.replicate (paddedLength xs.length - xs.length) padding

/-- The trace of a component (`write_trace` and `write_interaction_trace`, e.g.
`crates/prover/src/components/opcodes/ret.rs:117-369`): row `k` is lane `k % 16` of vector `k / 16`. -/
def Comp.writeTrace (c : Comp) (xs : List Bundle) : List (Written c.Row) :=
  (resized xs).mapIdx fun k x => c.write (packedAt xs.length (k / 16) (k % 16)) x

/-- The opcodes of a component, in the order of the table (`crates/prover/src/components/opcodes/mod.rs:223-268`). -/
def Comp.opcodes : Comp → List ℕ
  | .assertEqFpImm => [50]
  | .callAbsImm => [10]
  | .jmpImm => [12, 13]
  | .jnzFpImm => [14]
  | .ret => [11]
  | .storeImm => [9]
  | .storeFpFp => [0, 1, 2, 3]
  | .storeFpImm => [4, 6]
  | .doubleDerefFpImm => [8, 44]
  | .doubleDerefFpFp => [42, 45]
  | .storeFramePointer => [43]
  | .u32StoreImm => [23]
  | .u32StoreAddFpImm => [19]
  | .u32StoreMulFpImm => [21]
  | .u32StoreDivFpImm => [22]
  | .u32StoreEqFpFp => [24]
  | .u32StoreEqFpImm => [30]
  | .u32StoreLtFpImm => [34]
  | .u32StoreLtFpFp => [28]
  | .u32StoreAddFpFp => [15]
  | .u32StoreSubFpFp => [16]
  | .u32StoreMulFpFp => [17]
  | .u32StoreDivFpFp => [18]
  | .u32StoreBitwiseFpFp => [36, 37, 38]
  | .u32StoreBitwiseFpImm => [39, 40, 41]
  | .storeLeFpImm => [48]

/-- The inputs of a component: the bundles of its opcodes (`crates/prover/src/components/opcodes/mod.rs:51-59`). -/
def Comp.inputs (c : Comp) (p : Adapter.Input) : List Bundle := c.opcodes.flatMap p.byOpcode

end Air
end CairoM
