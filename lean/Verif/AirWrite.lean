import Verif.AirTrace
import Verif.Adapter

/-!
# Trace writers of the opcode components

Model of `write_trace` and `write_interaction_trace` of the components in
`crates/prover/src/components/opcodes/`, one row (one SIMD lane) at a time, translated statement by statement. The
packed vectors are replaced by the value in one lane. A row is computed from an execution bundle and the enabler.
The interaction trace is represented by the list of fractions `multiplicity / combine(tuple)` in the order in which
they are accumulated, that is, by lookup entries.
-/

namespace CairoM
namespace Air

open Adapter (Bundle DataAccess)

/-- A row of the trace and the fractions of the interaction trace in that row. -/
structure Written (Row : Type) where
  row : Row
  entries : List Entry

/-- `inst_value_k` of the packed bundle: `k`-th limb of the instruction, 0 if absent
(`crates/prover/src/utils/execution_bundle.rs:51-69`). -/
def instValue (x : Bundle) (k : ℕ) : M31 := x.instruction.encode.getD k 0

/-- `get_access_field` (`crates/prover/src/utils/data_accesses.rs:10-28`). -/
def accessField (x : Bundle) (k : ℕ) (f : DataAccess → M31) : M31 := (x.accesses[k]?).elim 0 f

/-- `get_prev_clock` (`crates/prover/src/utils/data_accesses.rs:30-36`). -/
def accClock (x : Bundle) (k : ℕ) : M31 := accessField x k (·.prevClock)

/-- `get_prev_value` (`crates/prover/src/utils/data_accesses.rs:38-44`). -/
def prevValue (x : Bundle) (k : ℕ) : M31 := accessField x k (·.prevValue)

/-- `get_value` (`crates/prover/src/utils/data_accesses.rs:46-52`). -/
def value (x : Bundle) (k : ℕ) : M31 := accessField x k (·.value)

/-- `get_address` (`crates/prover/src/utils/data_accesses.rs:54-60`). -/
def address (x : Bundle) (k : ℕ) : M31 := accessField x k (·.address)

/-- `ExecutionBundle::default()`, used for padding rows (`crates/prover/src/adapter/memory.rs:112-124`): all zero, the
instruction is `Ret`. -/
def padding : Bundle := ⟨⟨0, 0⟩, 0, .Ret, 0, []⟩

/-- `if x != 0 { x.inverse() } else { 0 }` (e.g. `crates/prover/src/components/opcodes/jnz_fp_imm.rs:172-178`). -/
def invOrZero (x : M31) : M31 := if x = 0 then 0 else x⁻¹

/-- `if m == 0 { 0 } else { 1 }` (`crates/prover/src/components/opcodes/jnz_fp_imm.rs:179-185`). -/
def nonZero (x : M31) : M31 := if x = 0 then 0 else 1

/-- `if x.0 > 0xFFFF { 1 } else { 0 }` (e.g. `crates/prover/src/components/opcodes/u32_store_add_fp_fp.rs:228`). -/
def over16 (x : M31) : M31 := if x.val > 0xFFFF then 1 else 0

/-- `if x.0 < y.0 { 1 } else { 0 }` (`crates/prover/src/components/opcodes/u32_store_sub_fp_fp.rs:234`). -/
def below (x y : M31) : M31 := if x.val < y.val then 1 else 0

/-- `if x.0 < y.0 + z.0 { 1 } else { 0 }`, sum of `u32`s
(`crates/prover/src/components/opcodes/u32_store_lt_fp_fp.rs:230`). -/
def belowSum (x y z : M31) : M31 := if x.val < y.val + z.val then 1 else 0

/-- `M31::from(x.0 & 0xFF)` (`crates/prover/src/components/opcodes/u32_store_div_fp_fp.rs:338`). -/
def low8 (x : M31) : M31 := (x.val &&& 0xFF : ℕ)

/-- `M31::from((x.0 >> 8) & 0xFF)` (`crates/prover/src/components/opcodes/u32_store_div_fp_fp.rs:340`). -/
def mid8 (x : M31) : M31 := ((x.val >>> 8) &&& 0xFF : ℕ)

/-- `M31::from(x.0 >> 8)` (`crates/prover/src/components/opcodes/u32_store_mul_fp_fp.rs:284`). -/
def shr8 (x : M31) : M31 := (x.val >>> 8 : ℕ)

/-- `if x.0 == 11 { base } else { x }`: the opcode of the padding bundle (`RET`) is replaced
(e.g. `crates/prover/src/components/opcodes/double_deref_fp_imm.rs:185-191`). -/
def notRet (base x : M31) : M31 := if x.val = 11 then base else x

/-- `lo.0 | (hi.0 << 16)` on `u32` (`crates/prover/src/components/opcodes/u32_store_div_fp_fp.rs:354-361`). -/
def joined (lo hi : M31) : ℕ := lo.val ||| ((hi.val <<< 16) % 2 ^ 32)

/-- `if d == 0 { (0, 0) } else { (n / d, n % d) }` (`crates/prover/src/components/opcodes/u32_store_div_fp_fp.rs:362-364`). -/
def divMod (n d : ℕ) : ℕ × ℕ := if d = 0 then (0, 0) else (n / d, n % d)

/-- `if (d0 | (d1 << 8)) < r + b { 1 } else { 0 }`, `d1` a byte
(`crates/prover/src/components/opcodes/u32_store_div_fp_fp.rs:485-519`). -/
def borrowByte (d0 d1 r b : M31) : M31 := if (d0.val ||| (d1.val <<< 8)) < r.val + b.val then 1 else 0

/-- The immediate used for the inverse column; other instructions are unreachable there
(`crates/prover/src/components/opcodes/store_fp_imm.rs:168-183`). -/
def immOf : Instruction → M31
  | .StoreAddFpImm _ imm _ => imm
  | .StoreMulFpImm _ imm _ => imm
  | _ => 0

/-- Stable insertion sort of three pairs by first component (`sort_by_key`, stable, `crates/prover/src/components/opcodes/store_le_fp_imm.rs:315`). -/
def sort3 (x y z : ℕ × ℕ) : (ℕ × ℕ) × (ℕ × ℕ) × (ℕ × ℕ) :=
  let p := if x.1 ≤ y.1 then (x, y) else (y, x)
  if p.2.1 ≤ z.1 then (p.1, p.2, z) else if p.1.1 ≤ z.1 then (p.1, z, p.2) else (z, p.1, p.2)

/-- The three arcs with their indices, sorted by length (`crates/prover/src/components/opcodes/store_le_fp_imm.rs:308-315`). -/
def sortedArcs (a b : ℕ) : (ℕ × ℕ) × (ℕ × ℕ) × (ℕ × ℕ) := sort3 (a, 0) (b - a, 1) (P - 1 - b, 2)

/-! ### `assert_eq_fp_imm.rs` -/

namespace AssertEqFpImm

/-- One row of `write_trace` and of `write_interaction_trace`
(`crates/prover/src/components/opcodes/assert_eq_fp_imm.rs:117-208`,
`crates/prover/src/components/opcodes/assert_eq_fp_imm.rs:220-316`). -/
def write (enabler : M31) (x : Bundle) : Written Row :=
  let zero : M31 := 0
  let one : M31 := 1
  let pc : M31 := x.registers.pc
  let fp : M31 := x.registers.fp
  let clock : M31 := x.clock
  let inst_prev_clock : M31 := x.prevClock
  let opcode_constant : M31 := (50 : M31)
  let src0_off : M31 := (instValue x 1)
  let imm : M31 := (instValue x 2)
  let op0_prev_clock : M31 := accClock x 0
  let op0_val : M31 := value x 0
  { row := {
      enabler := enabler, pc := pc, fp := fp, clock := clock, inst_prev_clock := inst_prev_clock,
      src0_off := src0_off, imm := imm, op0_prev_clock := op0_prev_clock, op0_val := op0_val },
    entries := [
      ⟨.registers, -enabler, [x.registers.pc, x.registers.fp, x.clock]⟩,
      ⟨.registers, enabler, [x.registers.pc + one, x.registers.fp, x.clock + one]⟩,
      ⟨.memory, -enabler, [x.registers.pc, inst_prev_clock, opcode_constant, src0_off, imm, zero]⟩,
      ⟨.memory, enabler, [x.registers.pc, clock, opcode_constant, src0_off, imm, zero]⟩,
      ⟨.memory, -enabler, [fp + src0_off, op0_prev_clock, op0_val, zero, zero, zero]⟩,
      ⟨.memory, enabler, [fp + src0_off, clock, op0_val, zero, zero, zero]⟩,
      ⟨.rc20, -1, [clock - inst_prev_clock - enabler]⟩,
      ⟨.rc20, -1, [clock - op0_prev_clock - enabler]⟩] }

end AssertEqFpImm

/-! ### `call_abs_imm.rs` -/

namespace CallAbsImm

/-- One row of `write_trace` and of `write_interaction_trace`
(`crates/prover/src/components/opcodes/call_abs_imm.rs:119-220`,
`crates/prover/src/components/opcodes/call_abs_imm.rs:232-364`). -/
def write (enabler : M31) (x : Bundle) : Written Row :=
  let zero : M31 := 0
  let one : M31 := 1
  let pc : M31 := x.registers.pc
  let fp : M31 := x.registers.fp
  let clock : M31 := x.clock
  let inst_prev_clock : M31 := x.prevClock
  let opcode_constant : M31 := (10 : M31)
  let off0 : M31 := (instValue x 1)
  let off1 : M31 := (instValue x 2)
  let op0_prev_clock : M31 := accClock x 0
  let op0_prev_val : M31 := prevValue x 0
  let op0_plus_one_prev_clock : M31 := accClock x 1
  let op0_plus_one_prev_val : M31 := prevValue x 1
  { row := {
      enabler := enabler, pc := pc, fp := fp, clock := clock, inst_prev_clock := inst_prev_clock,
      off0 := off0, off1 := off1, op0_prev_clock := op0_prev_clock, op0_prev_val := op0_prev_val,
      op0_plus_one_prev_clock := op0_plus_one_prev_clock, op0_plus_one_prev_val := op0_plus_one_prev_val },
    entries := [
      ⟨.registers, -enabler, [x.registers.pc, x.registers.fp, x.clock]⟩,
      ⟨.registers, enabler, [off1, x.registers.fp + off0 + one + one, x.clock + one]⟩,
      ⟨.memory, -enabler, [x.registers.pc, inst_prev_clock, opcode_constant, off0, off1, zero]⟩,
      ⟨.memory, enabler, [x.registers.pc, clock, opcode_constant, off0, off1, zero]⟩,
      ⟨.memory, -enabler, [fp + off0, op0_prev_clock, op0_prev_val, zero, zero, zero]⟩,
      ⟨.memory, enabler, [fp + off0, clock, fp, zero, zero, zero]⟩,
      ⟨.memory, -enabler, [fp + off0 + one, op0_plus_one_prev_clock, op0_plus_one_prev_val, zero, zero, zero]⟩,
      ⟨.memory, enabler, [fp + off0 + one, clock, pc + one, zero, zero, zero]⟩,
      ⟨.rc20, -1, [clock - inst_prev_clock - enabler]⟩,
      ⟨.rc20, -1, [clock - op0_prev_clock - enabler]⟩,
      ⟨.rc20, -1, [clock - op0_plus_one_prev_clock - enabler]⟩] }

end CallAbsImm

/-! ### `jmp_imm.rs` -/

namespace JmpImm

/-- One row of `write_trace` and of `write_interaction_trace`
(`crates/prover/src/components/opcodes/jmp_imm.rs:110-186`,
`crates/prover/src/components/opcodes/jmp_imm.rs:198-268`). -/
def write (enabler : M31) (x : Bundle) : Written Row :=
  let zero : M31 := 0
  let one : M31 := 1
  let pc : M31 := x.registers.pc
  let fp : M31 := x.registers.fp
  let clock : M31 := x.clock
  let inst_prev_clock : M31 := x.prevClock
  let opcode_constant : M31 := (12 : M31)
  let opcode_id : M31 := (instValue x 0)
  let off0 : M31 := (instValue x 1)
  let is_rel : M31 := enabler * (opcode_id - opcode_constant)
  { row := {
      enabler := enabler, pc := pc, fp := fp, clock := clock, inst_prev_clock := inst_prev_clock,
      off0 := off0, is_rel := is_rel },
    entries := [
      ⟨.memory, -enabler, [x.registers.pc, inst_prev_clock, opcode_id, off0, zero, zero]⟩,
      ⟨.memory, enabler, [x.registers.pc, clock, opcode_id, off0, zero, zero]⟩,
      ⟨.rc20, -1, [clock - inst_prev_clock - enabler]⟩,
      ⟨.registers, -enabler, [x.registers.pc, x.registers.fp, x.clock]⟩,
      ⟨.registers, enabler, [off0 + pc * is_rel, x.registers.fp, x.clock + one]⟩] }

end JmpImm

/-! ### `jnz_fp_imm.rs` -/

namespace JnzFpImm

/-- One row of `write_trace` and of `write_interaction_trace`
(`crates/prover/src/components/opcodes/jnz_fp_imm.rs:121-226`,
`crates/prover/src/components/opcodes/jnz_fp_imm.rs:238-334`). -/
def write (enabler : M31) (x : Bundle) : Written Row :=
  let zero : M31 := 0
  let one : M31 := 1
  let pc : M31 := x.registers.pc
  let fp : M31 := x.registers.fp
  let clock : M31 := x.clock
  let inst_prev_clock : M31 := x.prevClock
  let opcode_constant : M31 := (14 : M31)
  let off0 : M31 := (instValue x 1)
  let imm : M31 := (instValue x 2)
  let op0_prev_clock : M31 := accClock x 0
  let op0_val : M31 := value x 0
  let op0_val_inv : M31 := invOrZero op0_val
  let taken : M31 := nonZero op0_val
  let pc_new : M31 := pc + one + taken * (imm - one)
  { row := {
      enabler := enabler, pc := pc, fp := fp, clock := clock, inst_prev_clock := inst_prev_clock,
      off0 := off0, imm := imm, op0_prev_clock := op0_prev_clock, op0_val := op0_val,
      op0_val_inv := op0_val_inv, taken := taken, pc_new := pc_new },
    entries := [
      ⟨.registers, -enabler, [x.registers.pc, x.registers.fp, x.clock]⟩,
      ⟨.registers, enabler, [pc_new, x.registers.fp, x.clock + one]⟩,
      ⟨.memory, -enabler, [x.registers.pc, inst_prev_clock, opcode_constant, off0, imm, zero]⟩,
      ⟨.memory, enabler, [x.registers.pc, clock, opcode_constant, off0, imm, zero]⟩,
      ⟨.memory, -enabler, [fp + off0, op0_prev_clock, op0_val, zero, zero, zero]⟩,
      ⟨.memory, enabler, [fp + off0, clock, op0_val, zero, zero, zero]⟩,
      ⟨.rc20, -1, [clock - inst_prev_clock - enabler]⟩,
      ⟨.rc20, -1, [clock - op0_prev_clock - enabler]⟩] }

end JnzFpImm

/-! ### `ret.rs` -/

namespace Ret

/-- One row of `write_trace` and of `write_interaction_trace`
(`crates/prover/src/components/opcodes/ret.rs:117-225`,
`crates/prover/src/components/opcodes/ret.rs:237-369`). -/
def write (enabler : M31) (x : Bundle) : Written Row :=
  let zero : M31 := 0
  let one : M31 := 1
  let two : M31 := (2 : M31)
  let pc : M31 := x.registers.pc
  let fp : M31 := x.registers.fp
  let clock : M31 := x.clock
  let inst_prev_clock : M31 := x.prevClock
  let opcode_constant : M31 := (11 : M31)
  let fp_min_1_prev_clock : M31 := accClock x 0
  let fp_min_1_val : M31 := value x 0
  let fp_min_2_prev_clock : M31 := accClock x 1
  let fp_min_2_val : M31 := value x 1
  { row := {
      enabler := enabler, pc := pc, fp := fp, clock := clock, inst_prev_clock := inst_prev_clock,
      fp_min_2_prev_clock := fp_min_2_prev_clock, fp_min_2_val := fp_min_2_val,
      fp_min_1_prev_clock := fp_min_1_prev_clock, fp_min_1_val := fp_min_1_val },
    entries := [
      ⟨.registers, -enabler, [x.registers.pc, x.registers.fp, x.clock]⟩,
      ⟨.registers, enabler, [fp_min_1_val, fp_min_2_val, x.clock + one]⟩,
      ⟨.memory, -enabler, [x.registers.pc, inst_prev_clock, opcode_constant, zero, zero, zero]⟩,
      ⟨.memory, enabler, [x.registers.pc, clock, opcode_constant, zero, zero, zero]⟩,
      ⟨.memory, -enabler, [fp - two, fp_min_2_prev_clock, fp_min_2_val, zero, zero, zero]⟩,
      ⟨.memory, enabler, [fp - two, clock, fp_min_2_val, zero, zero, zero]⟩,
      ⟨.memory, -enabler, [fp - one, fp_min_1_prev_clock, fp_min_1_val, zero, zero, zero]⟩,
      ⟨.memory, enabler, [fp - one, clock, fp_min_1_val, zero, zero, zero]⟩,
      ⟨.rc20, -1, [clock - inst_prev_clock - enabler]⟩,
      ⟨.rc20, -1, [clock - fp_min_2_prev_clock - enabler]⟩,
      ⟨.rc20, -1, [clock - fp_min_1_prev_clock - enabler]⟩] }

end Ret

/-! ### `store_imm.rs` -/

namespace StoreImm

/-- One row of `write_trace` and of `write_interaction_trace`
(`crates/prover/src/components/opcodes/store_imm.rs:114-200`,
`crates/prover/src/components/opcodes/store_imm.rs:212-308`). -/
def write (enabler : M31) (x : Bundle) : Written Row :=
  let zero : M31 := 0
  let one : M31 := 1
  let pc : M31 := x.registers.pc
  let fp : M31 := x.registers.fp
  let clock : M31 := x.clock
  let inst_prev_clock : M31 := x.prevClock
  let opcode_constant : M31 := (9 : M31)
  let off0 : M31 := (instValue x 1)
  let off2 : M31 := (instValue x 2)
  let dst_prev_val : M31 := prevValue x 0
  let dst_prev_clock : M31 := accClock x 0
  { row := {
      enabler := enabler, pc := pc, fp := fp, clock := clock, inst_prev_clock := inst_prev_clock,
      off0 := off0, off2 := off2, dst_prev_clock := dst_prev_clock, dst_prev_val := dst_prev_val },
    entries := [
      ⟨.registers, -enabler, [x.registers.pc, x.registers.fp, x.clock]⟩,
      ⟨.registers, enabler, [x.registers.pc + one, x.registers.fp, x.clock + one]⟩,
      ⟨.memory, -enabler, [x.registers.pc, inst_prev_clock, opcode_constant, off0, off2, zero]⟩,
      ⟨.memory, enabler, [x.registers.pc, clock, opcode_constant, off0, off2, zero]⟩,
      ⟨.memory, -enabler, [fp + off2, dst_prev_clock, dst_prev_val, zero, zero, zero]⟩,
      ⟨.memory, enabler, [fp + off2, clock, off0, zero, zero, zero]⟩,
      ⟨.rc20, -1, [clock - inst_prev_clock - enabler]⟩,
      ⟨.rc20, -1, [clock - dst_prev_clock - enabler]⟩] }

end StoreImm

/-! ### `store_fp_fp.rs` -/

namespace StoreFpFp

/-- One row of `write_trace` and of `write_interaction_trace`
(`crates/prover/src/components/opcodes/store_fp_fp.rs:153-309`,
`crates/prover/src/components/opcodes/store_fp_fp.rs:321-479`). -/
def write (enabler : M31) (x : Bundle) : Written Row :=
  let zero : M31 := 0
  let one : M31 := 1
  let op1_inverses : M31 := invOrZero (value x 1)
  let flag : ℕ := if x.instruction.opcodeValue = 11 then 0 else x.instruction.opcodeValue - 0
  let opcode_flag_0 : M31 := (flag / 2 : ℕ)
  let opcode_flag_1 : M31 := (flag % 2 : ℕ)
  let pc : M31 := x.registers.pc
  let fp : M31 := x.registers.fp
  let clock : M31 := x.clock
  let inst_prev_clock : M31 := x.prevClock
  let opcode_id : M31 := (instValue x 0)
  let off0 : M31 := (instValue x 1)
  let off1 : M31 := (instValue x 2)
  let off2 : M31 := (instValue x 3)
  let op0_prev_clock : M31 := accClock x 0
  let op0_val : M31 := value x 0
  let op1_prev_clock : M31 := accClock x 1
  let op1_val : M31 := value x 1
  let dst_prev_clock : M31 := accClock x 2
  let dst_prev_val : M31 := prevValue x 2
  let dst_val : M31 := value x 2
  let op1_inv : M31 := op1_inverses
  let prod : M31 := op0_val * op1_val
  let div : M31 := op0_val * op1_inverses
  { row := {
      enabler := enabler, pc := pc, fp := fp, clock := clock, inst_prev_clock := inst_prev_clock,
      off0 := off0, off1 := off1, off2 := off2, op0_prev_clock := op0_prev_clock, op0_val := op0_val,
      op1_prev_clock := op1_prev_clock, op1_val := op1_val, op1_inv := op1_inv,
      dst_prev_clock := dst_prev_clock, dst_prev_val := dst_prev_val, dst_val := dst_val,
      opcode_flag_0 := opcode_flag_0, opcode_flag_1 := opcode_flag_1, prod := prod, div := div },
    entries := [
      ⟨.registers, -enabler, [x.registers.pc, x.registers.fp, x.clock]⟩,
      ⟨.registers, enabler, [x.registers.pc + one, x.registers.fp, x.clock + one]⟩,
      ⟨.memory, -enabler, [x.registers.pc, inst_prev_clock, opcode_id, off0, off1, off2]⟩,
      ⟨.memory, enabler, [x.registers.pc, clock, opcode_id, off0, off1, off2]⟩,
      ⟨.memory, -enabler, [fp + off0, op0_prev_clock, op0_val, zero, zero, zero]⟩,
      ⟨.memory, enabler, [fp + off0, clock, op0_val, zero, zero, zero]⟩,
      ⟨.memory, -enabler, [fp + off1, op1_prev_clock, op1_val, zero, zero, zero]⟩,
      ⟨.memory, enabler, [fp + off1, clock, op1_val, zero, zero, zero]⟩,
      ⟨.memory, -enabler, [fp + off2, dst_prev_clock, dst_prev_val, zero, zero, zero]⟩,
      ⟨.memory, enabler, [fp + off2, clock, dst_val, zero, zero, zero]⟩,
      ⟨.rc20, -1, [clock - inst_prev_clock - enabler]⟩,
      ⟨.rc20, -1, [clock - op0_prev_clock - enabler]⟩,
      ⟨.rc20, -1, [clock - op1_prev_clock - enabler]⟩,
      ⟨.rc20, -1, [clock - dst_prev_clock - enabler]⟩] }

end StoreFpFp

/-! ### `store_fp_imm.rs` -/

namespace StoreFpImm

/-- One row of `write_trace` and of `write_interaction_trace`
(`crates/prover/src/components/opcodes/store_fp_imm.rs:147-296`,
`crates/prover/src/components/opcodes/store_fp_imm.rs:308-440`). -/
def write (enabler : M31) (x : Bundle) : Written Row :=
  let zero : M31 := 0
  let one : M31 := 1
  let imm_inverses : M31 := invOrZero (immOf x.instruction)
  let flag : ℕ := x.instruction.opcodeValue - 4
  let opcode_flag_0 : M31 := (flag / 2 : ℕ)
  let opcode_flag_1 : M31 := (flag % 2 : ℕ)
  let pc : M31 := x.registers.pc
  let fp : M31 := x.registers.fp
  let clock : M31 := x.clock
  let inst_prev_clock : M31 := x.prevClock
  let opcode_id : M31 := (instValue x 0)
  let src_off : M31 := (instValue x 1)
  let imm : M31 := (instValue x 2)
  let dst_off : M31 := (instValue x 3)
  let src_prev_clock : M31 := accClock x 0
  let src_val : M31 := value x 0
  let dst_prev_clock : M31 := accClock x 1
  let dst_prev_val : M31 := prevValue x 1
  let dst_val : M31 := value x 1
  let prod : M31 := src_val * imm
  let div : M31 := src_val * imm_inverses
  let imm_inv : M31 := imm_inverses
  { row := {
      enabler := enabler, pc := pc, fp := fp, clock := clock, inst_prev_clock := inst_prev_clock,
      src_off := src_off, imm := imm, dst_off := dst_off, src_prev_clock := src_prev_clock,
      src_val := src_val, imm_inv := imm_inv, dst_prev_clock := dst_prev_clock,
      dst_prev_val := dst_prev_val, dst_val := dst_val, opcode_flag_0 := opcode_flag_0 * enabler,
      opcode_flag_1 := opcode_flag_1 * enabler, prod := prod, div := div },
    entries := [
      ⟨.registers, -enabler, [x.registers.pc, x.registers.fp, x.clock]⟩,
      ⟨.registers, enabler, [x.registers.pc + one, x.registers.fp, x.clock + one]⟩,
      ⟨.memory, -enabler, [x.registers.pc, inst_prev_clock, opcode_id, src_off, imm, dst_off]⟩,
      ⟨.memory, enabler, [x.registers.pc, clock, opcode_id, src_off, imm, dst_off]⟩,
      ⟨.memory, -enabler, [fp + src_off, src_prev_clock, src_val, zero, zero, zero]⟩,
      ⟨.memory, enabler, [fp + src_off, clock, src_val, zero, zero, zero]⟩,
      ⟨.memory, -enabler, [fp + dst_off, dst_prev_clock, dst_prev_val, zero, zero, zero]⟩,
      ⟨.memory, enabler, [fp + dst_off, clock, dst_val, zero, zero, zero]⟩,
      ⟨.rc20, -1, [clock - inst_prev_clock - enabler]⟩,
      ⟨.rc20, -1, [clock - src_prev_clock - enabler]⟩,
      ⟨.rc20, -1, [clock - dst_prev_clock - enabler]⟩] }

end StoreFpImm

/-! ### `double_deref_fp_imm.rs` -/

namespace DoubleDerefFpImm

/-- One row of `write_trace` and of `write_interaction_trace`
(`crates/prover/src/components/opcodes/double_deref_fp_imm.rs:135-254`,
`crates/prover/src/components/opcodes/double_deref_fp_imm.rs:266-349`). -/
def write (enabler : M31) (x : Bundle) : Written Row :=
  let zero : M31 := 0
  let one : M31 := 1
  let store_double_deref_fp : M31 := (8 : M31)
  let delta_inv : M31 := (36 : M31)⁻¹
  let pc : M31 := x.registers.pc
  let fp : M31 := x.registers.fp
  let clock : M31 := x.clock
  let inst_prev_clock : M31 := x.prevClock
  let opcode_constant : M31 := notRet 8 (instValue x 0)
  let off0 : M31 := (instValue x 1)
  let off1 : M31 := (instValue x 2)
  let off2 : M31 := (instValue x 3)
  let val0 : M31 := value x 0
  let prev_clock0 : M31 := accClock x 0
  let val1 : M31 := value x 1
  let prev_clock1 : M31 := accClock x 1
  let prev_val2 : M31 := prevValue x 2
  let prev_clock2 : M31 := accClock x 2
  let write_lhs : M31 := (opcode_constant - store_double_deref_fp) * delta_inv
  let addr1 : M31 := write_lhs * (fp + off2) + (one - write_lhs) * (val0 + off1)
  let addr2 : M31 := write_lhs * (val0 + off1) + (one - write_lhs) * (fp + off2)
  { row := {
      enabler := enabler, pc := pc, fp := fp, clock := clock, inst_prev_clock := inst_prev_clock,
      opcode_constant := opcode_constant, off0 := off0, off1 := off1, off2 := off2, val0 := val0,
      prev_clock0 := prev_clock0, addr1 := addr1, val1 := val1, prev_clock1 := prev_clock1,
      addr2 := addr2, prev_val2 := prev_val2, prev_clock2 := prev_clock2 },
    entries := [
      ⟨.registers, -enabler, [x.registers.pc, x.registers.fp, x.clock]⟩,
      ⟨.registers, enabler, [x.registers.pc + one, x.registers.fp, x.clock + one]⟩,
      ⟨.memory, -enabler, [x.registers.pc, inst_prev_clock, opcode_constant, off0, off1, off2]⟩,
      ⟨.memory, enabler, [x.registers.pc, clock, opcode_constant, off0, off1, off2]⟩,
      ⟨.memory, -enabler, [fp + off0, prev_clock0, val0, zero, zero, zero]⟩,
      ⟨.memory, enabler, [fp + off0, clock, val0, zero, zero, zero]⟩,
      ⟨.memory, -enabler, [addr1, prev_clock1, val1, zero, zero, zero]⟩,
      ⟨.memory, enabler, [addr1, clock, val1, zero, zero, zero]⟩,
      ⟨.memory, -enabler, [addr2, prev_clock2, prev_val2, zero, zero, zero]⟩,
      ⟨.memory, enabler, [addr2, clock, val1, zero, zero, zero]⟩,
      ⟨.rc20, -1, [clock - inst_prev_clock - enabler]⟩,
      ⟨.rc20, -1, [clock - prev_clock0 - enabler]⟩,
      ⟨.rc20, -1, [clock - prev_clock1 - enabler]⟩,
      ⟨.rc20, -1, [clock - prev_clock2 - enabler]⟩] }

end DoubleDerefFpImm

/-! ### `double_deref_fp_fp.rs` -/

namespace DoubleDerefFpFp

/-- One row of `write_trace` and of `write_interaction_trace`
(`crates/prover/src/components/opcodes/double_deref_fp_fp.rs:139-267`,
`crates/prover/src/components/opcodes/double_deref_fp_fp.rs:279-376`). -/
def write (enabler : M31) (x : Bundle) : Written Row :=
  let zero : M31 := 0
  let one : M31 := 1
  let store_double_deref_fp_fp : M31 := (42 : M31)
  let delta_inv : M31 := (3 : M31)⁻¹
  let pc : M31 := x.registers.pc
  let fp : M31 := x.registers.fp
  let clock : M31 := x.clock
  let inst_prev_clock : M31 := x.prevClock
  let opcode_constant : M31 := notRet 42 (instValue x 0)
  let off0 : M31 := (instValue x 1)
  let off1 : M31 := (instValue x 2)
  let off2 : M31 := (instValue x 3)
  let val0 : M31 := value x 0
  let prev_clock0 : M31 := accClock x 0
  let val1 : M31 := value x 1
  let prev_clock1 : M31 := accClock x 1
  let val2 : M31 := value x 2
  let prev_clock2 : M31 := accClock x 2
  let prev_val3 : M31 := prevValue x 3
  let prev_clock3 : M31 := accClock x 3
  let write_lhs : M31 := (opcode_constant - store_double_deref_fp_fp) * delta_inv
  let addr2 : M31 := write_lhs * (fp + off2) + (one - write_lhs) * (val0 + val1)
  let addr3 : M31 := write_lhs * (val0 + val1) + (one - write_lhs) * (fp + off2)
  { row := {
      enabler := enabler, pc := pc, fp := fp, clock := clock, inst_prev_clock := inst_prev_clock,
      opcode_constant := opcode_constant, off0 := off0, off1 := off1, off2 := off2, val0 := val0,
      prev_clock0 := prev_clock0, val1 := val1, prev_clock1 := prev_clock1, addr2 := addr2,
      val2 := val2, prev_clock2 := prev_clock2, addr3 := addr3, prev_val3 := prev_val3,
      prev_clock3 := prev_clock3 },
    entries := [
      ⟨.registers, -enabler, [x.registers.pc, x.registers.fp, x.clock]⟩,
      ⟨.registers, enabler, [x.registers.pc + one, x.registers.fp, x.clock + one]⟩,
      ⟨.memory, -enabler, [x.registers.pc, inst_prev_clock, opcode_constant, off0, off1, off2]⟩,
      ⟨.memory, enabler, [x.registers.pc, clock, opcode_constant, off0, off1, off2]⟩,
      ⟨.memory, -enabler, [fp + off0, prev_clock0, val0, zero, zero, zero]⟩,
      ⟨.memory, enabler, [fp + off0, clock, val0, zero, zero, zero]⟩,
      ⟨.memory, -enabler, [fp + off1, prev_clock1, val1, zero, zero, zero]⟩,
      ⟨.memory, enabler, [fp + off1, clock, val1, zero, zero, zero]⟩,
      ⟨.memory, -enabler, [addr2, prev_clock2, val2, zero, zero, zero]⟩,
      ⟨.memory, enabler, [addr2, clock, val2, zero, zero, zero]⟩,
      ⟨.memory, -enabler, [addr3, prev_clock3, prev_val3, zero, zero, zero]⟩,
      ⟨.memory, enabler, [addr3, clock, val2, zero, zero, zero]⟩,
      ⟨.rc20, -1, [clock - inst_prev_clock - enabler]⟩,
      ⟨.rc20, -1, [clock - prev_clock0 - enabler]⟩,
      ⟨.rc20, -1, [clock - prev_clock1 - enabler]⟩,
      ⟨.rc20, -1, [clock - prev_clock2 - enabler]⟩,
      ⟨.rc20, -1, [clock - prev_clock3 - enabler]⟩] }

end DoubleDerefFpFp

/-! ### `store_frame_pointer.rs` -/

namespace StoreFramePointer

/-- One row of `write_trace` and of `write_interaction_trace`
(`crates/prover/src/components/opcodes/store_frame_pointer.rs:114-206`,
`crates/prover/src/components/opcodes/store_frame_pointer.rs:218-314`). -/
def write (enabler : M31) (x : Bundle) : Written Row :=
  let zero : M31 := 0
  let one : M31 := 1
  let pc : M31 := x.registers.pc
  let fp : M31 := x.registers.fp
  let clock : M31 := x.clock
  let inst_prev_clock : M31 := x.prevClock
  let opcode_constant : M31 := (43 : M31)
  let imm : M31 := (instValue x 1)
  let dst_off : M31 := (instValue x 2)
  let dst_prev_val : M31 := prevValue x 0
  let dst_prev_clock : M31 := accClock x 0
  { row := {
      enabler := enabler, pc := pc, fp := fp, clock := clock, inst_prev_clock := inst_prev_clock,
      imm := imm, dst_off := dst_off, dst_prev_val := dst_prev_val, dst_prev_clock := dst_prev_clock },
    entries := [
      ⟨.registers, -enabler, [x.registers.pc, x.registers.fp, x.clock]⟩,
      ⟨.registers, enabler, [x.registers.pc + one, x.registers.fp, x.clock + one]⟩,
      ⟨.memory, -enabler, [x.registers.pc, inst_prev_clock, opcode_constant, imm, dst_off, zero]⟩,
      ⟨.memory, enabler, [x.registers.pc, clock, opcode_constant, imm, dst_off, zero]⟩,
      ⟨.memory, -enabler, [fp + dst_off, dst_prev_clock, dst_prev_val, zero, zero, zero]⟩,
      ⟨.memory, enabler, [fp + dst_off, clock, fp + imm, zero, zero, zero]⟩,
      ⟨.rc20, -1, [clock - inst_prev_clock - enabler]⟩,
      ⟨.rc20, -1, [clock - dst_prev_clock - enabler]⟩] }

end StoreFramePointer

/-! ### `store_le_fp_imm.rs` -/

namespace StoreLeFpImm

/-- One row of `write_trace` and of `write_interaction_trace`
(`crates/prover/src/components/opcodes/store_le_fp_imm.rs:196-405`,
`crates/prover/src/components/opcodes/store_le_fp_imm.rs:417-532`). -/
def write (enabler : M31) (x : Bundle) : Written Row :=
  let zero : M31 := 0
  let one : M31 := 1
  let pc : M31 := x.registers.pc
  let fp : M31 := x.registers.fp
  let clock : M31 := x.clock
  let inst_prev_clock : M31 := x.prevClock
  let opcode_constant : M31 := (48 : M31)
  let src_off : M31 := (instValue x 1)
  let imm : M31 := (instValue x 2)
  let dst_off : M31 := (instValue x 3)
  let src_val : M31 := value x 0
  let src_prev_clock : M31 := accClock x 0
  let dst_prev_val : M31 := prevValue x 1
  let dst_prev_clock : M31 := accClock x 1
  let is_le : M31 := if src_val.val ≤ imm.val then 1 else 0
  let a : M31 := if src_val.val ≤ imm.val then src_val else imm
  let b : M31 := if src_val.val ≤ imm.val then imm else src_val
  let arcs : (ℕ × ℕ) × (ℕ × ℕ) × (ℕ × ℕ) := sortedArcs a.val b.val
  let exclude : ℕ := arcs.2.2.2
  let arc_short_lo : M31 := (arcs.1.1 % 10923 : ℕ)
  let arc_short_hi : M31 := (arcs.1.1 / 10923 : ℕ)
  let arc_long_lo : M31 := (arcs.2.1.1 % 16384 : ℕ)
  let arc_long_hi : M31 := (arcs.2.1.1 / 16384 : ℕ)
  let keep_0_1 : M31 := if enabler = 1 ∧ exclude = 2 then 1 else 0
  let keep_0_2 : M31 := if enabler = 1 ∧ exclude = 1 then 1 else 0
  let keep_1_2 : M31 := if enabler = 1 ∧ exclude = 0 then 1 else 0
  { row := {
      enabler := enabler, pc := pc, fp := fp, clock := clock, inst_prev_clock := inst_prev_clock,
      src_off := src_off, imm := imm, dst_off := dst_off, src_val := src_val,
      src_prev_clock := src_prev_clock, dst_prev_val := dst_prev_val, dst_prev_clock := dst_prev_clock,
      a := a, b := b, keep_0_1 := keep_0_1, keep_0_2 := keep_0_2, keep_1_2 := keep_1_2,
      arc_short_lo := arc_short_lo, arc_short_hi := arc_short_hi, arc_long_lo := arc_long_lo,
      arc_long_hi := arc_long_hi, is_le := is_le },
    entries := [
      ⟨.registers, -enabler, [x.registers.pc, x.registers.fp, x.clock]⟩,
      ⟨.registers, enabler, [x.registers.pc + one, x.registers.fp, x.clock + one]⟩,
      ⟨.memory, -enabler, [x.registers.pc, inst_prev_clock, opcode_constant, src_off, imm, dst_off]⟩,
      ⟨.memory, enabler, [x.registers.pc, clock, opcode_constant, src_off, imm, dst_off]⟩,
      ⟨.memory, -enabler, [fp + src_off, src_prev_clock, src_val, zero, zero, zero]⟩,
      ⟨.memory, enabler, [fp + src_off, clock, src_val, zero, zero, zero]⟩,
      ⟨.memory, -enabler, [fp + dst_off, dst_prev_clock, dst_prev_val, zero, zero, zero]⟩,
      ⟨.memory, enabler, [fp + dst_off, clock, is_le, zero, zero, zero]⟩,
      ⟨.rc16, -1, [arc_short_lo]⟩,
      ⟨.rc16, -1, [arc_short_hi]⟩,
      ⟨.rc16, -1, [arc_long_lo]⟩,
      ⟨.rc16, -1, [arc_long_hi]⟩,
      ⟨.rc20, -1, [clock - inst_prev_clock - enabler]⟩,
      ⟨.rc20, -1, [clock - src_prev_clock - enabler]⟩,
      ⟨.rc20, -1, [clock - dst_prev_clock - enabler]⟩] }

end StoreLeFpImm

end Air
end CairoM
