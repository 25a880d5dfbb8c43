import Verif.AirWriteLemmas
import Verif.AirWriteArith

/-!
# Honest rows: u32 components
-/

set_option linter.unusedSimpArgs false
set_option linter.unusedVariables false

namespace CairoM
namespace Air

open Adapter (Bundle DataAccess)
open Isa

namespace U32StoreImm

theorem complete {pc fp clk ic d c0 p0 c1 p1 : M31} {y0 y1 : ℕ} (hy0 : y0 < 2 ^ 16) (hy1 : y1 < 2 ^ 16)
    
    (hi : (clk - ic - 1).val < 2 ^ 20) (h0 : (clk - c0 - 1).val < 2 ^ 20) (h1 : (clk - c1 - 1).val < 2 ^ 20) {e :
    Effect}
    (he : e = ⟨[], [(fp + d, (y0 : M31)), (fp + d + 1, (y1 : M31))], pc + 1, fp⟩) {x : Bundle}
    (hx : x = ⟨⟨pc, fp⟩, clk, .U32StoreImm (y0 : M31) (y1 : M31) d, ic, [
      ⟨fp + d, c0, p0, (y0 : M31)⟩,
      ⟨fp + d + 1, c1, p1, (y1 : M31)⟩]⟩) :
    Complete (evaluate (write 1 x).row) (write 1 x).entries x e := by

  have hrow : (write 1 x).row = {
      enabler := 1, pc := pc, fp := fp, clock := clk, inst_prev_clock := ic, imm_lo := (y0 : M31),
      imm_hi := (y1 : M31), dst_off := d, dst_prev_val_lo := p0, dst_prev_val_hi := p1, dst_prev_clock_lo := c0,
      dst_prev_clock_hi := c1 } := by
    subst hx
    simp [write, value, accessField, accClock, prevValue, address, instValue, Instruction.encode, Instruction.operands,
      Instruction.opcodeValue, M31.ofU32]
  have hent : (write 1 x).entries.map Entry.padded = (evaluate (write 1 x).row).entries.map Entry.padded := by
    rw [hrow]
    subst hx
    simp [evaluate, write, Entry.padded, Rel.arity, value, accessField, accClock, prevValue, address, instValue,
    Instruction.encode, Instruction.operands,
      Instruction.opcodeValue, M31.ofU32]
  have hperf := performs (r := (write 1 x).row) rfl
  rw [hrow] at hperf hent ⊢
  subst he
  refine ⟨?_, ?_, performs_of (fp := x.registers.fp) (pc := x.registers.pc) (c := x.clock)
    (by subst hx; exact hperf) rfl rfl ?_, hent⟩
  · simp only [Eval.Satisfied, evaluate, List.forall_mem_cons, List.not_mem_nil, false_implies, implies_true, and_true]
    simp
  · simp only [Eval.TablesHold, evaluate, List.forall_mem_cons, th_memory, th_registers, th_rc20, th_rc16, th_rc8,
      true_and, List.not_mem_nil, false_implies, implies_true, and_true]
    exact ⟨rc16_cast hy0, rc16_cast hy1, hi, h0, h1⟩
  · refine .of_eq ?_
    subst hx
    simp [accs, stepRecords, codeCells, Instruction.toQM31s, Instruction.packQM31s, QM31.ofM31, Instruction.encode,
      Instruction.operands, Instruction.opcodeValue, M31.ofU32]

theorem honest {x : Bundle} {mem : Mem} {e : Effect} {a b d : M31} (h : Honest x mem e)
    (hin : x.instruction = .U32StoreImm a b d) : Complete (evaluate (write 1 x).row) (write 1 x).entries x e := by
  obtain ⟨⟨pc, fp⟩, clk, i, ic, l⟩ := x
  obtain ⟨hs, ha, hi, hr⟩ := h
  subst hin
  simp only [sem, bin32, bin32Imm, split, Option.bind_eq_bind, Option.bind_eq_some_iff] at hs
  obtain ⟨n, hn, hd⟩ := hs
  obtain ⟨y0, y1, hy0, hy1, rfl, rfl, rfl⟩ := ofLimbs_inv hn
  rw [show (y0 + 2 ^ 16 * y1) % 2 ^ 16 = y0 by omega, show (y0 + 2 ^ 16 * y1) / 2 ^ 16 = y1 by omega] at hd
  have he := done_inv hd
  simp only [he, Effect.log, List.map_cons, List.map_nil, List.cons_append, List.nil_append] at ha
  obtain ⟨c0, p0, l0, rfl, ha0⟩ := acc_cons ha
  obtain ⟨c1, p1, l1, rfl, ha1⟩ := acc_cons ha0
  obtain rfl := acc_nil ha1
  simp only [List.forall_mem_cons] at hr
  obtain ⟨h0, h1, -⟩ := hr
  exact complete hy0 hy1 hi h0 h1 he rfl

end U32StoreImm

namespace U32StoreAddFpFp

theorem complete {pc fp clk ic a b d c0 p0 c1 p1 c2 p2 c3 p3 c4 p4 c5 p5 : M31} {x0 x1 y0 y1 w0 w1 : ℕ} (hx0 : x0 < 2
  ^ 16) (hx1 : x1 < 2 ^ 16) (hy0 : y0 < 2 ^ 16) (hy1 : y1 < 2 ^ 16)
    (hw0 : (x0 + 2 ^ 16 * x1 + (y0 + 2 ^ 16 * y1)) % 2 ^ 32 % 2 ^ 16 = w0) (hw1 : (x0 + 2 ^ 16 * x1 + (y0 + 2 ^ 16 *
    y1)) % 2 ^ 32 / 2 ^ 16 = w1)
    (hi : (clk - ic - 1).val < 2 ^ 20) (h0 : (clk - c0 - 1).val < 2 ^ 20) (h1 : (clk - c1 - 1).val < 2 ^ 20) (h2 :
    (clk - c2 - 1).val < 2 ^ 20) (h3 : (clk - c3 - 1).val < 2 ^ 20) (h4 : (clk - c4 - 1).val < 2 ^ 20) (h5 : (clk -
    c5 - 1).val < 2 ^ 20) {e : Effect}
    (he : e = ⟨[fp + a, fp + a + 1, fp + b, fp + b + 1], [(fp + d, (w0 : M31)), (fp + d + 1, (w1 : M31))], pc + 1,
    fp⟩) {x : Bundle}
    (hx : x = ⟨⟨pc, fp⟩, clk, .U32StoreAddFpFp a b d, ic, [
      ⟨fp + a, c0, p0, (x0 : M31)⟩,
      ⟨fp + a + 1, c1, p1, (x1 : M31)⟩,
      ⟨fp + b, c2, p2, (y0 : M31)⟩,
      ⟨fp + b + 1, c3, p3, (y1 : M31)⟩,
      ⟨fp + d, c4, p4, (w0 : M31)⟩,
      ⟨fp + d + 1, c5, p5, (w1 : M31)⟩]⟩) :
    Complete (evaluate (write 1 x).row) (write 1 x).entries x e := by
  obtain ⟨k0, k1, hk0, hk1, b0, b1, f0, f1, g0, g1⟩ := add_write hx0 hx1 hy0 hy1 hw0 hw1
  have hrow : (write 1 x).row = {
      enabler := 1, pc := pc, fp := fp, clock := clk, inst_prev_clock := ic, src0_off := a, src1_off := b,
      dst_off := d, op0_val_lo := (x0 : M31), op0_val_hi := (x1 : M31), op0_prev_lo_clock := c0,
      op0_prev_hi_clock := c1, op1_val_lo := (y0 : M31), op1_val_hi := (y1 : M31), op1_prev_lo_clock := c2,
      op1_prev_hi_clock := c3, dst_prev_val_lo := p4, dst_prev_val_hi := p5, dst_prev_lo_clock := c4,
      dst_prev_hi_clock := c5, u16_carry := k0, u32_carry := k1 } := by
    subst hx
    simp [write, value, accessField, accClock, prevValue, address, instValue, Instruction.encode, Instruction.operands,
      Instruction.opcodeValue, M31.ofU32, f0, f1, g0, g1]
  have hent : (write 1 x).entries.map Entry.padded = (evaluate (write 1 x).row).entries.map Entry.padded := by
    rw [hrow]
    subst hx
    simp [evaluate, write, Entry.padded, Rel.arity, value, accessField, accClock, prevValue, address, instValue,
    Instruction.encode, Instruction.operands,
      Instruction.opcodeValue, M31.ofU32, f0, f1, g0, g1]
  have hperf := performs (r := (write 1 x).row) rfl
  rw [hrow] at hperf hent ⊢
  subst he
  refine ⟨?_, ?_, performs_of (fp := x.registers.fp) (pc := x.registers.pc) (c := x.clock)
    (by subst hx; exact hperf) rfl rfl ?_, hent⟩
  · simp only [Eval.Satisfied, evaluate, List.forall_mem_cons, List.not_mem_nil, false_implies, implies_true, and_true]
    exact ⟨by simp, bit_cast hk0, bit_cast hk1⟩
  · simp only [Eval.TablesHold, evaluate, List.forall_mem_cons, th_memory, th_registers, th_rc20, th_rc16, th_rc8,
      true_and, List.not_mem_nil, false_implies, implies_true, and_true, f0, f1, g0, g1]
    exact ⟨rc16_cast hx0, rc16_cast hx1, rc16_cast hy0, rc16_cast hy1, rc16_cast b0, rc16_cast b1, hi, h0, h1, h2,
    h3, h4, h5⟩
  · refine .of_eq ?_
    subst hx
    simp [accs, stepRecords, codeCells, Instruction.toQM31s, Instruction.packQM31s, QM31.ofM31, Instruction.encode,
      Instruction.operands, Instruction.opcodeValue, M31.ofU32, f0, f1, g0, g1]

theorem honest {x : Bundle} {mem : Mem} {e : Effect} {a b d : M31} (h : Honest x mem e)
    (hin : x.instruction = .U32StoreAddFpFp a b d) : Complete (evaluate (write 1 x).row) (write 1 x).entries x e := by
  obtain ⟨⟨pc, fp⟩, clk, i, ic, l⟩ := x
  obtain ⟨hs, ha, hi, hr⟩ := h
  subst hin
  simp only [sem, bin32, bin32Imm, split, Option.bind_eq_bind, Option.bind_eq_some_iff] at hs
  obtain ⟨m, hm, n, hn, hd⟩ := hs
  obtain ⟨x0, x1, hx0, hx1, mx0, mx1, rfl⟩ := u32_inv hm
  obtain ⟨y0, y1, hy0, hy1, my0, my1, rfl⟩ := u32_inv hn
  have he := done_inv hd
  simp only [he, Effect.log, List.map_cons, List.map_nil, List.cons_append, List.nil_append, mx0, mx1, my0, my1] at ha
  obtain ⟨c0, p0, l0, rfl, ha0⟩ := acc_cons ha
  obtain ⟨c1, p1, l1, rfl, ha1⟩ := acc_cons ha0
  obtain ⟨c2, p2, l2, rfl, ha2⟩ := acc_cons ha1
  obtain ⟨c3, p3, l3, rfl, ha3⟩ := acc_cons ha2
  obtain ⟨c4, p4, l4, rfl, ha4⟩ := acc_cons ha3
  obtain ⟨c5, p5, l5, rfl, ha5⟩ := acc_cons ha4
  obtain rfl := acc_nil ha5
  simp only [List.forall_mem_cons] at hr
  obtain ⟨h0, h1, h2, h3, h4, h5, -⟩ := hr
  exact complete hx0 hx1 hy0 hy1 rfl rfl hi h0 h1 h2 h3 h4 h5 he rfl

end U32StoreAddFpFp

namespace U32StoreLtFpFp

theorem complete {pc fp clk ic a b d c0 p0 c1 p1 c2 p2 c3 p3 c4 p4 : M31} {x0 x1 y0 y1 : ℕ} (hx0 : x0 < 2 ^ 16) (hx1
  : x1 < 2 ^ 16) (hy0 : y0 < 2 ^ 16) (hy1 : y1 < 2 ^ 16)
    
    (hi : (clk - ic - 1).val < 2 ^ 20) (h0 : (clk - c0 - 1).val < 2 ^ 20) (h1 : (clk - c1 - 1).val < 2 ^ 20) (h2 :
    (clk - c2 - 1).val < 2 ^ 20) (h3 : (clk - c3 - 1).val < 2 ^ 20) (h4 : (clk - c4 - 1).val < 2 ^ 20) {e : Effect}
    (he : e = ⟨[fp + a, fp + a + 1, fp + b, fp + b + 1], [(fp + d, bit (x0 + 2 ^ 16 * x1 < y0 + 2 ^ 16 * y1))], pc +
    1, fp⟩) {x : Bundle}
    (hx : x = ⟨⟨pc, fp⟩, clk, .U32StoreLtFpFp a b d, ic, [
      ⟨fp + a, c0, p0, (x0 : M31)⟩,
      ⟨fp + a + 1, c1, p1, (x1 : M31)⟩,
      ⟨fp + b, c2, p2, (y0 : M31)⟩,
      ⟨fp + b + 1, c3, p3, (y1 : M31)⟩,
      ⟨fp + d, c4, p4, bit (x0 + 2 ^ 16 * x1 < y0 + 2 ^ 16 * y1)⟩]⟩) :
    Complete (evaluate (write 1 x).row) (write 1 x).entries x e := by
  obtain ⟨k0, k1, hk0, hk1, f0, f1, g0, g1, g2⟩ := lt_write hx0 hx1 hy0 hy1
  have hrow : (write 1 x).row = {
      enabler := 1, pc := pc, fp := fp, clock := clk, inst_prev_clock := ic, src0_off := a, src1_off := b,
      dst_off := d, op0_val_lo := (x0 : M31), op0_val_hi := (x1 : M31), op0_prev_clock_lo := c0,
      op0_prev_clock_hi := c1, op1_val_lo := (y0 : M31), op1_val_hi := (y1 : M31), op1_prev_clock_lo := c2,
      op1_prev_clock_hi := c3, dst_prev_val := p4, dst_prev_clock := c4, borrow_lo := k0, borrow_hi := k1 } := by
    subst hx
    simp [write, value, accessField, accClock, prevValue, address, instValue, Instruction.encode, Instruction.operands,
      Instruction.opcodeValue, M31.ofU32, f0, f1, g2]
  have hent : (write 1 x).entries.map Entry.padded = (evaluate (write 1 x).row).entries.map Entry.padded := by
    rw [hrow]
    subst hx
    simp [evaluate, write, Entry.padded, Rel.arity, value, accessField, accClock, prevValue, address, instValue,
    Instruction.encode, Instruction.operands,
      Instruction.opcodeValue, M31.ofU32, f0, f1, g2]
  have hperf := performs (r := (write 1 x).row) rfl
  rw [hrow] at hperf hent ⊢
  subst he
  refine ⟨?_, ?_, performs_of (fp := x.registers.fp) (pc := x.registers.pc) (c := x.clock)
    (by subst hx; exact hperf) rfl rfl ?_, hent⟩
  · simp only [Eval.Satisfied, evaluate, List.forall_mem_cons, List.not_mem_nil, false_implies, implies_true, and_true]
    exact ⟨by simp, bit_cast hk0, bit_cast hk1⟩
  · simp only [Eval.TablesHold, evaluate, List.forall_mem_cons, th_memory, th_registers, th_rc20, th_rc16, th_rc8,
      true_and, List.not_mem_nil, false_implies, implies_true, and_true, f0, f1, g2]
    exact ⟨rc16_cast hx0, rc16_cast hx1, rc16_cast hy0, rc16_cast hy1, g0, g1, hi, h0, h1, h2, h3, h4⟩
  · refine .of_eq ?_
    subst hx
    simp [accs, stepRecords, codeCells, Instruction.toQM31s, Instruction.packQM31s, QM31.ofM31, Instruction.encode,
      Instruction.operands, Instruction.opcodeValue, M31.ofU32, f0, f1, g2]

theorem honest {x : Bundle} {mem : Mem} {e : Effect} {a b d : M31} (h : Honest x mem e)
    (hin : x.instruction = .U32StoreLtFpFp a b d) : Complete (evaluate (write 1 x).row) (write 1 x).entries x e := by
  obtain ⟨⟨pc, fp⟩, clk, i, ic, l⟩ := x
  obtain ⟨hs, ha, hi, hr⟩ := h
  subst hin
  simp only [sem, bin32, bin32Imm, split, Option.bind_eq_bind, Option.bind_eq_some_iff] at hs
  obtain ⟨m, hm, n, hn, hd⟩ := hs
  obtain ⟨x0, x1, hx0, hx1, mx0, mx1, rfl⟩ := u32_inv hm
  obtain ⟨y0, y1, hy0, hy1, my0, my1, rfl⟩ := u32_inv hn
  have he := done_inv hd
  simp only [he, Effect.log, List.map_cons, List.map_nil, List.cons_append, List.nil_append, mx0, mx1, my0, my1] at ha
  obtain ⟨c0, p0, l0, rfl, ha0⟩ := acc_cons ha
  obtain ⟨c1, p1, l1, rfl, ha1⟩ := acc_cons ha0
  obtain ⟨c2, p2, l2, rfl, ha2⟩ := acc_cons ha1
  obtain ⟨c3, p3, l3, rfl, ha3⟩ := acc_cons ha2
  obtain ⟨c4, p4, l4, rfl, ha4⟩ := acc_cons ha3
  obtain rfl := acc_nil ha4
  simp only [List.forall_mem_cons] at hr
  obtain ⟨h0, h1, h2, h3, h4, -⟩ := hr
  exact complete hx0 hx1 hy0 hy1 hi h0 h1 h2 h3 h4 he rfl

end U32StoreLtFpFp

namespace U32StoreMulFpFp

theorem complete {pc fp clk ic a b d c0 p0 c1 p1 c2 p2 c3 p3 c4 p4 c5 p5 : M31} {x0 x1 y0 y1 w0 w1 : ℕ} (hx0 : x0 < 2
  ^ 16) (hx1 : x1 < 2 ^ 16) (hy0 : y0 < 2 ^ 16) (hy1 : y1 < 2 ^ 16)
    (hw0 : (x0 + 2 ^ 16 * x1) * (y0 + 2 ^ 16 * y1) % 2 ^ 32 % 2 ^ 16 = w0) (hw1 : (x0 + 2 ^ 16 * x1) * (y0 + 2 ^ 16 *
    y1) % 2 ^ 32 / 2 ^ 16 = w1)
    (hi : (clk - ic - 1).val < 2 ^ 20) (h0 : (clk - c0 - 1).val < 2 ^ 20) (h1 : (clk - c1 - 1).val < 2 ^ 20) (h2 :
    (clk - c2 - 1).val < 2 ^ 20) (h3 : (clk - c3 - 1).val < 2 ^ 20) (h4 : (clk - c4 - 1).val < 2 ^ 20) (h5 : (clk -
    c5 - 1).val < 2 ^ 20) {e : Effect}
    (he : e = ⟨[fp + a, fp + a + 1, fp + b, fp + b + 1], [(fp + d, (w0 : M31)), (fp + d + 1, (w1 : M31))], pc + 1,
    fp⟩) {x : Bundle}
    (hx : x = ⟨⟨pc, fp⟩, clk, .U32StoreMulFpFp a b d, ic, [
      ⟨fp + a, c0, p0, (x0 : M31)⟩,
      ⟨fp + a + 1, c1, p1, (x1 : M31)⟩,
      ⟨fp + b, c2, p2, (y0 : M31)⟩,
      ⟨fp + b + 1, c3, p3, (y1 : M31)⟩,
      ⟨fp + d, c4, p4, (w0 : M31)⟩,
      ⟨fp + d + 1, c5, p5, (w1 : M31)⟩]⟩) :
    Complete (evaluate (write 1 x).row) (write 1 x).entries x e := by
  obtain ⟨u0, u1, hu0, hu1, eu0⟩ := bytes_of hx0
  obtain ⟨u2, u3, hu2, hu3, eu2⟩ := bytes_of hx1
  obtain ⟨lu0, mu0, su0⟩ := low_of eu0 hu0 hu1
  obtain ⟨lu2, mu2, su2⟩ := low_of eu2 hu2 hu3
  obtain ⟨v0, v1, hv0, hv1, ev0⟩ := bytes_of hy0
  obtain ⟨v2, v3, hv2, hv3, ev2⟩ := bytes_of hy1
  obtain ⟨lv0, mv0, sv0⟩ := low_of ev0 hv0 hv1
  obtain ⟨lv2, mv2, sv2⟩ := low_of ev2 hv2 hv3
  obtain ⟨r0, r1, r2, r3, k0, k1, k2, k3, hr0, hr1, hr2, hr3, b0, b1, b2, b3, f0, f1, f2, f3, g0, g1, g2, g3, hm⟩ :=
    mul_write hu0 hu1 hu2 hu3 hv0 hv1 hv2 hv3
  have hs0 := byte_sum (l := r0) (h := r1) (s := w0) (by rw [← hw0, eu0, eu2, ev0, ev2, hm]; omega)
  have hs1 := byte_sum (l := r2) (h := r3) (s := w1) (by rw [← hw1, eu0, eu2, ev0, ev2, hm]; omega)
  have hrow : (write 1 x).row = {
      enabler := 1, pc := pc, fp := fp, clock := clk, inst_prev_clock := ic, src0_off := a, src1_off := b,
      dst_off := d, op0_0 := u0, op0_1 := u1, op0_2 := u2, op0_3 := u3, op0_prev_clock_lo := c0,
      op0_prev_clock_hi := c1, op1_0 := v0, op1_1 := v1, op1_2 := v2, op1_3 := v3, op1_prev_clock_lo := c2,
      op1_prev_clock_hi := c3, dst_prev_val_lo := p4, dst_prev_val_hi := p5, dst_prev_clock_lo := c4,
      dst_prev_clock_hi := c5, res_0 := r0, res_1 := r1, res_2 := r2, res_3 := r3, carry_0 := k0, carry_1 := k1,
      carry_2 := k2, carry_3 := k3 } := by
    subst hx
    simp [write, value, accessField, accClock, prevValue, address, instValue, Instruction.encode, Instruction.operands,
      Instruction.opcodeValue, M31.ofU32, lu0, mu0, su0, lu2, mu2, su2, lv0, mv0, sv0, lv2, mv2, sv2, byte_sum eu0,
      byte_sum eu2, byte_sum ev0, byte_sum ev2, f0, f1, f2, f3, g0, g1, g2, g3, hs0, hs1]
  have hent : (write 1 x).entries.map Entry.padded = (evaluate (write 1 x).row).entries.map Entry.padded := by
    rw [hrow]
    subst hx
    simp [evaluate, write, Entry.padded, Rel.arity, value, accessField, accClock, prevValue, address, instValue,
    Instruction.encode, Instruction.operands,
      Instruction.opcodeValue, M31.ofU32, lu0, mu0, su0, lu2, mu2, su2, lv0, mv0, sv0, lv2, mv2, sv2, byte_sum eu0,
      byte_sum eu2, byte_sum ev0, byte_sum ev2, f0, f1, f2, f3, g0, g1, g2, g3, hs0, hs1]
  have hperf := performs (r := (write 1 x).row) rfl
  rw [hrow] at hperf hent ⊢
  subst he
  refine ⟨?_, ?_, performs_of (fp := x.registers.fp) (pc := x.registers.pc) (c := x.clock)
    (by subst hx; exact hperf) rfl rfl ?_, hent⟩
  · simp only [Eval.Satisfied, evaluate, List.forall_mem_cons, List.not_mem_nil, false_implies, implies_true,
    and_true, g0, g1, g2, g3]
    refine ⟨?_, ?_, ?_, ?_, ?_⟩ <;> simp
  · simp only [Eval.TablesHold, evaluate, List.forall_mem_cons, th_memory, th_registers, th_rc20, th_rc16, th_rc8,
      true_and, List.not_mem_nil, false_implies, implies_true, and_true, lu0, mu0, su0, lu2, mu2, su2, lv0, mv0, sv0,
      lv2, mv2, sv2, byte_sum eu0, byte_sum eu2, byte_sum ev0, byte_sum ev2, f0, f1, f2, f3, g0, g1, g2, g3, hs0, hs1]
    exact ⟨rc8_cast hu0, rc8_cast hu1, rc8_cast hu2, rc8_cast hu3, rc8_cast hv0, rc8_cast hv1, rc8_cast hv2, rc8_cast
    hv3, rc8_cast hr0, rc8_cast hr1, rc8_cast hr2, rc8_cast hr3, rc_sub (n := 254) (by norm_num) b0 (by norm_num),
    rc_sub (n := 509) (by norm_num) b1 (by norm_num), rc_sub (n := 764) (by norm_num) b2 (by norm_num), rc_sub (n :=
    1019) (by norm_num) b3 (by norm_num), hi, h0, h1, h4, h5⟩
  · refine .of_eq ?_
    subst hx
    simp [accs, stepRecords, codeCells, Instruction.toQM31s, Instruction.packQM31s, QM31.ofM31, Instruction.encode,
      Instruction.operands, Instruction.opcodeValue, M31.ofU32, lu0, mu0, su0, lu2, mu2, su2, lv0, mv0, sv0, lv2,
      mv2, sv2, byte_sum eu0, byte_sum eu2, byte_sum ev0, byte_sum ev2, f0, f1, f2, f3, g0, g1, g2, g3, hs0, hs1]

theorem honest {x : Bundle} {mem : Mem} {e : Effect} {a b d : M31} (h : Honest x mem e)
    (hin : x.instruction = .U32StoreMulFpFp a b d) : Complete (evaluate (write 1 x).row) (write 1 x).entries x e := by
  obtain ⟨⟨pc, fp⟩, clk, i, ic, l⟩ := x
  obtain ⟨hs, ha, hi, hr⟩ := h
  subst hin
  simp only [sem, bin32, bin32Imm, split, Option.bind_eq_bind, Option.bind_eq_some_iff] at hs
  obtain ⟨m, hm, n, hn, hd⟩ := hs
  obtain ⟨x0, x1, hx0, hx1, mx0, mx1, rfl⟩ := u32_inv hm
  obtain ⟨y0, y1, hy0, hy1, my0, my1, rfl⟩ := u32_inv hn
  have he := done_inv hd
  simp only [he, Effect.log, List.map_cons, List.map_nil, List.cons_append, List.nil_append, mx0, mx1, my0, my1] at ha
  obtain ⟨c0, p0, l0, rfl, ha0⟩ := acc_cons ha
  obtain ⟨c1, p1, l1, rfl, ha1⟩ := acc_cons ha0
  obtain ⟨c2, p2, l2, rfl, ha2⟩ := acc_cons ha1
  obtain ⟨c3, p3, l3, rfl, ha3⟩ := acc_cons ha2
  obtain ⟨c4, p4, l4, rfl, ha4⟩ := acc_cons ha3
  obtain ⟨c5, p5, l5, rfl, ha5⟩ := acc_cons ha4
  obtain rfl := acc_nil ha5
  simp only [List.forall_mem_cons] at hr
  obtain ⟨h0, h1, h2, h3, h4, h5, -⟩ := hr
  exact complete hx0 hx1 hy0 hy1 rfl rfl hi h0 h1 h2 h3 h4 h5 he rfl

end U32StoreMulFpFp

namespace U32StoreDivFpFp

theorem complete {pc fp clk ic a b d r c0 p0 c1 p1 c2 p2 c3 p3 c4 p4 c5 p5 c6 p6 c7 p7 : M31} {x0 x1 y0 y1 w0 w1 w2
  w3 : ℕ} (hx0 : x0 < 2 ^ 16) (hx1 : x1 < 2 ^ 16) (hy0 : y0 < 2 ^ 16) (hy1 : y1 < 2 ^ 16)
    (hy : y0 + 2 ^ 16 * y1 ≠ 0) (hw0 : (x0 + 2 ^ 16 * x1) / (y0 + 2 ^ 16 * y1) % 2 ^ 16 = w0) (hw1 : (x0 + 2 ^ 16 *
    x1) / (y0 + 2 ^ 16 * y1) / 2 ^ 16 = w1)
    (hw2 : (x0 + 2 ^ 16 * x1) % (y0 + 2 ^ 16 * y1) % 2 ^ 16 = w2) (hw3 : (x0 + 2 ^ 16 * x1) % (y0 + 2 ^ 16 * y1) / 2
    ^ 16 = w3)
    (hi : (clk - ic - 1).val < 2 ^ 20) (h0 : (clk - c0 - 1).val < 2 ^ 20) (h1 : (clk - c1 - 1).val < 2 ^ 20) (h2 :
    (clk - c2 - 1).val < 2 ^ 20) (h3 : (clk - c3 - 1).val < 2 ^ 20) (h4 : (clk - c4 - 1).val < 2 ^ 20) (h5 : (clk -
    c5 - 1).val < 2 ^ 20) (h6 : (clk - c6 - 1).val < 2 ^ 20) (h7 : (clk - c7 - 1).val < 2 ^ 20) {e : Effect}
    (he : e = ⟨[fp + a, fp + a + 1, fp + b, fp + b + 1], [(fp + d, (w0 : M31)), (fp + d + 1, (w1 : M31)), (fp + r,
    (w2 : M31)), (fp + r + 1, (w3 : M31))], pc + 2, fp⟩) {x : Bundle}
    (hx : x = ⟨⟨pc, fp⟩, clk, .U32StoreDivRemFpFp a b d r, ic, [
      ⟨fp + a, c0, p0, (x0 : M31)⟩,
      ⟨fp + a + 1, c1, p1, (x1 : M31)⟩,
      ⟨fp + b, c2, p2, (y0 : M31)⟩,
      ⟨fp + b + 1, c3, p3, (y1 : M31)⟩,
      ⟨fp + d, c4, p4, (w0 : M31)⟩,
      ⟨fp + d + 1, c5, p5, (w1 : M31)⟩,
      ⟨fp + r, c6, p6, (w2 : M31)⟩,
      ⟨fp + r + 1, c7, p7, (w3 : M31)⟩]⟩) :
    Complete (evaluate (write 1 x).row) (write 1 x).entries x e := by
  have hxx : x0 + 2 ^ 16 * x1 < 2 ^ 32 := by omega
  have hq : (x0 + 2 ^ 16 * x1) / (y0 + 2 ^ 16 * y1) < 2 ^ 32 := (Nat.div_le_self _ _).trans_lt hxx
  have hr : (x0 + 2 ^ 16 * x1) % (y0 + 2 ^ 16 * y1) < 2 ^ 32 := (Nat.mod_le _ _).trans_lt hxx
  have hw00 : w0 < 2 ^ 16 := by omega
  have hw11 : w1 < 2 ^ 16 := by omega
  have hw22 : w2 < 2 ^ 16 := by omega
  have hw33 : w3 < 2 ^ 16 := by omega
  obtain ⟨u0, u1, hu0, hu1, eu0⟩ := bytes_of hw00
  obtain ⟨u2, u3, hu2, hu3, eu2⟩ := bytes_of hw11
  obtain ⟨lu0, mu0, su0⟩ := low_of eu0 hu0 hu1
  obtain ⟨lu2, mu2, su2⟩ := low_of eu2 hu2 hu3
  obtain ⟨v0, v1, hv0, hv1, ev0⟩ := bytes_of hy0
  obtain ⟨v2, v3, hv2, hv3, ev2⟩ := bytes_of hy1
  obtain ⟨lv0, mv0, sv0⟩ := low_of ev0 hv0 hv1
  obtain ⟨lv2, mv2, sv2⟩ := low_of ev2 hv2 hv3
  have hdm := Nat.div_add_mod (x0 + 2 ^ 16 * x1) (y0 + 2 ^ 16 * y1)
  have hlt := Nat.mod_lt (x0 + 2 ^ 16 * x1) (Nat.pos_of_ne_zero hy)
  have hQ : (x0 + 2 ^ 16 * x1) / (y0 + 2 ^ 16 * y1) = w0 + 2 ^ 16 * w1 := by omega
  have hR : (x0 + 2 ^ 16 * x1) % (y0 + 2 ^ 16 * y1) = w2 + 2 ^ 16 * w3 := by omega
  have hj : divMod (joined (x0 : M31) (x1 : M31)) (joined (y0 : M31) (y1 : M31)) = (w0 + 2 ^ 16 * w1, w2 + 2 ^ 16 *
    w3) := by
    rw [joined_cast hx0 hx1, joined_cast hy0 hy1, divMod, if_neg hy, hQ, hR]
  have j0 : w0 % 65536 = w0 := by omega
  have j1 : (w0 + 65536 * w1) / 65536 = w1 := by omega
  have j2 : w2 % 65536 = w2 := by omega
  have j3 : (w2 + 65536 * w3) / 65536 = w3 := by omega
  have j4 : w1 % 65536 = w1 := by omega
  have j5 : w3 % 65536 = w3 := by omega
  have z0 : shr8 (0 : M31) = 0 := by decide
  have z1 : over16 (0 : M31) = 0 := by decide
  rw [hQ, hR] at hdm
  rw [hR] at hlt
  obtain ⟨t0, t1, t2, t3, k0, k1, k2, a0, b0, ht0, ht1, ht2, ht3, hk0, hk1, hk2, ha0, hb0, f0, f1, f2, f3, g0, g1,
    g2, g3, g4,
    g5, g6, o0, o1, n0, n1, i0, i1, i2, i3⟩ := div_write (n0 := x0) (n1 := x1) (s0 := w2) (s1 := w3) hv0 hv1 hv2 hv3
    hu0 hu1
    hu2 hu3 hx0 hx1 hw22 hw33 (by rw [← eu0, ← eu2, ← ev0, ← ev2]; rw [← hdm, Nat.mul_comm (y0 + 2 ^ 16 * y1)]) (by
    rw [← ev0, ← ev2]; exact hlt)
  rw [g3] at f3
  have hrow : (write 1 x).row = {
      enabler := 1, pc := pc, fp := fp, clock := clk, inst_prev_clock := ic, src0_off := a, src1_off := b,
      dst_off := d, dst_rem_off := r, n_lo := (x0 : M31), n_hi := (x1 : M31), op0_prev_clock_lo := c0,
      op0_prev_clock_hi := c1, d_0 := v0, d_1 := v1, d_2 := v2, d_3 := v3, op1_prev_clock_lo := c2,
      op1_prev_clock_hi := c3, dst_prev_val_lo := p4, dst_prev_val_hi := p5, dst_prev_clock_lo := c4,
      dst_prev_clock_hi := c5, dst_rem_prev_val_lo := p6, dst_rem_prev_val_hi := p7, dst_rem_prev_clock_lo := c6,
      dst_rem_prev_clock_hi := c7, q_0 := u0, q_1 := u1, q_2 := u2, q_3 := u3, mul_carry_0 := k0,
      mul_carry_1 := k1, mul_carry_2 := k2, mul_carry_3 := 0, mul_carry_4 := 0, mul_carry_5 := 0, mul_carry_6 := 0,
      prod_0 := t0, prod_1 := t1, prod_2 := t2, prod_3 := t3, prod_4 := 0, prod_5 := 0, prod_6 := 0, prod_7 := 0,
      add_carry_0 := a0, add_carry_1 := 0, add_carry_2 := 0, add_carry_3 := 0, sub_borrow_0 := b0,
      sub_borrow_1 := 0, r_lo := w2, r_hi := w3 } := by
    subst hx
    simp [write, value, accessField, accClock, prevValue, address, instValue, Instruction.encode, Instruction.operands,
      Instruction.opcodeValue, M31.ofU32, lu0, mu0, su0, lu2, mu2, su2, lv0, mv0, sv0, lv2, mv2, sv2, byte_sum eu0,
      byte_sum eu2, byte_sum ev0, byte_sum ev2, hj, j0, j1, j2, j3, j4, j5, f0, f1, f2, f3, g0, g1, g2, g3, g4, g5,
      g6, o0, o1, i0, i1, z0, z1]
  have hent : (write 1 x).entries.map Entry.padded = (evaluate (write 1 x).row).entries.map Entry.padded := by
    rw [hrow]
    subst hx
    simp [evaluate, write, Entry.padded, Rel.arity, value, accessField, accClock, prevValue, address, instValue,
    Instruction.encode, Instruction.operands,
      Instruction.opcodeValue, M31.ofU32, lu0, mu0, su0, lu2, mu2, su2, lv0, mv0, sv0, lv2, mv2, sv2, byte_sum eu0,
      byte_sum eu2, byte_sum ev0, byte_sum ev2, hj, j0, j1, j2, j3, j4, j5, f0, f1, f2, f3, g0, g1, g2, g3, g4, g5,
      g6, o0, o1, i0, i1, z0, z1]
  have hperf := performs (r := (write 1 x).row) rfl
  rw [hrow] at hperf hent ⊢
  subst he
  refine ⟨?_, ?_, performs_of (fp := x.registers.fp) (pc := x.registers.pc) (c := x.clock)
    (by subst hx; exact hperf) (num9 pc) rfl ?_, hent⟩
  · simp only [Eval.Satisfied, evaluate, List.forall_mem_cons, List.not_mem_nil, false_implies, implies_true, and_true]
    refine ⟨?_, ?_, ?_, ?_, ?_, ?_, ?_, ?_, ?_, ?_, ?_, ?_, ?_, ?_, ?_, ?_, ?_, ?_, ?_⟩ <;> simp [-mul_eq_zero,
    bit_cast ha0, bit_cast hb0, g0, g1, g2, g3, g4, g5, g6, ← n0, ← n1]
  · simp only [Eval.TablesHold, evaluate, List.forall_mem_cons, th_memory, th_registers, th_rc20, th_rc16, th_rc8,
      true_and, List.not_mem_nil, false_implies, implies_true, and_true, lu0, mu0, su0, lu2, mu2, su2, lv0, mv0, sv0,
      lv2, mv2, sv2, byte_sum eu0, byte_sum eu2, byte_sum ev0, byte_sum ev2, hj, j0, j1, j2, j3, j4, j5, f0, f1, f2,
      f3, g0, g1, g2, g3, g4, g5, g6, o0, o1, i0, i1, z0, z1]
    exact ⟨rc8_cast hv0, rc8_cast hv1, rc8_cast hv2, rc8_cast hv3, rc8_cast hu0, rc8_cast hu1, rc8_cast hu2, rc8_cast
    hu3, rc8_cast ht0, rc8_cast ht1, rc8_cast ht2, rc8_cast ht3, rc8_zero, rc8_zero, rc8_zero, rc8_zero, rc16_cast
    hx0, rc16_cast hx1, rc16_cast hw22, rc16_cast hw33, rc_sub (n := 254) (by norm_num) hk0 (by norm_num), rc_sub (n
    := 509) (by norm_num) hk1 (by norm_num), rc_sub (n := 764) (by norm_num) hk2 (by norm_num), by decide, by decide,
    by decide, by decide, by simpa only [byte_sum ev0] using i2, by simpa only [byte_sum ev2, zero_mul, add_zero]
    using i3, hi, h0, h1, h4, h5, h6, h7⟩
  · refine .of_eq ?_
    subst hx
    simp [accs, stepRecords, codeCells, Instruction.toQM31s, Instruction.packQM31s, QM31.ofM31, Instruction.encode,
      Instruction.operands, Instruction.opcodeValue, M31.ofU32, lu0, mu0, su0, lu2, mu2, su2, lv0, mv0, sv0, lv2,
      mv2, sv2, byte_sum eu0, byte_sum eu2, byte_sum ev0, byte_sum ev2, hj, j0, j1, j2, j3, j4, j5, f0, f1, f2, f3,
      g0, g1, g2, g3, g4, g5, g6, o0, o1, i0, i1, z0, z1]

theorem honest {x : Bundle} {mem : Mem} {e : Effect} {a b d r : M31} (h : Honest x mem e)
    (hin : x.instruction = .U32StoreDivRemFpFp a b d r) : Complete (evaluate (write 1 x).row) (write 1 x).entries x e
    := by
  obtain ⟨⟨pc, fp⟩, clk, i, ic, l⟩ := x
  obtain ⟨hs, ha, hi, hr⟩ := h
  subst hin
  simp only [sem, bin32, bin32Imm, split, Option.bind_eq_bind, Option.bind_eq_some_iff] at hs
  obtain ⟨m, hm, n, hn, hd⟩ := hs
  obtain ⟨x0, x1, hx0, hx1, mx0, mx1, rfl⟩ := u32_inv hm
  obtain ⟨y0, y1, hy0, hy1, my0, my1, rfl⟩ := u32_inv hn
  split at hd
  · simp at hd
  rename_i hz
  have he := done_inv hd
  simp only [he, Effect.log, List.map_cons, List.map_nil, List.cons_append, List.nil_append, mx0, mx1, my0, my1] at ha
  obtain ⟨c0, p0, l0, rfl, ha0⟩ := acc_cons ha
  obtain ⟨c1, p1, l1, rfl, ha1⟩ := acc_cons ha0
  obtain ⟨c2, p2, l2, rfl, ha2⟩ := acc_cons ha1
  obtain ⟨c3, p3, l3, rfl, ha3⟩ := acc_cons ha2
  obtain ⟨c4, p4, l4, rfl, ha4⟩ := acc_cons ha3
  obtain ⟨c5, p5, l5, rfl, ha5⟩ := acc_cons ha4
  obtain ⟨c6, p6, l6, rfl, ha6⟩ := acc_cons ha5
  obtain ⟨c7, p7, l7, rfl, ha7⟩ := acc_cons ha6
  obtain rfl := acc_nil ha7
  simp only [List.forall_mem_cons] at hr
  obtain ⟨h0, h1, h2, h3, h4, h5, h6, h7, -⟩ := hr
  exact complete hx0 hx1 hy0 hy1 hz rfl rfl rfl rfl hi h0 h1 h2 h3 h4 h5 h6 h7 he rfl

end U32StoreDivFpFp

namespace U32StoreBitwiseFpFp

theorem complete_and {pc fp clk ic a b d c0 p0 c1 p1 c2 p2 c3 p3 c4 p4 c5 p5 : M31} {x0 x1 y0 y1 w0 w1 : ℕ} (hx0 : x0
  < 2 ^ 16) (hx1 : x1 < 2 ^ 16) (hy0 : y0 < 2 ^ 16) (hy1 : y1 < 2 ^ 16)
    (hw0 : bitwiseOp 0 (x0 + 2 ^ 16 * x1) (y0 + 2 ^ 16 * y1) % 2 ^ 16 = w0) (hw1 : bitwiseOp 0 (x0 + 2 ^ 16 * x1) (y0
    + 2 ^ 16 * y1) / 2 ^ 16 = w1)
    (hi : (clk - ic - 1).val < 2 ^ 20) (h0 : (clk - c0 - 1).val < 2 ^ 20) (h1 : (clk - c1 - 1).val < 2 ^ 20) (h2 :
    (clk - c2 - 1).val < 2 ^ 20) (h3 : (clk - c3 - 1).val < 2 ^ 20) (h4 : (clk - c4 - 1).val < 2 ^ 20) (h5 : (clk -
    c5 - 1).val < 2 ^ 20) {e : Effect}
    (he : e = ⟨[fp + a, fp + a + 1, fp + b, fp + b + 1], [(fp + d, (w0 : M31)), (fp + d + 1, (w1 : M31))], pc + 1,
    fp⟩) {x : Bundle}
    (hx : x = ⟨⟨pc, fp⟩, clk, .U32StoreAndFpFp a b d, ic, [
      ⟨fp + a, c0, p0, (x0 : M31)⟩,
      ⟨fp + a + 1, c1, p1, (x1 : M31)⟩,
      ⟨fp + b, c2, p2, (y0 : M31)⟩,
      ⟨fp + b + 1, c3, p3, (y1 : M31)⟩,
      ⟨fp + d, c4, p4, (w0 : M31)⟩,
      ⟨fp + d + 1, c5, p5, (w1 : M31)⟩]⟩) :
    Complete (evaluate (write 1 x).row) (write 1 x).entries x e := by
  obtain ⟨u0, u1, hu0, hu1, eu0⟩ := bytes_of hx0
  obtain ⟨u2, u3, hu2, hu3, eu2⟩ := bytes_of hx1
  obtain ⟨lu0, mu0, su0⟩ := low_of eu0 hu0 hu1
  obtain ⟨lu2, mu2, su2⟩ := low_of eu2 hu2 hu3
  obtain ⟨v0, v1, hv0, hv1, ev0⟩ := bytes_of hy0
  obtain ⟨v2, v3, hv2, hv3, ev2⟩ := bytes_of hy1
  obtain ⟨lv0, mv0, sv0⟩ := low_of ev0 hv0 hv1
  obtain ⟨lv2, mv2, sv2⟩ := low_of ev2 hv2 hv3
  rw [eu0, eu2, ev0, ev2] at hw0 hw1
  obtain ⟨t0, t1, t2, t3, ht0, ht1, ht2, ht3, o0, o1, o2, o3, et0, et2⟩ := bitwise_write hu0 hu1 hu2 hu3 hv0 hv1 hv2
    hv3 hw0 hw1
  obtain ⟨lt0, mt0, st0⟩ := low_of et0 ht0 ht1
  obtain ⟨lt2, mt2, st2⟩ := low_of et2 ht2 ht3
  have hop : notRet 36 36 = 36 := by decide
  have hsub : (36 : M31) - 36 = ((0 : ℕ) : M31) := by decide
  have hrow : (write 1 x).row = {
      enabler := 1, pc := pc, fp := fp, clock := clk, inst_prev_clock := ic, opcode_constant := 36, src0_off := a,
      src1_off := b, dst_off := d, op0_val_0 := u0, op0_val_1 := u1, op0_val_2 := u2, op0_val_3 := u3,
      op0_prev_clock_lo := c0, op0_prev_clock_hi := c1, op1_val_0 := v0, op1_val_1 := v1, op1_val_2 := v2,
      op1_val_3 := v3, op1_prev_clock_lo := c2, op1_prev_clock_hi := c3, dst_prev_val_lo := p4,
      dst_prev_val_hi := p5, dst_val_0 := t0, dst_val_1 := t1, dst_val_2 := t2, dst_val_3 := t3,
      dst_prev_clock_lo := c4, dst_prev_clock_hi := c5 } := by
    subst hx
    simp [write, value, accessField, accClock, prevValue, address, instValue, Instruction.encode, Instruction.operands,
      Instruction.opcodeValue, M31.ofU32, lu0, mu0, su0, lu2, mu2, su2, lv0, mv0, sv0, lv2, mv2, sv2, byte_sum eu0,
      byte_sum eu2, byte_sum ev0, byte_sum ev2, lt0, mt0, lt2, mt2, byte_sum et0, byte_sum et2, hop]
  have hent : (write 1 x).entries.map Entry.padded = (evaluate (write 1 x).row).entries.map Entry.padded := by
    rw [hrow]
    subst hx
    simp [evaluate, write, Entry.padded, Rel.arity, value, accessField, accClock, prevValue, address, instValue,
    Instruction.encode, Instruction.operands,
      Instruction.opcodeValue, M31.ofU32, lu0, mu0, su0, lu2, mu2, su2, lv0, mv0, sv0, lv2, mv2, sv2, byte_sum eu0,
      byte_sum eu2, byte_sum ev0, byte_sum ev2, lt0, mt0, lt2, mt2, byte_sum et0, byte_sum et2, hop]
  have hperf := performs (r := (write 1 x).row) rfl
  rw [hrow] at hperf hent ⊢
  subst he
  refine ⟨?_, ?_, performs_of (fp := x.registers.fp) (pc := x.registers.pc) (c := x.clock)
    (by subst hx; exact hperf) rfl rfl ?_, hent⟩
  · simp only [Eval.Satisfied, evaluate, List.forall_mem_cons, List.not_mem_nil, false_implies, implies_true, and_true]
    simp
  · simp only [Eval.TablesHold, evaluate, List.forall_mem_cons, th_memory, th_registers, th_rc20, th_rc16, th_rc8,
      true_and, List.not_mem_nil, false_implies, implies_true, and_true, lu0, mu0, su0, lu2, mu2, su2, lv0, mv0, sv0,
      lv2, mv2, sv2, byte_sum eu0, byte_sum eu2, byte_sum ev0, byte_sum ev2, lt0, mt0, lt2, mt2, byte_sum et0,
      byte_sum et2, hop]
    exact ⟨holds_bitwise hsub (by norm_num) hu0 hv0 o0, holds_bitwise hsub (by norm_num) hu1 hv1 o1, holds_bitwise
    hsub (by norm_num) hu2 hv2 o2, holds_bitwise hsub (by norm_num) hu3 hv3 o3, hi, h0, h1, h2, h3, h4, h5⟩
  · refine .of_eq ?_
    subst hx
    simp [accs, stepRecords, codeCells, Instruction.toQM31s, Instruction.packQM31s, QM31.ofM31, Instruction.encode,
      Instruction.operands, Instruction.opcodeValue, M31.ofU32, lu0, mu0, su0, lu2, mu2, su2, lv0, mv0, sv0, lv2,
      mv2, sv2, byte_sum eu0, byte_sum eu2, byte_sum ev0, byte_sum ev2, lt0, mt0, lt2, mt2, byte_sum et0, byte_sum
      et2, hop]

theorem complete_or {pc fp clk ic a b d c0 p0 c1 p1 c2 p2 c3 p3 c4 p4 c5 p5 : M31} {x0 x1 y0 y1 w0 w1 : ℕ} (hx0 : x0
  < 2 ^ 16) (hx1 : x1 < 2 ^ 16) (hy0 : y0 < 2 ^ 16) (hy1 : y1 < 2 ^ 16)
    (hw0 : bitwiseOp 1 (x0 + 2 ^ 16 * x1) (y0 + 2 ^ 16 * y1) % 2 ^ 16 = w0) (hw1 : bitwiseOp 1 (x0 + 2 ^ 16 * x1) (y0
    + 2 ^ 16 * y1) / 2 ^ 16 = w1)
    (hi : (clk - ic - 1).val < 2 ^ 20) (h0 : (clk - c0 - 1).val < 2 ^ 20) (h1 : (clk - c1 - 1).val < 2 ^ 20) (h2 :
    (clk - c2 - 1).val < 2 ^ 20) (h3 : (clk - c3 - 1).val < 2 ^ 20) (h4 : (clk - c4 - 1).val < 2 ^ 20) (h5 : (clk -
    c5 - 1).val < 2 ^ 20) {e : Effect}
    (he : e = ⟨[fp + a, fp + a + 1, fp + b, fp + b + 1], [(fp + d, (w0 : M31)), (fp + d + 1, (w1 : M31))], pc + 1,
    fp⟩) {x : Bundle}
    (hx : x = ⟨⟨pc, fp⟩, clk, .U32StoreOrFpFp a b d, ic, [
      ⟨fp + a, c0, p0, (x0 : M31)⟩,
      ⟨fp + a + 1, c1, p1, (x1 : M31)⟩,
      ⟨fp + b, c2, p2, (y0 : M31)⟩,
      ⟨fp + b + 1, c3, p3, (y1 : M31)⟩,
      ⟨fp + d, c4, p4, (w0 : M31)⟩,
      ⟨fp + d + 1, c5, p5, (w1 : M31)⟩]⟩) :
    Complete (evaluate (write 1 x).row) (write 1 x).entries x e := by
  obtain ⟨u0, u1, hu0, hu1, eu0⟩ := bytes_of hx0
  obtain ⟨u2, u3, hu2, hu3, eu2⟩ := bytes_of hx1
  obtain ⟨lu0, mu0, su0⟩ := low_of eu0 hu0 hu1
  obtain ⟨lu2, mu2, su2⟩ := low_of eu2 hu2 hu3
  obtain ⟨v0, v1, hv0, hv1, ev0⟩ := bytes_of hy0
  obtain ⟨v2, v3, hv2, hv3, ev2⟩ := bytes_of hy1
  obtain ⟨lv0, mv0, sv0⟩ := low_of ev0 hv0 hv1
  obtain ⟨lv2, mv2, sv2⟩ := low_of ev2 hv2 hv3
  rw [eu0, eu2, ev0, ev2] at hw0 hw1
  obtain ⟨t0, t1, t2, t3, ht0, ht1, ht2, ht3, o0, o1, o2, o3, et0, et2⟩ := bitwise_write hu0 hu1 hu2 hu3 hv0 hv1 hv2
    hv3 hw0 hw1
  obtain ⟨lt0, mt0, st0⟩ := low_of et0 ht0 ht1
  obtain ⟨lt2, mt2, st2⟩ := low_of et2 ht2 ht3
  have hop : notRet 36 37 = 37 := by decide
  have hsub : (37 : M31) - 36 = ((1 : ℕ) : M31) := by decide
  have hrow : (write 1 x).row = {
      enabler := 1, pc := pc, fp := fp, clock := clk, inst_prev_clock := ic, opcode_constant := 37, src0_off := a,
      src1_off := b, dst_off := d, op0_val_0 := u0, op0_val_1 := u1, op0_val_2 := u2, op0_val_3 := u3,
      op0_prev_clock_lo := c0, op0_prev_clock_hi := c1, op1_val_0 := v0, op1_val_1 := v1, op1_val_2 := v2,
      op1_val_3 := v3, op1_prev_clock_lo := c2, op1_prev_clock_hi := c3, dst_prev_val_lo := p4,
      dst_prev_val_hi := p5, dst_val_0 := t0, dst_val_1 := t1, dst_val_2 := t2, dst_val_3 := t3,
      dst_prev_clock_lo := c4, dst_prev_clock_hi := c5 } := by
    subst hx
    simp [write, value, accessField, accClock, prevValue, address, instValue, Instruction.encode, Instruction.operands,
      Instruction.opcodeValue, M31.ofU32, lu0, mu0, su0, lu2, mu2, su2, lv0, mv0, sv0, lv2, mv2, sv2, byte_sum eu0,
      byte_sum eu2, byte_sum ev0, byte_sum ev2, lt0, mt0, lt2, mt2, byte_sum et0, byte_sum et2, hop]
  have hent : (write 1 x).entries.map Entry.padded = (evaluate (write 1 x).row).entries.map Entry.padded := by
    rw [hrow]
    subst hx
    simp [evaluate, write, Entry.padded, Rel.arity, value, accessField, accClock, prevValue, address, instValue,
    Instruction.encode, Instruction.operands,
      Instruction.opcodeValue, M31.ofU32, lu0, mu0, su0, lu2, mu2, su2, lv0, mv0, sv0, lv2, mv2, sv2, byte_sum eu0,
      byte_sum eu2, byte_sum ev0, byte_sum ev2, lt0, mt0, lt2, mt2, byte_sum et0, byte_sum et2, hop]
  have hperf := performs (r := (write 1 x).row) rfl
  rw [hrow] at hperf hent ⊢
  subst he
  refine ⟨?_, ?_, performs_of (fp := x.registers.fp) (pc := x.registers.pc) (c := x.clock)
    (by subst hx; exact hperf) rfl rfl ?_, hent⟩
  · simp only [Eval.Satisfied, evaluate, List.forall_mem_cons, List.not_mem_nil, false_implies, implies_true, and_true]
    simp
  · simp only [Eval.TablesHold, evaluate, List.forall_mem_cons, th_memory, th_registers, th_rc20, th_rc16, th_rc8,
      true_and, List.not_mem_nil, false_implies, implies_true, and_true, lu0, mu0, su0, lu2, mu2, su2, lv0, mv0, sv0,
      lv2, mv2, sv2, byte_sum eu0, byte_sum eu2, byte_sum ev0, byte_sum ev2, lt0, mt0, lt2, mt2, byte_sum et0,
      byte_sum et2, hop]
    exact ⟨holds_bitwise hsub (by norm_num) hu0 hv0 o0, holds_bitwise hsub (by norm_num) hu1 hv1 o1, holds_bitwise
    hsub (by norm_num) hu2 hv2 o2, holds_bitwise hsub (by norm_num) hu3 hv3 o3, hi, h0, h1, h2, h3, h4, h5⟩
  · refine .of_eq ?_
    subst hx
    simp [accs, stepRecords, codeCells, Instruction.toQM31s, Instruction.packQM31s, QM31.ofM31, Instruction.encode,
      Instruction.operands, Instruction.opcodeValue, M31.ofU32, lu0, mu0, su0, lu2, mu2, su2, lv0, mv0, sv0, lv2,
      mv2, sv2, byte_sum eu0, byte_sum eu2, byte_sum ev0, byte_sum ev2, lt0, mt0, lt2, mt2, byte_sum et0, byte_sum
      et2, hop]

theorem complete_xor {pc fp clk ic a b d c0 p0 c1 p1 c2 p2 c3 p3 c4 p4 c5 p5 : M31} {x0 x1 y0 y1 w0 w1 : ℕ} (hx0 : x0
  < 2 ^ 16) (hx1 : x1 < 2 ^ 16) (hy0 : y0 < 2 ^ 16) (hy1 : y1 < 2 ^ 16)
    (hw0 : bitwiseOp 2 (x0 + 2 ^ 16 * x1) (y0 + 2 ^ 16 * y1) % 2 ^ 16 = w0) (hw1 : bitwiseOp 2 (x0 + 2 ^ 16 * x1) (y0
    + 2 ^ 16 * y1) / 2 ^ 16 = w1)
    (hi : (clk - ic - 1).val < 2 ^ 20) (h0 : (clk - c0 - 1).val < 2 ^ 20) (h1 : (clk - c1 - 1).val < 2 ^ 20) (h2 :
    (clk - c2 - 1).val < 2 ^ 20) (h3 : (clk - c3 - 1).val < 2 ^ 20) (h4 : (clk - c4 - 1).val < 2 ^ 20) (h5 : (clk -
    c5 - 1).val < 2 ^ 20) {e : Effect}
    (he : e = ⟨[fp + a, fp + a + 1, fp + b, fp + b + 1], [(fp + d, (w0 : M31)), (fp + d + 1, (w1 : M31))], pc + 1,
    fp⟩) {x : Bundle}
    (hx : x = ⟨⟨pc, fp⟩, clk, .U32StoreXorFpFp a b d, ic, [
      ⟨fp + a, c0, p0, (x0 : M31)⟩,
      ⟨fp + a + 1, c1, p1, (x1 : M31)⟩,
      ⟨fp + b, c2, p2, (y0 : M31)⟩,
      ⟨fp + b + 1, c3, p3, (y1 : M31)⟩,
      ⟨fp + d, c4, p4, (w0 : M31)⟩,
      ⟨fp + d + 1, c5, p5, (w1 : M31)⟩]⟩) :
    Complete (evaluate (write 1 x).row) (write 1 x).entries x e := by
  obtain ⟨u0, u1, hu0, hu1, eu0⟩ := bytes_of hx0
  obtain ⟨u2, u3, hu2, hu3, eu2⟩ := bytes_of hx1
  obtain ⟨lu0, mu0, su0⟩ := low_of eu0 hu0 hu1
  obtain ⟨lu2, mu2, su2⟩ := low_of eu2 hu2 hu3
  obtain ⟨v0, v1, hv0, hv1, ev0⟩ := bytes_of hy0
  obtain ⟨v2, v3, hv2, hv3, ev2⟩ := bytes_of hy1
  obtain ⟨lv0, mv0, sv0⟩ := low_of ev0 hv0 hv1
  obtain ⟨lv2, mv2, sv2⟩ := low_of ev2 hv2 hv3
  rw [eu0, eu2, ev0, ev2] at hw0 hw1
  obtain ⟨t0, t1, t2, t3, ht0, ht1, ht2, ht3, o0, o1, o2, o3, et0, et2⟩ := bitwise_write hu0 hu1 hu2 hu3 hv0 hv1 hv2
    hv3 hw0 hw1
  obtain ⟨lt0, mt0, st0⟩ := low_of et0 ht0 ht1
  obtain ⟨lt2, mt2, st2⟩ := low_of et2 ht2 ht3
  have hop : notRet 36 38 = 38 := by decide
  have hsub : (38 : M31) - 36 = ((2 : ℕ) : M31) := by decide
  have hrow : (write 1 x).row = {
      enabler := 1, pc := pc, fp := fp, clock := clk, inst_prev_clock := ic, opcode_constant := 38, src0_off := a,
      src1_off := b, dst_off := d, op0_val_0 := u0, op0_val_1 := u1, op0_val_2 := u2, op0_val_3 := u3,
      op0_prev_clock_lo := c0, op0_prev_clock_hi := c1, op1_val_0 := v0, op1_val_1 := v1, op1_val_2 := v2,
      op1_val_3 := v3, op1_prev_clock_lo := c2, op1_prev_clock_hi := c3, dst_prev_val_lo := p4,
      dst_prev_val_hi := p5, dst_val_0 := t0, dst_val_1 := t1, dst_val_2 := t2, dst_val_3 := t3,
      dst_prev_clock_lo := c4, dst_prev_clock_hi := c5 } := by
    subst hx
    simp [write, value, accessField, accClock, prevValue, address, instValue, Instruction.encode, Instruction.operands,
      Instruction.opcodeValue, M31.ofU32, lu0, mu0, su0, lu2, mu2, su2, lv0, mv0, sv0, lv2, mv2, sv2, byte_sum eu0,
      byte_sum eu2, byte_sum ev0, byte_sum ev2, lt0, mt0, lt2, mt2, byte_sum et0, byte_sum et2, hop]
  have hent : (write 1 x).entries.map Entry.padded = (evaluate (write 1 x).row).entries.map Entry.padded := by
    rw [hrow]
    subst hx
    simp [evaluate, write, Entry.padded, Rel.arity, value, accessField, accClock, prevValue, address, instValue,
    Instruction.encode, Instruction.operands,
      Instruction.opcodeValue, M31.ofU32, lu0, mu0, su0, lu2, mu2, su2, lv0, mv0, sv0, lv2, mv2, sv2, byte_sum eu0,
      byte_sum eu2, byte_sum ev0, byte_sum ev2, lt0, mt0, lt2, mt2, byte_sum et0, byte_sum et2, hop]
  have hperf := performs (r := (write 1 x).row) rfl
  rw [hrow] at hperf hent ⊢
  subst he
  refine ⟨?_, ?_, performs_of (fp := x.registers.fp) (pc := x.registers.pc) (c := x.clock)
    (by subst hx; exact hperf) rfl rfl ?_, hent⟩
  · simp only [Eval.Satisfied, evaluate, List.forall_mem_cons, List.not_mem_nil, false_implies, implies_true, and_true]
    simp
  · simp only [Eval.TablesHold, evaluate, List.forall_mem_cons, th_memory, th_registers, th_rc20, th_rc16, th_rc8,
      true_and, List.not_mem_nil, false_implies, implies_true, and_true, lu0, mu0, su0, lu2, mu2, su2, lv0, mv0, sv0,
      lv2, mv2, sv2, byte_sum eu0, byte_sum eu2, byte_sum ev0, byte_sum ev2, lt0, mt0, lt2, mt2, byte_sum et0,
      byte_sum et2, hop]
    exact ⟨holds_bitwise hsub (by norm_num) hu0 hv0 o0, holds_bitwise hsub (by norm_num) hu1 hv1 o1, holds_bitwise
    hsub (by norm_num) hu2 hv2 o2, holds_bitwise hsub (by norm_num) hu3 hv3 o3, hi, h0, h1, h2, h3, h4, h5⟩
  · refine .of_eq ?_
    subst hx
    simp [accs, stepRecords, codeCells, Instruction.toQM31s, Instruction.packQM31s, QM31.ofM31, Instruction.encode,
      Instruction.operands, Instruction.opcodeValue, M31.ofU32, lu0, mu0, su0, lu2, mu2, su2, lv0, mv0, sv0, lv2,
      mv2, sv2, byte_sum eu0, byte_sum eu2, byte_sum ev0, byte_sum ev2, lt0, mt0, lt2, mt2, byte_sum et0, byte_sum
      et2, hop]

theorem honest_and {x : Bundle} {mem : Mem} {e : Effect} {a b d : M31} (h : Honest x mem e)
    (hin : x.instruction = .U32StoreAndFpFp a b d) : Complete (evaluate (write 1 x).row) (write 1 x).entries x e := by
  obtain ⟨⟨pc, fp⟩, clk, i, ic, l⟩ := x
  obtain ⟨hs, ha, hi, hr⟩ := h
  subst hin
  simp only [sem, bin32, bin32Imm, split, Option.bind_eq_bind, Option.bind_eq_some_iff] at hs
  obtain ⟨m, hm, n, hn, hd⟩ := hs
  obtain ⟨x0, x1, hx0, hx1, mx0, mx1, rfl⟩ := u32_inv hm
  obtain ⟨y0, y1, hy0, hy1, my0, my1, rfl⟩ := u32_inv hn
  have he := done_inv hd
  simp only [he, Effect.log, List.map_cons, List.map_nil, List.cons_append, List.nil_append, mx0, mx1, my0, my1] at ha
  obtain ⟨c0, p0, l0, rfl, ha0⟩ := acc_cons ha
  obtain ⟨c1, p1, l1, rfl, ha1⟩ := acc_cons ha0
  obtain ⟨c2, p2, l2, rfl, ha2⟩ := acc_cons ha1
  obtain ⟨c3, p3, l3, rfl, ha3⟩ := acc_cons ha2
  obtain ⟨c4, p4, l4, rfl, ha4⟩ := acc_cons ha3
  obtain ⟨c5, p5, l5, rfl, ha5⟩ := acc_cons ha4
  obtain rfl := acc_nil ha5
  simp only [List.forall_mem_cons] at hr
  obtain ⟨h0, h1, h2, h3, h4, h5, -⟩ := hr
  exact complete_and hx0 hx1 hy0 hy1 rfl rfl hi h0 h1 h2 h3 h4 h5 he rfl

theorem honest_or {x : Bundle} {mem : Mem} {e : Effect} {a b d : M31} (h : Honest x mem e)
    (hin : x.instruction = .U32StoreOrFpFp a b d) : Complete (evaluate (write 1 x).row) (write 1 x).entries x e := by
  obtain ⟨⟨pc, fp⟩, clk, i, ic, l⟩ := x
  obtain ⟨hs, ha, hi, hr⟩ := h
  subst hin
  simp only [sem, bin32, bin32Imm, split, Option.bind_eq_bind, Option.bind_eq_some_iff] at hs
  obtain ⟨m, hm, n, hn, hd⟩ := hs
  obtain ⟨x0, x1, hx0, hx1, mx0, mx1, rfl⟩ := u32_inv hm
  obtain ⟨y0, y1, hy0, hy1, my0, my1, rfl⟩ := u32_inv hn
  have he := done_inv hd
  simp only [he, Effect.log, List.map_cons, List.map_nil, List.cons_append, List.nil_append, mx0, mx1, my0, my1] at ha
  obtain ⟨c0, p0, l0, rfl, ha0⟩ := acc_cons ha
  obtain ⟨c1, p1, l1, rfl, ha1⟩ := acc_cons ha0
  obtain ⟨c2, p2, l2, rfl, ha2⟩ := acc_cons ha1
  obtain ⟨c3, p3, l3, rfl, ha3⟩ := acc_cons ha2
  obtain ⟨c4, p4, l4, rfl, ha4⟩ := acc_cons ha3
  obtain ⟨c5, p5, l5, rfl, ha5⟩ := acc_cons ha4
  obtain rfl := acc_nil ha5
  simp only [List.forall_mem_cons] at hr
  obtain ⟨h0, h1, h2, h3, h4, h5, -⟩ := hr
  exact complete_or hx0 hx1 hy0 hy1 rfl rfl hi h0 h1 h2 h3 h4 h5 he rfl

theorem honest_xor {x : Bundle} {mem : Mem} {e : Effect} {a b d : M31} (h : Honest x mem e)
    (hin : x.instruction = .U32StoreXorFpFp a b d) : Complete (evaluate (write 1 x).row) (write 1 x).entries x e := by
  obtain ⟨⟨pc, fp⟩, clk, i, ic, l⟩ := x
  obtain ⟨hs, ha, hi, hr⟩ := h
  subst hin
  simp only [sem, bin32, bin32Imm, split, Option.bind_eq_bind, Option.bind_eq_some_iff] at hs
  obtain ⟨m, hm, n, hn, hd⟩ := hs
  obtain ⟨x0, x1, hx0, hx1, mx0, mx1, rfl⟩ := u32_inv hm
  obtain ⟨y0, y1, hy0, hy1, my0, my1, rfl⟩ := u32_inv hn
  have he := done_inv hd
  simp only [he, Effect.log, List.map_cons, List.map_nil, List.cons_append, List.nil_append, mx0, mx1, my0, my1] at ha
  obtain ⟨c0, p0, l0, rfl, ha0⟩ := acc_cons ha
  obtain ⟨c1, p1, l1, rfl, ha1⟩ := acc_cons ha0
  obtain ⟨c2, p2, l2, rfl, ha2⟩ := acc_cons ha1
  obtain ⟨c3, p3, l3, rfl, ha3⟩ := acc_cons ha2
  obtain ⟨c4, p4, l4, rfl, ha4⟩ := acc_cons ha3
  obtain ⟨c5, p5, l5, rfl, ha5⟩ := acc_cons ha4
  obtain rfl := acc_nil ha5
  simp only [List.forall_mem_cons] at hr
  obtain ⟨h0, h1, h2, h3, h4, h5, -⟩ := hr
  exact complete_xor hx0 hx1 hy0 hy1 rfl rfl hi h0 h1 h2 h3 h4 h5 he rfl

end U32StoreBitwiseFpFp

namespace U32StoreAddFpImm

theorem complete {pc fp clk ic a d c0 p0 c1 p1 c2 p2 c3 p3 : M31} {x0 x1 y0 y1 w0 w1 : ℕ} (hx0 : x0 < 2 ^ 16) (hx1 :
  x1 < 2 ^ 16) (hy0 : y0 < 2 ^ 16) (hy1 : y1 < 2 ^ 16)
    (hw0 : (x0 + 2 ^ 16 * x1 + (y0 + 2 ^ 16 * y1)) % 2 ^ 32 % 2 ^ 16 = w0) (hw1 : (x0 + 2 ^ 16 * x1 + (y0 + 2 ^ 16 *
    y1)) % 2 ^ 32 / 2 ^ 16 = w1)
    (hi : (clk - ic - 1).val < 2 ^ 20) (h0 : (clk - c0 - 1).val < 2 ^ 20) (h1 : (clk - c1 - 1).val < 2 ^ 20) (h2 :
    (clk - c2 - 1).val < 2 ^ 20) (h3 : (clk - c3 - 1).val < 2 ^ 20) {e : Effect}
    (he : e = ⟨[fp + a, fp + a + 1], [(fp + d, (w0 : M31)), (fp + d + 1, (w1 : M31))], pc + 2, fp⟩) {x : Bundle}
    (hx : x = ⟨⟨pc, fp⟩, clk, .U32StoreAddFpImm a (y0 : M31) (y1 : M31) d, ic, [
      ⟨fp + a, c0, p0, (x0 : M31)⟩,
      ⟨fp + a + 1, c1, p1, (x1 : M31)⟩,
      ⟨fp + d, c2, p2, (w0 : M31)⟩,
      ⟨fp + d + 1, c3, p3, (w1 : M31)⟩]⟩) :
    Complete (evaluate (write 1 x).row) (write 1 x).entries x e := by
  obtain ⟨k0, k1, hk0, hk1, b0, b1, f0, f1, g0, g1⟩ := add_write hx0 hx1 hy0 hy1 hw0 hw1
  have hrow : (write 1 x).row = {
      enabler := 1, pc := pc, fp := fp, clock := clk, inst_prev_clock := ic, src_off := a, imm_lo := (y0 : M31),
      imm_hi := (y1 : M31), dst_off := d, op0_val_lo := (x0 : M31), op0_val_hi := (x1 : M31),
      op0_prev_clock_lo := c0, op0_prev_clock_hi := c1, dst_prev_val_lo := p2, dst_prev_val_hi := p3,
      dst_prev_clock_lo := c2, dst_prev_clock_hi := c3, u16_carry := k0, u32_carry := k1 } := by
    subst hx
    simp [write, value, accessField, accClock, prevValue, address, instValue, Instruction.encode, Instruction.operands,
      Instruction.opcodeValue, M31.ofU32, f0, f1, g0, g1]
  have hent : (write 1 x).entries.map Entry.padded = (evaluate (write 1 x).row).entries.map Entry.padded := by
    rw [hrow]
    subst hx
    simp [evaluate, write, Entry.padded, Rel.arity, value, accessField, accClock, prevValue, address, instValue,
    Instruction.encode, Instruction.operands,
      Instruction.opcodeValue, M31.ofU32, f0, f1, g0, g1]
  have hperf := performs (r := (write 1 x).row) rfl
  rw [hrow] at hperf hent ⊢
  subst he
  refine ⟨?_, ?_, performs_of (fp := x.registers.fp) (pc := x.registers.pc) (c := x.clock)
    (by subst hx; exact hperf) (num9 pc) rfl ?_, hent⟩
  · simp only [Eval.Satisfied, evaluate, List.forall_mem_cons, List.not_mem_nil, false_implies, implies_true, and_true]
    exact ⟨by simp, bit_cast hk0, bit_cast hk1⟩
  · simp only [Eval.TablesHold, evaluate, List.forall_mem_cons, th_memory, th_registers, th_rc20, th_rc16, th_rc8,
      true_and, List.not_mem_nil, false_implies, implies_true, and_true, f0, f1, g0, g1]
    exact ⟨rc16_cast hx0, rc16_cast hx1, rc16_cast hy0, rc16_cast hy1, rc16_cast b0, rc16_cast b1, hi, h0, h1, h2, h3⟩
  · refine .of_eq ?_
    subst hx
    simp [accs, stepRecords, codeCells, Instruction.toQM31s, Instruction.packQM31s, QM31.ofM31, Instruction.encode,
      Instruction.operands, Instruction.opcodeValue, M31.ofU32, f0, f1, g0, g1]

theorem honest {x : Bundle} {mem : Mem} {e : Effect} {a b b1 d : M31} (h : Honest x mem e)
    (hin : x.instruction = .U32StoreAddFpImm a b b1 d) : Complete (evaluate (write 1 x).row) (write 1 x).entries x e
    := by
  obtain ⟨⟨pc, fp⟩, clk, i, ic, l⟩ := x
  obtain ⟨hs, ha, hi, hr⟩ := h
  subst hin
  simp only [sem, bin32, bin32Imm, split, Option.bind_eq_bind, Option.bind_eq_some_iff] at hs
  obtain ⟨n, hn, m, hm, hd⟩ := hs
  obtain ⟨x0, x1, hx0, hx1, mx0, mx1, rfl⟩ := u32_inv hm
  obtain ⟨y0, y1, hy0, hy1, rfl, rfl, rfl⟩ := ofLimbs_inv hn
  have he := done_inv hd
  simp only [he, Effect.log, List.map_cons, List.map_nil, List.cons_append, List.nil_append, mx0, mx1] at ha
  obtain ⟨c0, p0, l0, rfl, ha0⟩ := acc_cons ha
  obtain ⟨c1, p1, l1, rfl, ha1⟩ := acc_cons ha0
  obtain ⟨c2, p2, l2, rfl, ha2⟩ := acc_cons ha1
  obtain ⟨c3, p3, l3, rfl, ha3⟩ := acc_cons ha2
  obtain rfl := acc_nil ha3
  simp only [List.forall_mem_cons] at hr
  obtain ⟨h0, h1, h2, h3, -⟩ := hr
  exact complete hx0 hx1 hy0 hy1 rfl rfl hi h0 h1 h2 h3 he rfl

end U32StoreAddFpImm

namespace U32StoreLtFpImm

theorem complete {pc fp clk ic a d c0 p0 c1 p1 c2 p2 : M31} {x0 x1 y0 y1 : ℕ} (hx0 : x0 < 2 ^ 16) (hx1 : x1 < 2 ^ 16)
  (hy0 : y0 < 2 ^ 16) (hy1 : y1 < 2 ^ 16)
    
    (hi : (clk - ic - 1).val < 2 ^ 20) (h0 : (clk - c0 - 1).val < 2 ^ 20) (h1 : (clk - c1 - 1).val < 2 ^ 20) (h2 :
    (clk - c2 - 1).val < 2 ^ 20) {e : Effect}
    (he : e = ⟨[fp + a, fp + a + 1], [(fp + d, bit (x0 + 2 ^ 16 * x1 < y0 + 2 ^ 16 * y1))], pc + 2, fp⟩) {x : Bundle}
    (hx : x = ⟨⟨pc, fp⟩, clk, .U32StoreLtFpImm a (y0 : M31) (y1 : M31) d, ic, [
      ⟨fp + a, c0, p0, (x0 : M31)⟩,
      ⟨fp + a + 1, c1, p1, (x1 : M31)⟩,
      ⟨fp + d, c2, p2, bit (x0 + 2 ^ 16 * x1 < y0 + 2 ^ 16 * y1)⟩]⟩) :
    Complete (evaluate (write 1 x).row) (write 1 x).entries x e := by
  obtain ⟨k0, k1, hk0, hk1, f0, f1, g0, g1, g2⟩ := lt_write hx0 hx1 hy0 hy1
  have hrow : (write 1 x).row = {
      enabler := 1, pc := pc, fp := fp, clock := clk, inst_prev_clock := ic, src_off := a, imm_lo := (y0 : M31),
      imm_hi := (y1 : M31), dst_off := d, op0_val_lo := (x0 : M31), op0_val_hi := (x1 : M31),
      op0_prev_clock_lo := c0, op0_prev_clock_hi := c1, dst_prev_val := p2, dst_prev_clock := c2, borrow_lo := k0,
      borrow_hi := k1 } := by
    subst hx
    simp [write, value, accessField, accClock, prevValue, address, instValue, Instruction.encode, Instruction.operands,
      Instruction.opcodeValue, M31.ofU32, f0, f1, g2]
  have hent : (write 1 x).entries.map Entry.padded = (evaluate (write 1 x).row).entries.map Entry.padded := by
    rw [hrow]
    subst hx
    simp [evaluate, write, Entry.padded, Rel.arity, value, accessField, accClock, prevValue, address, instValue,
    Instruction.encode, Instruction.operands,
      Instruction.opcodeValue, M31.ofU32, f0, f1, g2]
  have hperf := performs (r := (write 1 x).row) rfl
  rw [hrow] at hperf hent ⊢
  subst he
  refine ⟨?_, ?_, performs_of (fp := x.registers.fp) (pc := x.registers.pc) (c := x.clock)
    (by subst hx; exact hperf) (num9 pc) rfl ?_, hent⟩
  · simp only [Eval.Satisfied, evaluate, List.forall_mem_cons, List.not_mem_nil, false_implies, implies_true, and_true]
    exact ⟨by simp, bit_cast hk0, bit_cast hk1⟩
  · simp only [Eval.TablesHold, evaluate, List.forall_mem_cons, th_memory, th_registers, th_rc20, th_rc16, th_rc8,
      true_and, List.not_mem_nil, false_implies, implies_true, and_true, f0, f1, g2]
    exact ⟨rc16_cast hx0, rc16_cast hx1, rc16_cast hy0, rc16_cast hy1, g0, g1, hi, h0, h1, h2⟩
  · refine .of_eq ?_
    subst hx
    simp [accs, stepRecords, codeCells, Instruction.toQM31s, Instruction.packQM31s, QM31.ofM31, Instruction.encode,
      Instruction.operands, Instruction.opcodeValue, M31.ofU32, f0, f1, g2]

theorem honest {x : Bundle} {mem : Mem} {e : Effect} {a b b1 d : M31} (h : Honest x mem e)
    (hin : x.instruction = .U32StoreLtFpImm a b b1 d) : Complete (evaluate (write 1 x).row) (write 1 x).entries x e
    := by
  obtain ⟨⟨pc, fp⟩, clk, i, ic, l⟩ := x
  obtain ⟨hs, ha, hi, hr⟩ := h
  subst hin
  simp only [sem, bin32, bin32Imm, split, Option.bind_eq_bind, Option.bind_eq_some_iff] at hs
  obtain ⟨n, hn, m, hm, hd⟩ := hs
  obtain ⟨x0, x1, hx0, hx1, mx0, mx1, rfl⟩ := u32_inv hm
  obtain ⟨y0, y1, hy0, hy1, rfl, rfl, rfl⟩ := ofLimbs_inv hn
  have he := done_inv hd
  simp only [he, Effect.log, List.map_cons, List.map_nil, List.cons_append, List.nil_append, mx0, mx1] at ha
  obtain ⟨c0, p0, l0, rfl, ha0⟩ := acc_cons ha
  obtain ⟨c1, p1, l1, rfl, ha1⟩ := acc_cons ha0
  obtain ⟨c2, p2, l2, rfl, ha2⟩ := acc_cons ha1
  obtain rfl := acc_nil ha2
  simp only [List.forall_mem_cons] at hr
  obtain ⟨h0, h1, h2, -⟩ := hr
  exact complete hx0 hx1 hy0 hy1 hi h0 h1 h2 he rfl

end U32StoreLtFpImm

namespace U32StoreMulFpImm

theorem complete {pc fp clk ic a d c0 p0 c1 p1 c2 p2 c3 p3 : M31} {x0 x1 y0 y1 w0 w1 : ℕ} (hx0 : x0 < 2 ^ 16) (hx1 :
  x1 < 2 ^ 16) (hy0 : y0 < 2 ^ 16) (hy1 : y1 < 2 ^ 16)
    (hw0 : (x0 + 2 ^ 16 * x1) * (y0 + 2 ^ 16 * y1) % 2 ^ 32 % 2 ^ 16 = w0) (hw1 : (x0 + 2 ^ 16 * x1) * (y0 + 2 ^ 16 *
    y1) % 2 ^ 32 / 2 ^ 16 = w1)
    (hi : (clk - ic - 1).val < 2 ^ 20) (h0 : (clk - c0 - 1).val < 2 ^ 20) (h1 : (clk - c1 - 1).val < 2 ^ 20) (h2 :
    (clk - c2 - 1).val < 2 ^ 20) (h3 : (clk - c3 - 1).val < 2 ^ 20) {e : Effect}
    (he : e = ⟨[fp + a, fp + a + 1], [(fp + d, (w0 : M31)), (fp + d + 1, (w1 : M31))], pc + 2, fp⟩) {x : Bundle}
    (hx : x = ⟨⟨pc, fp⟩, clk, .U32StoreMulFpImm a (y0 : M31) (y1 : M31) d, ic, [
      ⟨fp + a, c0, p0, (x0 : M31)⟩,
      ⟨fp + a + 1, c1, p1, (x1 : M31)⟩,
      ⟨fp + d, c2, p2, (w0 : M31)⟩,
      ⟨fp + d + 1, c3, p3, (w1 : M31)⟩]⟩) :
    Complete (evaluate (write 1 x).row) (write 1 x).entries x e := by
  obtain ⟨u0, u1, hu0, hu1, eu0⟩ := bytes_of hx0
  obtain ⟨u2, u3, hu2, hu3, eu2⟩ := bytes_of hx1
  obtain ⟨lu0, mu0, su0⟩ := low_of eu0 hu0 hu1
  obtain ⟨lu2, mu2, su2⟩ := low_of eu2 hu2 hu3
  obtain ⟨v0, v1, hv0, hv1, ev0⟩ := bytes_of hy0
  obtain ⟨v2, v3, hv2, hv3, ev2⟩ := bytes_of hy1
  obtain ⟨lv0, mv0, sv0⟩ := low_of ev0 hv0 hv1
  obtain ⟨lv2, mv2, sv2⟩ := low_of ev2 hv2 hv3
  obtain ⟨r0, r1, r2, r3, k0, k1, k2, k3, hr0, hr1, hr2, hr3, b0, b1, b2, b3, f0, f1, f2, f3, g0, g1, g2, g3, hm⟩ :=
    mul_write hu0 hu1 hu2 hu3 hv0 hv1 hv2 hv3
  have hs0 := byte_sum (l := r0) (h := r1) (s := w0) (by rw [← hw0, eu0, eu2, ev0, ev2, hm]; omega)
  have hs1 := byte_sum (l := r2) (h := r3) (s := w1) (by rw [← hw1, eu0, eu2, ev0, ev2, hm]; omega)
  have hrow : (write 1 x).row = {
      enabler := 1, pc := pc, fp := fp, clock := clk, inst_prev_clock := ic, src_off := a, imm_0 := v0,
      imm_1 := v1, imm_2 := v2, imm_3 := v3, dst_off := d, op0_0 := u0, op0_1 := u1, op0_2 := u2, op0_3 := u3,
      op0_prev_clock_lo := c0, op0_prev_clock_hi := c1, dst_prev_val_lo := p2, dst_prev_val_hi := p3,
      dst_prev_clock_lo := c2, dst_prev_clock_hi := c3, res_0 := r0, res_1 := r1, res_2 := r2, res_3 := r3,
      carry_0 := k0, carry_1 := k1, carry_2 := k2, carry_3 := k3 } := by
    subst hx
    simp [write, value, accessField, accClock, prevValue, address, instValue, Instruction.encode, Instruction.operands,
      Instruction.opcodeValue, M31.ofU32, lu0, mu0, su0, lu2, mu2, su2, lv0, mv0, sv0, lv2, mv2, sv2, byte_sum eu0,
      byte_sum eu2, byte_sum ev0, byte_sum ev2, f0, f1, f2, f3, g0, g1, g2, g3, hs0, hs1]
  have hent : (write 1 x).entries.map Entry.padded = (evaluate (write 1 x).row).entries.map Entry.padded := by
    rw [hrow]
    subst hx
    simp [evaluate, write, Entry.padded, Rel.arity, value, accessField, accClock, prevValue, address, instValue,
    Instruction.encode, Instruction.operands,
      Instruction.opcodeValue, M31.ofU32, lu0, mu0, su0, lu2, mu2, su2, lv0, mv0, sv0, lv2, mv2, sv2, byte_sum eu0,
      byte_sum eu2, byte_sum ev0, byte_sum ev2, f0, f1, f2, f3, g0, g1, g2, g3, hs0, hs1]
  have hperf := performs (r := (write 1 x).row) rfl
  rw [hrow] at hperf hent ⊢
  subst he
  refine ⟨?_, ?_, performs_of (fp := x.registers.fp) (pc := x.registers.pc) (c := x.clock)
    (by subst hx; exact hperf) (num9 pc) rfl ?_, hent⟩
  · simp only [Eval.Satisfied, evaluate, List.forall_mem_cons, List.not_mem_nil, false_implies, implies_true,
    and_true, g0, g1, g2, g3]
    refine ⟨?_, ?_, ?_, ?_, ?_⟩ <;> simp
  · simp only [Eval.TablesHold, evaluate, List.forall_mem_cons, th_memory, th_registers, th_rc20, th_rc16, th_rc8,
      true_and, List.not_mem_nil, false_implies, implies_true, and_true, lu0, mu0, su0, lu2, mu2, su2, lv0, mv0, sv0,
      lv2, mv2, sv2, byte_sum eu0, byte_sum eu2, byte_sum ev0, byte_sum ev2, f0, f1, f2, f3, g0, g1, g2, g3, hs0, hs1]
    exact ⟨rc8_cast hu0, rc8_cast hu1, rc8_cast hu2, rc8_cast hu3, rc8_cast hv0, rc8_cast hv1, rc8_cast hv2, rc8_cast
    hv3, rc8_cast hr0, rc8_cast hr1, rc8_cast hr2, rc8_cast hr3, rc_sub (n := 254) (by norm_num) b0 (by norm_num),
    rc_sub (n := 509) (by norm_num) b1 (by norm_num), rc_sub (n := 764) (by norm_num) b2 (by norm_num), rc_sub (n :=
    1019) (by norm_num) b3 (by norm_num), hi, h0, h1, h2, h3⟩
  · refine .of_eq ?_
    subst hx
    simp [accs, stepRecords, codeCells, Instruction.toQM31s, Instruction.packQM31s, QM31.ofM31, Instruction.encode,
      Instruction.operands, Instruction.opcodeValue, M31.ofU32, lu0, mu0, su0, lu2, mu2, su2, lv0, mv0, sv0, lv2,
      mv2, sv2, byte_sum eu0, byte_sum eu2, byte_sum ev0, byte_sum ev2, f0, f1, f2, f3, g0, g1, g2, g3, hs0, hs1]

theorem honest {x : Bundle} {mem : Mem} {e : Effect} {a b b1 d : M31} (h : Honest x mem e)
    (hin : x.instruction = .U32StoreMulFpImm a b b1 d) : Complete (evaluate (write 1 x).row) (write 1 x).entries x e
    := by
  obtain ⟨⟨pc, fp⟩, clk, i, ic, l⟩ := x
  obtain ⟨hs, ha, hi, hr⟩ := h
  subst hin
  simp only [sem, bin32, bin32Imm, split, Option.bind_eq_bind, Option.bind_eq_some_iff] at hs
  obtain ⟨n, hn, m, hm, hd⟩ := hs
  obtain ⟨x0, x1, hx0, hx1, mx0, mx1, rfl⟩ := u32_inv hm
  obtain ⟨y0, y1, hy0, hy1, rfl, rfl, rfl⟩ := ofLimbs_inv hn
  have he := done_inv hd
  simp only [he, Effect.log, List.map_cons, List.map_nil, List.cons_append, List.nil_append, mx0, mx1] at ha
  obtain ⟨c0, p0, l0, rfl, ha0⟩ := acc_cons ha
  obtain ⟨c1, p1, l1, rfl, ha1⟩ := acc_cons ha0
  obtain ⟨c2, p2, l2, rfl, ha2⟩ := acc_cons ha1
  obtain ⟨c3, p3, l3, rfl, ha3⟩ := acc_cons ha2
  obtain rfl := acc_nil ha3
  simp only [List.forall_mem_cons] at hr
  obtain ⟨h0, h1, h2, h3, -⟩ := hr
  exact complete hx0 hx1 hy0 hy1 rfl rfl hi h0 h1 h2 h3 he rfl

end U32StoreMulFpImm

namespace U32StoreDivFpImm

theorem complete {pc fp clk ic a d r c0 p0 c1 p1 c2 p2 c3 p3 c4 p4 c5 p5 : M31} {x0 x1 y0 y1 w0 w1 w2 w3 : ℕ} (hx0 :
  x0 < 2 ^ 16) (hx1 : x1 < 2 ^ 16) (hy0 : y0 < 2 ^ 16) (hy1 : y1 < 2 ^ 16)
    (hy : y0 + 2 ^ 16 * y1 ≠ 0) (hw0 : (x0 + 2 ^ 16 * x1) / (y0 + 2 ^ 16 * y1) % 2 ^ 16 = w0) (hw1 : (x0 + 2 ^ 16 *
    x1) / (y0 + 2 ^ 16 * y1) / 2 ^ 16 = w1)
    (hw2 : (x0 + 2 ^ 16 * x1) % (y0 + 2 ^ 16 * y1) % 2 ^ 16 = w2) (hw3 : (x0 + 2 ^ 16 * x1) % (y0 + 2 ^ 16 * y1) / 2
    ^ 16 = w3)
    (hi : (clk - ic - 1).val < 2 ^ 20) (h0 : (clk - c0 - 1).val < 2 ^ 20) (h1 : (clk - c1 - 1).val < 2 ^ 20) (h2 :
    (clk - c2 - 1).val < 2 ^ 20) (h3 : (clk - c3 - 1).val < 2 ^ 20) (h4 : (clk - c4 - 1).val < 2 ^ 20) (h5 : (clk -
    c5 - 1).val < 2 ^ 20) {e : Effect}
    (he : e = ⟨[fp + a, fp + a + 1], [(fp + d, (w0 : M31)), (fp + d + 1, (w1 : M31)), (fp + r, (w2 : M31)), (fp + r +
    1, (w3 : M31))], pc + 2, fp⟩) {x : Bundle}
    (hx : x = ⟨⟨pc, fp⟩, clk, .U32StoreDivRemFpImm a (y0 : M31) (y1 : M31) d r, ic, [
      ⟨fp + a, c0, p0, (x0 : M31)⟩,
      ⟨fp + a + 1, c1, p1, (x1 : M31)⟩,
      ⟨fp + d, c2, p2, (w0 : M31)⟩,
      ⟨fp + d + 1, c3, p3, (w1 : M31)⟩,
      ⟨fp + r, c4, p4, (w2 : M31)⟩,
      ⟨fp + r + 1, c5, p5, (w3 : M31)⟩]⟩) :
    Complete (evaluate (write 1 x).row) (write 1 x).entries x e := by
  have hxx : x0 + 2 ^ 16 * x1 < 2 ^ 32 := by omega
  have hq : (x0 + 2 ^ 16 * x1) / (y0 + 2 ^ 16 * y1) < 2 ^ 32 := (Nat.div_le_self _ _).trans_lt hxx
  have hr : (x0 + 2 ^ 16 * x1) % (y0 + 2 ^ 16 * y1) < 2 ^ 32 := (Nat.mod_le _ _).trans_lt hxx
  have hw00 : w0 < 2 ^ 16 := by omega
  have hw11 : w1 < 2 ^ 16 := by omega
  have hw22 : w2 < 2 ^ 16 := by omega
  have hw33 : w3 < 2 ^ 16 := by omega
  obtain ⟨u0, u1, hu0, hu1, eu0⟩ := bytes_of hw00
  obtain ⟨u2, u3, hu2, hu3, eu2⟩ := bytes_of hw11
  obtain ⟨lu0, mu0, su0⟩ := low_of eu0 hu0 hu1
  obtain ⟨lu2, mu2, su2⟩ := low_of eu2 hu2 hu3
  obtain ⟨v0, v1, hv0, hv1, ev0⟩ := bytes_of hy0
  obtain ⟨v2, v3, hv2, hv3, ev2⟩ := bytes_of hy1
  obtain ⟨lv0, mv0, sv0⟩ := low_of ev0 hv0 hv1
  obtain ⟨lv2, mv2, sv2⟩ := low_of ev2 hv2 hv3
  have hdm := Nat.div_add_mod (x0 + 2 ^ 16 * x1) (y0 + 2 ^ 16 * y1)
  have hlt := Nat.mod_lt (x0 + 2 ^ 16 * x1) (Nat.pos_of_ne_zero hy)
  have hQ : (x0 + 2 ^ 16 * x1) / (y0 + 2 ^ 16 * y1) = w0 + 2 ^ 16 * w1 := by omega
  have hR : (x0 + 2 ^ 16 * x1) % (y0 + 2 ^ 16 * y1) = w2 + 2 ^ 16 * w3 := by omega
  have hj : divMod (joined (x0 : M31) (x1 : M31)) (joined (y0 : M31) (y1 : M31)) = (w0 + 2 ^ 16 * w1, w2 + 2 ^ 16 *
    w3) := by
    rw [joined_cast hx0 hx1, joined_cast hy0 hy1, divMod, if_neg hy, hQ, hR]
  have j0 : w0 % 65536 = w0 := by omega
  have j1 : (w0 + 65536 * w1) / 65536 = w1 := by omega
  have j2 : w2 % 65536 = w2 := by omega
  have j3 : (w2 + 65536 * w3) / 65536 = w3 := by omega
  have j4 : w1 % 65536 = w1 := by omega
  have j5 : w3 % 65536 = w3 := by omega
  have z0 : shr8 (0 : M31) = 0 := by decide
  have z1 : over16 (0 : M31) = 0 := by decide
  rw [hQ, hR] at hdm
  rw [hR] at hlt
  obtain ⟨t0, t1, t2, t3, k0, k1, k2, a0, b0, ht0, ht1, ht2, ht3, hk0, hk1, hk2, ha0, hb0, f0, f1, f2, f3, g0, g1,
    g2, g3, g4,
    g5, g6, o0, o1, n0, n1, i0, i1, i2, i3⟩ := div_write (n0 := x0) (n1 := x1) (s0 := w2) (s1 := w3) hv0 hv1 hv2 hv3
    hu0 hu1
    hu2 hu3 hx0 hx1 hw22 hw33 (by rw [← eu0, ← eu2, ← ev0, ← ev2]; rw [← hdm, Nat.mul_comm (y0 + 2 ^ 16 * y1)]) (by
    rw [← ev0, ← ev2]; exact hlt)
  rw [g3] at f3
  have hrow : (write 1 x).row = {
      enabler := 1, pc := pc, fp := fp, clock := clk, inst_prev_clock := ic, src_off := a, d_0 := v0, d_1 := v1,
      d_2 := v2, d_3 := v3, dst_off := d, dst_rem_off := r, n_lo := (x0 : M31), n_hi := (x1 : M31),
      op0_prev_clock_lo := c0, op0_prev_clock_hi := c1, dst_prev_val_lo := p2, dst_prev_val_hi := p3,
      dst_prev_clock_lo := c2, dst_prev_clock_hi := c3, dst_rem_prev_val_lo := p4, dst_rem_prev_val_hi := p5,
      dst_rem_prev_clock_lo := c4, dst_rem_prev_clock_hi := c5, q_0 := u0, q_1 := u1, q_2 := u2, q_3 := u3,
      mul_carry_0 := k0, mul_carry_1 := k1, mul_carry_2 := k2, mul_carry_3 := 0, mul_carry_4 := 0,
      mul_carry_5 := 0, mul_carry_6 := 0, prod_0 := t0, prod_1 := t1, prod_2 := t2, prod_3 := t3, prod_4 := 0,
      prod_5 := 0, prod_6 := 0, prod_7 := 0, add_carry_0 := a0, add_carry_1 := 0, add_carry_2 := 0,
      add_carry_3 := 0, sub_borrow_0 := b0, sub_borrow_1 := 0, r_lo := w2, r_hi := w3 } := by
    subst hx
    simp [write, value, accessField, accClock, prevValue, address, instValue, Instruction.encode, Instruction.operands,
      Instruction.opcodeValue, M31.ofU32, lu0, mu0, su0, lu2, mu2, su2, lv0, mv0, sv0, lv2, mv2, sv2, byte_sum eu0,
      byte_sum eu2, byte_sum ev0, byte_sum ev2, hj, j0, j1, j2, j3, j4, j5, f0, f1, f2, f3, g0, g1, g2, g3, g4, g5,
      g6, o0, o1, i0, i1, z0, z1]
  have hent : (write 1 x).entries.map Entry.padded = (evaluate (write 1 x).row).entries.map Entry.padded := by
    rw [hrow]
    subst hx
    simp [evaluate, write, Entry.padded, Rel.arity, value, accessField, accClock, prevValue, address, instValue,
    Instruction.encode, Instruction.operands,
      Instruction.opcodeValue, M31.ofU32, lu0, mu0, su0, lu2, mu2, su2, lv0, mv0, sv0, lv2, mv2, sv2, byte_sum eu0,
      byte_sum eu2, byte_sum ev0, byte_sum ev2, hj, j0, j1, j2, j3, j4, j5, f0, f1, f2, f3, g0, g1, g2, g3, g4, g5,
      g6, o0, o1, i0, i1, z0, z1]
  have hperf := performs (r := (write 1 x).row) rfl
  rw [hrow] at hperf hent ⊢
  subst he
  refine ⟨?_, ?_, performs_of (fp := x.registers.fp) (pc := x.registers.pc) (c := x.clock)
    (by subst hx; exact hperf) (num9 pc) rfl ?_, hent⟩
  · simp only [Eval.Satisfied, evaluate, List.forall_mem_cons, List.not_mem_nil, false_implies, implies_true, and_true]
    refine ⟨?_, ?_, ?_, ?_, ?_, ?_, ?_, ?_, ?_, ?_, ?_, ?_, ?_, ?_, ?_, ?_, ?_, ?_, ?_⟩ <;> simp [-mul_eq_zero,
    bit_cast ha0, bit_cast hb0, g0, g1, g2, g3, g4, g5, g6, ← n0, ← n1]
  · simp only [Eval.TablesHold, evaluate, List.forall_mem_cons, th_memory, th_registers, th_rc20, th_rc16, th_rc8,
      true_and, List.not_mem_nil, false_implies, implies_true, and_true, lu0, mu0, su0, lu2, mu2, su2, lv0, mv0, sv0,
      lv2, mv2, sv2, byte_sum eu0, byte_sum eu2, byte_sum ev0, byte_sum ev2, hj, j0, j1, j2, j3, j4, j5, f0, f1, f2,
      f3, g0, g1, g2, g3, g4, g5, g6, o0, o1, i0, i1, z0, z1]
    exact ⟨rc8_cast hv0, rc8_cast hv1, rc8_cast hv2, rc8_cast hv3, rc8_cast hu0, rc8_cast hu1, rc8_cast hu2, rc8_cast
    hu3, rc8_cast ht0, rc8_cast ht1, rc8_cast ht2, rc8_cast ht3, rc8_zero, rc8_zero, rc8_zero, rc8_zero, rc16_cast
    hx0, rc16_cast hx1, rc16_cast hw22, rc16_cast hw33, rc_sub (n := 254) (by norm_num) hk0 (by norm_num), rc_sub (n
    := 509) (by norm_num) hk1 (by norm_num), rc_sub (n := 764) (by norm_num) hk2 (by norm_num), by decide, by decide,
    by decide, by decide, by simpa only [byte_sum ev0] using i2, by simpa only [byte_sum ev2, zero_mul, add_zero]
    using i3, hi, h0, h1, h2, h3, h4, h5⟩
  · refine .of_eq ?_
    subst hx
    simp [accs, stepRecords, codeCells, Instruction.toQM31s, Instruction.packQM31s, QM31.ofM31, Instruction.encode,
      Instruction.operands, Instruction.opcodeValue, M31.ofU32, lu0, mu0, su0, lu2, mu2, su2, lv0, mv0, sv0, lv2,
      mv2, sv2, byte_sum eu0, byte_sum eu2, byte_sum ev0, byte_sum ev2, hj, j0, j1, j2, j3, j4, j5, f0, f1, f2, f3,
      g0, g1, g2, g3, g4, g5, g6, o0, o1, i0, i1, z0, z1]

theorem honest {x : Bundle} {mem : Mem} {e : Effect} {a b b1 d r : M31} (h : Honest x mem e)
    (hin : x.instruction = .U32StoreDivRemFpImm a b b1 d r) : Complete (evaluate (write 1 x).row) (write 1 x).entries
    x e := by
  obtain ⟨⟨pc, fp⟩, clk, i, ic, l⟩ := x
  obtain ⟨hs, ha, hi, hr⟩ := h
  subst hin
  simp only [sem, bin32, bin32Imm, split, Option.bind_eq_bind, Option.bind_eq_some_iff] at hs
  obtain ⟨n, hn, m, hm, hd⟩ := hs
  obtain ⟨x0, x1, hx0, hx1, mx0, mx1, rfl⟩ := u32_inv hm
  obtain ⟨y0, y1, hy0, hy1, rfl, rfl, rfl⟩ := ofLimbs_inv hn
  split at hd
  · simp at hd
  rename_i hz
  have he := done_inv hd
  simp only [he, Effect.log, List.map_cons, List.map_nil, List.cons_append, List.nil_append, mx0, mx1] at ha
  obtain ⟨c0, p0, l0, rfl, ha0⟩ := acc_cons ha
  obtain ⟨c1, p1, l1, rfl, ha1⟩ := acc_cons ha0
  obtain ⟨c2, p2, l2, rfl, ha2⟩ := acc_cons ha1
  obtain ⟨c3, p3, l3, rfl, ha3⟩ := acc_cons ha2
  obtain ⟨c4, p4, l4, rfl, ha4⟩ := acc_cons ha3
  obtain ⟨c5, p5, l5, rfl, ha5⟩ := acc_cons ha4
  obtain rfl := acc_nil ha5
  simp only [List.forall_mem_cons] at hr
  obtain ⟨h0, h1, h2, h3, h4, h5, -⟩ := hr
  exact complete hx0 hx1 hy0 hy1 hz rfl rfl rfl rfl hi h0 h1 h2 h3 h4 h5 he rfl

end U32StoreDivFpImm

namespace U32StoreBitwiseFpImm

theorem complete_and {pc fp clk ic a d c0 p0 c1 p1 c2 p2 c3 p3 : M31} {x0 x1 y0 y1 w0 w1 : ℕ} (hx0 : x0 < 2 ^ 16)
  (hx1 : x1 < 2 ^ 16) (hy0 : y0 < 2 ^ 16) (hy1 : y1 < 2 ^ 16)
    (hw0 : bitwiseOp 0 (x0 + 2 ^ 16 * x1) (y0 + 2 ^ 16 * y1) % 2 ^ 16 = w0) (hw1 : bitwiseOp 0 (x0 + 2 ^ 16 * x1) (y0
    + 2 ^ 16 * y1) / 2 ^ 16 = w1)
    (hi : (clk - ic - 1).val < 2 ^ 20) (h0 : (clk - c0 - 1).val < 2 ^ 20) (h1 : (clk - c1 - 1).val < 2 ^ 20) (h2 :
    (clk - c2 - 1).val < 2 ^ 20) (h3 : (clk - c3 - 1).val < 2 ^ 20) {e : Effect}
    (he : e = ⟨[fp + a, fp + a + 1], [(fp + d, (w0 : M31)), (fp + d + 1, (w1 : M31))], pc + 2, fp⟩) {x : Bundle}
    (hx : x = ⟨⟨pc, fp⟩, clk, .U32StoreAndFpImm a (y0 : M31) (y1 : M31) d, ic, [
      ⟨fp + a, c0, p0, (x0 : M31)⟩,
      ⟨fp + a + 1, c1, p1, (x1 : M31)⟩,
      ⟨fp + d, c2, p2, (w0 : M31)⟩,
      ⟨fp + d + 1, c3, p3, (w1 : M31)⟩]⟩) :
    Complete (evaluate (write 1 x).row) (write 1 x).entries x e := by
  obtain ⟨u0, u1, hu0, hu1, eu0⟩ := bytes_of hx0
  obtain ⟨u2, u3, hu2, hu3, eu2⟩ := bytes_of hx1
  obtain ⟨lu0, mu0, su0⟩ := low_of eu0 hu0 hu1
  obtain ⟨lu2, mu2, su2⟩ := low_of eu2 hu2 hu3
  obtain ⟨v0, v1, hv0, hv1, ev0⟩ := bytes_of hy0
  obtain ⟨v2, v3, hv2, hv3, ev2⟩ := bytes_of hy1
  obtain ⟨lv0, mv0, sv0⟩ := low_of ev0 hv0 hv1
  obtain ⟨lv2, mv2, sv2⟩ := low_of ev2 hv2 hv3
  rw [eu0, eu2, ev0, ev2] at hw0 hw1
  obtain ⟨t0, t1, t2, t3, ht0, ht1, ht2, ht3, o0, o1, o2, o3, et0, et2⟩ := bitwise_write hu0 hu1 hu2 hu3 hv0 hv1 hv2
    hv3 hw0 hw1
  obtain ⟨lt0, mt0, st0⟩ := low_of et0 ht0 ht1
  obtain ⟨lt2, mt2, st2⟩ := low_of et2 ht2 ht3
  have hop : notRet 39 39 = 39 := by decide
  have hsub : (39 : M31) - 39 = ((0 : ℕ) : M31) := by decide
  have hrow : (write 1 x).row = {
      enabler := 1, pc := pc, fp := fp, clock := clk, inst_prev_clock := ic, opcode_constant := 39, src_off := a,
      imm_0 := v0, imm_1 := v1, imm_2 := v2, imm_3 := v3, dst_off := d, op0_val_0 := u0, op0_val_1 := u1,
      op0_val_2 := u2, op0_val_3 := u3, op0_prev_clock_lo := c0, op0_prev_clock_hi := c1, dst_prev_val_lo := p2,
      dst_prev_val_hi := p3, dst_val_0 := t0, dst_val_1 := t1, dst_val_2 := t2, dst_val_3 := t3,
      dst_prev_clock_lo := c2, dst_prev_clock_hi := c3 } := by
    subst hx
    simp [write, value, accessField, accClock, prevValue, address, instValue, Instruction.encode, Instruction.operands,
      Instruction.opcodeValue, M31.ofU32, lu0, mu0, su0, lu2, mu2, su2, lv0, mv0, sv0, lv2, mv2, sv2, byte_sum eu0,
      byte_sum eu2, byte_sum ev0, byte_sum ev2, lt0, mt0, lt2, mt2, byte_sum et0, byte_sum et2, hop]
  have hent : (write 1 x).entries.map Entry.padded = (evaluate (write 1 x).row).entries.map Entry.padded := by
    rw [hrow]
    subst hx
    simp [evaluate, write, Entry.padded, Rel.arity, value, accessField, accClock, prevValue, address, instValue,
    Instruction.encode, Instruction.operands,
      Instruction.opcodeValue, M31.ofU32, lu0, mu0, su0, lu2, mu2, su2, lv0, mv0, sv0, lv2, mv2, sv2, byte_sum eu0,
      byte_sum eu2, byte_sum ev0, byte_sum ev2, lt0, mt0, lt2, mt2, byte_sum et0, byte_sum et2, hop]
  have hperf := performs (r := (write 1 x).row) rfl
  rw [hrow] at hperf hent ⊢
  subst he
  refine ⟨?_, ?_, performs_of (fp := x.registers.fp) (pc := x.registers.pc) (c := x.clock)
    (by subst hx; exact hperf) (num9 pc) rfl ?_, hent⟩
  · simp only [Eval.Satisfied, evaluate, List.forall_mem_cons, List.not_mem_nil, false_implies, implies_true, and_true]
    simp
  · simp only [Eval.TablesHold, evaluate, List.forall_mem_cons, th_memory, th_registers, th_rc20, th_rc16, th_rc8,
      true_and, List.not_mem_nil, false_implies, implies_true, and_true, lu0, mu0, su0, lu2, mu2, su2, lv0, mv0, sv0,
      lv2, mv2, sv2, byte_sum eu0, byte_sum eu2, byte_sum ev0, byte_sum ev2, lt0, mt0, lt2, mt2, byte_sum et0,
      byte_sum et2, hop]
    exact ⟨holds_bitwise hsub (by norm_num) hu0 hv0 o0, holds_bitwise hsub (by norm_num) hu1 hv1 o1, holds_bitwise
    hsub (by norm_num) hu2 hv2 o2, holds_bitwise hsub (by norm_num) hu3 hv3 o3, hi, h0, h1, h2, h3⟩
  · refine .of_eq ?_
    subst hx
    simp [accs, stepRecords, codeCells, Instruction.toQM31s, Instruction.packQM31s, QM31.ofM31, Instruction.encode,
      Instruction.operands, Instruction.opcodeValue, M31.ofU32, lu0, mu0, su0, lu2, mu2, su2, lv0, mv0, sv0, lv2,
      mv2, sv2, byte_sum eu0, byte_sum eu2, byte_sum ev0, byte_sum ev2, lt0, mt0, lt2, mt2, byte_sum et0, byte_sum
      et2, hop]

theorem complete_or {pc fp clk ic a d c0 p0 c1 p1 c2 p2 c3 p3 : M31} {x0 x1 y0 y1 w0 w1 : ℕ} (hx0 : x0 < 2 ^ 16) (hx1
  : x1 < 2 ^ 16) (hy0 : y0 < 2 ^ 16) (hy1 : y1 < 2 ^ 16)
    (hw0 : bitwiseOp 1 (x0 + 2 ^ 16 * x1) (y0 + 2 ^ 16 * y1) % 2 ^ 16 = w0) (hw1 : bitwiseOp 1 (x0 + 2 ^ 16 * x1) (y0
    + 2 ^ 16 * y1) / 2 ^ 16 = w1)
    (hi : (clk - ic - 1).val < 2 ^ 20) (h0 : (clk - c0 - 1).val < 2 ^ 20) (h1 : (clk - c1 - 1).val < 2 ^ 20) (h2 :
    (clk - c2 - 1).val < 2 ^ 20) (h3 : (clk - c3 - 1).val < 2 ^ 20) {e : Effect}
    (he : e = ⟨[fp + a, fp + a + 1], [(fp + d, (w0 : M31)), (fp + d + 1, (w1 : M31))], pc + 2, fp⟩) {x : Bundle}
    (hx : x = ⟨⟨pc, fp⟩, clk, .U32StoreOrFpImm a (y0 : M31) (y1 : M31) d, ic, [
      ⟨fp + a, c0, p0, (x0 : M31)⟩,
      ⟨fp + a + 1, c1, p1, (x1 : M31)⟩,
      ⟨fp + d, c2, p2, (w0 : M31)⟩,
      ⟨fp + d + 1, c3, p3, (w1 : M31)⟩]⟩) :
    Complete (evaluate (write 1 x).row) (write 1 x).entries x e := by
  obtain ⟨u0, u1, hu0, hu1, eu0⟩ := bytes_of hx0
  obtain ⟨u2, u3, hu2, hu3, eu2⟩ := bytes_of hx1
  obtain ⟨lu0, mu0, su0⟩ := low_of eu0 hu0 hu1
  obtain ⟨lu2, mu2, su2⟩ := low_of eu2 hu2 hu3
  obtain ⟨v0, v1, hv0, hv1, ev0⟩ := bytes_of hy0
  obtain ⟨v2, v3, hv2, hv3, ev2⟩ := bytes_of hy1
  obtain ⟨lv0, mv0, sv0⟩ := low_of ev0 hv0 hv1
  obtain ⟨lv2, mv2, sv2⟩ := low_of ev2 hv2 hv3
  rw [eu0, eu2, ev0, ev2] at hw0 hw1
  obtain ⟨t0, t1, t2, t3, ht0, ht1, ht2, ht3, o0, o1, o2, o3, et0, et2⟩ := bitwise_write hu0 hu1 hu2 hu3 hv0 hv1 hv2
    hv3 hw0 hw1
  obtain ⟨lt0, mt0, st0⟩ := low_of et0 ht0 ht1
  obtain ⟨lt2, mt2, st2⟩ := low_of et2 ht2 ht3
  have hop : notRet 39 40 = 40 := by decide
  have hsub : (40 : M31) - 39 = ((1 : ℕ) : M31) := by decide
  have hrow : (write 1 x).row = {
      enabler := 1, pc := pc, fp := fp, clock := clk, inst_prev_clock := ic, opcode_constant := 40, src_off := a,
      imm_0 := v0, imm_1 := v1, imm_2 := v2, imm_3 := v3, dst_off := d, op0_val_0 := u0, op0_val_1 := u1,
      op0_val_2 := u2, op0_val_3 := u3, op0_prev_clock_lo := c0, op0_prev_clock_hi := c1, dst_prev_val_lo := p2,
      dst_prev_val_hi := p3, dst_val_0 := t0, dst_val_1 := t1, dst_val_2 := t2, dst_val_3 := t3,
      dst_prev_clock_lo := c2, dst_prev_clock_hi := c3 } := by
    subst hx
    simp [write, value, accessField, accClock, prevValue, address, instValue, Instruction.encode, Instruction.operands,
      Instruction.opcodeValue, M31.ofU32, lu0, mu0, su0, lu2, mu2, su2, lv0, mv0, sv0, lv2, mv2, sv2, byte_sum eu0,
      byte_sum eu2, byte_sum ev0, byte_sum ev2, lt0, mt0, lt2, mt2, byte_sum et0, byte_sum et2, hop]
  have hent : (write 1 x).entries.map Entry.padded = (evaluate (write 1 x).row).entries.map Entry.padded := by
    rw [hrow]
    subst hx
    simp [evaluate, write, Entry.padded, Rel.arity, value, accessField, accClock, prevValue, address, instValue,
    Instruction.encode, Instruction.operands,
      Instruction.opcodeValue, M31.ofU32, lu0, mu0, su0, lu2, mu2, su2, lv0, mv0, sv0, lv2, mv2, sv2, byte_sum eu0,
      byte_sum eu2, byte_sum ev0, byte_sum ev2, lt0, mt0, lt2, mt2, byte_sum et0, byte_sum et2, hop]
  have hperf := performs (r := (write 1 x).row) rfl
  rw [hrow] at hperf hent ⊢
  subst he
  refine ⟨?_, ?_, performs_of (fp := x.registers.fp) (pc := x.registers.pc) (c := x.clock)
    (by subst hx; exact hperf) (num9 pc) rfl ?_, hent⟩
  · simp only [Eval.Satisfied, evaluate, List.forall_mem_cons, List.not_mem_nil, false_implies, implies_true, and_true]
    simp
  · simp only [Eval.TablesHold, evaluate, List.forall_mem_cons, th_memory, th_registers, th_rc20, th_rc16, th_rc8,
      true_and, List.not_mem_nil, false_implies, implies_true, and_true, lu0, mu0, su0, lu2, mu2, su2, lv0, mv0, sv0,
      lv2, mv2, sv2, byte_sum eu0, byte_sum eu2, byte_sum ev0, byte_sum ev2, lt0, mt0, lt2, mt2, byte_sum et0,
      byte_sum et2, hop]
    exact ⟨holds_bitwise hsub (by norm_num) hu0 hv0 o0, holds_bitwise hsub (by norm_num) hu1 hv1 o1, holds_bitwise
    hsub (by norm_num) hu2 hv2 o2, holds_bitwise hsub (by norm_num) hu3 hv3 o3, hi, h0, h1, h2, h3⟩
  · refine .of_eq ?_
    subst hx
    simp [accs, stepRecords, codeCells, Instruction.toQM31s, Instruction.packQM31s, QM31.ofM31, Instruction.encode,
      Instruction.operands, Instruction.opcodeValue, M31.ofU32, lu0, mu0, su0, lu2, mu2, su2, lv0, mv0, sv0, lv2,
      mv2, sv2, byte_sum eu0, byte_sum eu2, byte_sum ev0, byte_sum ev2, lt0, mt0, lt2, mt2, byte_sum et0, byte_sum
      et2, hop]

theorem complete_xor {pc fp clk ic a d c0 p0 c1 p1 c2 p2 c3 p3 : M31} {x0 x1 y0 y1 w0 w1 : ℕ} (hx0 : x0 < 2 ^ 16)
  (hx1 : x1 < 2 ^ 16) (hy0 : y0 < 2 ^ 16) (hy1 : y1 < 2 ^ 16)
    (hw0 : bitwiseOp 2 (x0 + 2 ^ 16 * x1) (y0 + 2 ^ 16 * y1) % 2 ^ 16 = w0) (hw1 : bitwiseOp 2 (x0 + 2 ^ 16 * x1) (y0
    + 2 ^ 16 * y1) / 2 ^ 16 = w1)
    (hi : (clk - ic - 1).val < 2 ^ 20) (h0 : (clk - c0 - 1).val < 2 ^ 20) (h1 : (clk - c1 - 1).val < 2 ^ 20) (h2 :
    (clk - c2 - 1).val < 2 ^ 20) (h3 : (clk - c3 - 1).val < 2 ^ 20) {e : Effect}
    (he : e = ⟨[fp + a, fp + a + 1], [(fp + d, (w0 : M31)), (fp + d + 1, (w1 : M31))], pc + 2, fp⟩) {x : Bundle}
    (hx : x = ⟨⟨pc, fp⟩, clk, .U32StoreXorFpImm a (y0 : M31) (y1 : M31) d, ic, [
      ⟨fp + a, c0, p0, (x0 : M31)⟩,
      ⟨fp + a + 1, c1, p1, (x1 : M31)⟩,
      ⟨fp + d, c2, p2, (w0 : M31)⟩,
      ⟨fp + d + 1, c3, p3, (w1 : M31)⟩]⟩) :
    Complete (evaluate (write 1 x).row) (write 1 x).entries x e := by
  obtain ⟨u0, u1, hu0, hu1, eu0⟩ := bytes_of hx0
  obtain ⟨u2, u3, hu2, hu3, eu2⟩ := bytes_of hx1
  obtain ⟨lu0, mu0, su0⟩ := low_of eu0 hu0 hu1
  obtain ⟨lu2, mu2, su2⟩ := low_of eu2 hu2 hu3
  obtain ⟨v0, v1, hv0, hv1, ev0⟩ := bytes_of hy0
  obtain ⟨v2, v3, hv2, hv3, ev2⟩ := bytes_of hy1
  obtain ⟨lv0, mv0, sv0⟩ := low_of ev0 hv0 hv1
  obtain ⟨lv2, mv2, sv2⟩ := low_of ev2 hv2 hv3
  rw [eu0, eu2, ev0, ev2] at hw0 hw1
  obtain ⟨t0, t1, t2, t3, ht0, ht1, ht2, ht3, o0, o1, o2, o3, et0, et2⟩ := bitwise_write hu0 hu1 hu2 hu3 hv0 hv1 hv2
    hv3 hw0 hw1
  obtain ⟨lt0, mt0, st0⟩ := low_of et0 ht0 ht1
  obtain ⟨lt2, mt2, st2⟩ := low_of et2 ht2 ht3
  have hop : notRet 39 41 = 41 := by decide
  have hsub : (41 : M31) - 39 = ((2 : ℕ) : M31) := by decide
  have hrow : (write 1 x).row = {
      enabler := 1, pc := pc, fp := fp, clock := clk, inst_prev_clock := ic, opcode_constant := 41, src_off := a,
      imm_0 := v0, imm_1 := v1, imm_2 := v2, imm_3 := v3, dst_off := d, op0_val_0 := u0, op0_val_1 := u1,
      op0_val_2 := u2, op0_val_3 := u3, op0_prev_clock_lo := c0, op0_prev_clock_hi := c1, dst_prev_val_lo := p2,
      dst_prev_val_hi := p3, dst_val_0 := t0, dst_val_1 := t1, dst_val_2 := t2, dst_val_3 := t3,
      dst_prev_clock_lo := c2, dst_prev_clock_hi := c3 } := by
    subst hx
    simp [write, value, accessField, accClock, prevValue, address, instValue, Instruction.encode, Instruction.operands,
      Instruction.opcodeValue, M31.ofU32, lu0, mu0, su0, lu2, mu2, su2, lv0, mv0, sv0, lv2, mv2, sv2, byte_sum eu0,
      byte_sum eu2, byte_sum ev0, byte_sum ev2, lt0, mt0, lt2, mt2, byte_sum et0, byte_sum et2, hop]
  have hent : (write 1 x).entries.map Entry.padded = (evaluate (write 1 x).row).entries.map Entry.padded := by
    rw [hrow]
    subst hx
    simp [evaluate, write, Entry.padded, Rel.arity, value, accessField, accClock, prevValue, address, instValue,
    Instruction.encode, Instruction.operands,
      Instruction.opcodeValue, M31.ofU32, lu0, mu0, su0, lu2, mu2, su2, lv0, mv0, sv0, lv2, mv2, sv2, byte_sum eu0,
      byte_sum eu2, byte_sum ev0, byte_sum ev2, lt0, mt0, lt2, mt2, byte_sum et0, byte_sum et2, hop]
  have hperf := performs (r := (write 1 x).row) rfl
  rw [hrow] at hperf hent ⊢
  subst he
  refine ⟨?_, ?_, performs_of (fp := x.registers.fp) (pc := x.registers.pc) (c := x.clock)
    (by subst hx; exact hperf) (num9 pc) rfl ?_, hent⟩
  · simp only [Eval.Satisfied, evaluate, List.forall_mem_cons, List.not_mem_nil, false_implies, implies_true, and_true]
    simp
  · simp only [Eval.TablesHold, evaluate, List.forall_mem_cons, th_memory, th_registers, th_rc20, th_rc16, th_rc8,
      true_and, List.not_mem_nil, false_implies, implies_true, and_true, lu0, mu0, su0, lu2, mu2, su2, lv0, mv0, sv0,
      lv2, mv2, sv2, byte_sum eu0, byte_sum eu2, byte_sum ev0, byte_sum ev2, lt0, mt0, lt2, mt2, byte_sum et0,
      byte_sum et2, hop]
    exact ⟨holds_bitwise hsub (by norm_num) hu0 hv0 o0, holds_bitwise hsub (by norm_num) hu1 hv1 o1, holds_bitwise
    hsub (by norm_num) hu2 hv2 o2, holds_bitwise hsub (by norm_num) hu3 hv3 o3, hi, h0, h1, h2, h3⟩
  · refine .of_eq ?_
    subst hx
    simp [accs, stepRecords, codeCells, Instruction.toQM31s, Instruction.packQM31s, QM31.ofM31, Instruction.encode,
      Instruction.operands, Instruction.opcodeValue, M31.ofU32, lu0, mu0, su0, lu2, mu2, su2, lv0, mv0, sv0, lv2,
      mv2, sv2, byte_sum eu0, byte_sum eu2, byte_sum ev0, byte_sum ev2, lt0, mt0, lt2, mt2, byte_sum et0, byte_sum
      et2, hop]

theorem honest_and {x : Bundle} {mem : Mem} {e : Effect} {a b b1 d : M31} (h : Honest x mem e)
    (hin : x.instruction = .U32StoreAndFpImm a b b1 d) : Complete (evaluate (write 1 x).row) (write 1 x).entries x e
    := by
  obtain ⟨⟨pc, fp⟩, clk, i, ic, l⟩ := x
  obtain ⟨hs, ha, hi, hr⟩ := h
  subst hin
  simp only [sem, bin32, bin32Imm, split, Option.bind_eq_bind, Option.bind_eq_some_iff] at hs
  obtain ⟨n, hn, m, hm, hd⟩ := hs
  obtain ⟨x0, x1, hx0, hx1, mx0, mx1, rfl⟩ := u32_inv hm
  obtain ⟨y0, y1, hy0, hy1, rfl, rfl, rfl⟩ := ofLimbs_inv hn
  have he := done_inv hd
  simp only [he, Effect.log, List.map_cons, List.map_nil, List.cons_append, List.nil_append, mx0, mx1] at ha
  obtain ⟨c0, p0, l0, rfl, ha0⟩ := acc_cons ha
  obtain ⟨c1, p1, l1, rfl, ha1⟩ := acc_cons ha0
  obtain ⟨c2, p2, l2, rfl, ha2⟩ := acc_cons ha1
  obtain ⟨c3, p3, l3, rfl, ha3⟩ := acc_cons ha2
  obtain rfl := acc_nil ha3
  simp only [List.forall_mem_cons] at hr
  obtain ⟨h0, h1, h2, h3, -⟩ := hr
  exact complete_and hx0 hx1 hy0 hy1 rfl rfl hi h0 h1 h2 h3 he rfl

theorem honest_or {x : Bundle} {mem : Mem} {e : Effect} {a b b1 d : M31} (h : Honest x mem e)
    (hin : x.instruction = .U32StoreOrFpImm a b b1 d) : Complete (evaluate (write 1 x).row) (write 1 x).entries x e
    := by
  obtain ⟨⟨pc, fp⟩, clk, i, ic, l⟩ := x
  obtain ⟨hs, ha, hi, hr⟩ := h
  subst hin
  simp only [sem, bin32, bin32Imm, split, Option.bind_eq_bind, Option.bind_eq_some_iff] at hs
  obtain ⟨n, hn, m, hm, hd⟩ := hs
  obtain ⟨x0, x1, hx0, hx1, mx0, mx1, rfl⟩ := u32_inv hm
  obtain ⟨y0, y1, hy0, hy1, rfl, rfl, rfl⟩ := ofLimbs_inv hn
  have he := done_inv hd
  simp only [he, Effect.log, List.map_cons, List.map_nil, List.cons_append, List.nil_append, mx0, mx1] at ha
  obtain ⟨c0, p0, l0, rfl, ha0⟩ := acc_cons ha
  obtain ⟨c1, p1, l1, rfl, ha1⟩ := acc_cons ha0
  obtain ⟨c2, p2, l2, rfl, ha2⟩ := acc_cons ha1
  obtain ⟨c3, p3, l3, rfl, ha3⟩ := acc_cons ha2
  obtain rfl := acc_nil ha3
  simp only [List.forall_mem_cons] at hr
  obtain ⟨h0, h1, h2, h3, -⟩ := hr
  exact complete_or hx0 hx1 hy0 hy1 rfl rfl hi h0 h1 h2 h3 he rfl

theorem honest_xor {x : Bundle} {mem : Mem} {e : Effect} {a b b1 d : M31} (h : Honest x mem e)
    (hin : x.instruction = .U32StoreXorFpImm a b b1 d) : Complete (evaluate (write 1 x).row) (write 1 x).entries x e
    := by
  obtain ⟨⟨pc, fp⟩, clk, i, ic, l⟩ := x
  obtain ⟨hs, ha, hi, hr⟩ := h
  subst hin
  simp only [sem, bin32, bin32Imm, split, Option.bind_eq_bind, Option.bind_eq_some_iff] at hs
  obtain ⟨n, hn, m, hm, hd⟩ := hs
  obtain ⟨x0, x1, hx0, hx1, mx0, mx1, rfl⟩ := u32_inv hm
  obtain ⟨y0, y1, hy0, hy1, rfl, rfl, rfl⟩ := ofLimbs_inv hn
  have he := done_inv hd
  simp only [he, Effect.log, List.map_cons, List.map_nil, List.cons_append, List.nil_append, mx0, mx1] at ha
  obtain ⟨c0, p0, l0, rfl, ha0⟩ := acc_cons ha
  obtain ⟨c1, p1, l1, rfl, ha1⟩ := acc_cons ha0
  obtain ⟨c2, p2, l2, rfl, ha2⟩ := acc_cons ha1
  obtain ⟨c3, p3, l3, rfl, ha3⟩ := acc_cons ha2
  obtain rfl := acc_nil ha3
  simp only [List.forall_mem_cons] at hr
  obtain ⟨h0, h1, h2, h3, -⟩ := hr
  exact complete_xor hx0 hx1 hy0 hy1 rfl rfl hi h0 h1 h2 h3 he rfl

end U32StoreBitwiseFpImm

namespace U32StoreEqFpFp

theorem complete {pc fp clk ic a b d c0 p0 c1 p1 c2 p2 c3 p3 c4 p4 : M31} {x0 x1 y0 y1 : ℕ} (hx0 : x0 < 2 ^ 16) (hx1
  : x1 < 2 ^ 16) (hy0 : y0 < 2 ^ 16) (hy1 : y1 < 2 ^ 16)
    
    (hi : (clk - ic - 1).val < 2 ^ 20) (h0 : (clk - c0 - 1).val < 2 ^ 20) (h1 : (clk - c1 - 1).val < 2 ^ 20) (h2 :
    (clk - c2 - 1).val < 2 ^ 20) (h3 : (clk - c3 - 1).val < 2 ^ 20) (h4 : (clk - c4 - 1).val < 2 ^ 20) {e : Effect}
    (he : e = ⟨[fp + a, fp + a + 1, fp + b, fp + b + 1], [(fp + 0, bit (x0 + 2 ^ 16 * x1 = y0 + 2 ^ 16 * y1))], pc +
    1, fp⟩) {x : Bundle}
    (hx : x = ⟨⟨pc, fp⟩, clk, .U32StoreEqFpFp a b 0, ic, [
      ⟨fp + a, c0, p0, (x0 : M31)⟩,
      ⟨fp + a + 1, c1, p1, (x1 : M31)⟩,
      ⟨fp + b, c2, p2, (y0 : M31)⟩,
      ⟨fp + b + 1, c3, p3, (y1 : M31)⟩,
      ⟨fp + 0, c4, p4, bit (x0 + 2 ^ 16 * x1 = y0 + 2 ^ 16 * y1)⟩]⟩) :
    Complete (evaluate (write 1 x).row) (write 1 x).entries x e := by
  obtain ⟨f0, f1, f2⟩ := eq_write hx0 hx1 hy0 hy1
  have hrow : (write 1 x).row = {
      enabler := 1, pc := pc, fp := fp, clock := clk, inst_prev_clock := ic, src0_off := a, src1_off := b,
      dst_off := 0, op0_val_lo := (x0 : M31), op0_val_hi := (x1 : M31), op0_prev_clock_lo := c0,
      op0_prev_clock_hi := c1, op1_val_lo := (y0 : M31), op1_val_hi := (y1 : M31), op1_prev_clock_lo := c2,
      op1_prev_clock_hi := c3, dst_prev_val := p4, dst_prev_clock := c4,
      diff_inv_lo := invOrZero ((y0 : M31) - (x0 : M31)), diff_inv_hi := invOrZero ((y1 : M31) - (x1 : M31)),
      is_eq_lo := 1 - ((y0 : M31) - (x0 : M31)) * invOrZero ((y0 : M31) - (x0 : M31)),
      is_eq_prod := bit (x0 + 2 ^ 16 * x1 = y0 + 2 ^ 16 * y1) } := by
    subst hx
    simp [write, value, accessField, accClock, prevValue, address, instValue, Instruction.encode, Instruction.operands,
      Instruction.opcodeValue, M31.ofU32, f2]
  have hent : (write 1 x).entries.map Entry.padded = (evaluate (write 1 x).row).entries.map Entry.padded := by
    rw [hrow]
    subst hx
    simp [evaluate, write, Entry.padded, Rel.arity, value, accessField, accClock, prevValue, address, instValue,
    Instruction.encode, Instruction.operands,
      Instruction.opcodeValue, M31.ofU32, f2]
  have hperf := performs (r := (write 1 x).row) rfl
  rw [hrow] at hperf hent ⊢
  subst he
  refine ⟨?_, ?_, performs_of (fp := x.registers.fp) (pc := x.registers.pc) (c := x.clock)
    (by subst hx; exact hperf) rfl rfl ?_, hent⟩
  · simp only [Eval.Satisfied, evaluate, List.forall_mem_cons, List.not_mem_nil, false_implies, implies_true, and_true]
    exact ⟨by simp, f0, f1, sub_self _, by rw [f2, sub_self]⟩
  · simp only [Eval.TablesHold, evaluate, List.forall_mem_cons, th_memory, th_registers, th_rc20, th_rc16, th_rc8,
      true_and, List.not_mem_nil, false_implies, implies_true, and_true, f2]
    exact ⟨rc16_cast hx0, rc16_cast hx1, rc16_cast hy0, rc16_cast hy1, hi, h0, h1, h2, h3, h4⟩
  · refine .of_eq ?_
    subst hx
    simp [accs, stepRecords, codeCells, Instruction.toQM31s, Instruction.packQM31s, QM31.ofM31, Instruction.encode,
      Instruction.operands, Instruction.opcodeValue, M31.ofU32, f2]

theorem honest {x : Bundle} {mem : Mem} {e : Effect} {a b : M31} (h : Honest x mem e)
    (hin : x.instruction = .U32StoreEqFpFp a b 0) : Complete (evaluate (write 1 x).row) (write 1 x).entries x e := by
  obtain ⟨⟨pc, fp⟩, clk, i, ic, l⟩ := x
  obtain ⟨hs, ha, hi, hr⟩ := h
  subst hin
  simp only [sem, bin32, bin32Imm, split, Option.bind_eq_bind, Option.bind_eq_some_iff] at hs
  obtain ⟨m, hm, n, hn, hd⟩ := hs
  obtain ⟨x0, x1, hx0, hx1, mx0, mx1, rfl⟩ := u32_inv hm
  obtain ⟨y0, y1, hy0, hy1, my0, my1, rfl⟩ := u32_inv hn
  have he := done_inv hd
  simp only [he, Effect.log, List.map_cons, List.map_nil, List.cons_append, List.nil_append, mx0, mx1, my0, my1] at ha
  obtain ⟨c0, p0, l0, rfl, ha0⟩ := acc_cons ha
  obtain ⟨c1, p1, l1, rfl, ha1⟩ := acc_cons ha0
  obtain ⟨c2, p2, l2, rfl, ha2⟩ := acc_cons ha1
  obtain ⟨c3, p3, l3, rfl, ha3⟩ := acc_cons ha2
  obtain ⟨c4, p4, l4, rfl, ha4⟩ := acc_cons ha3
  obtain rfl := acc_nil ha4
  simp only [List.forall_mem_cons] at hr
  obtain ⟨h0, h1, h2, h3, h4, -⟩ := hr
  exact complete (d := 0) hx0 hx1 hy0 hy1 hi h0 h1 h2 h3 h4 he rfl

end U32StoreEqFpFp

namespace U32StoreSubFpFp

theorem complete {pc fp clk ic a b d c0 p0 c1 p1 c2 p2 c3 p3 c4 p4 c5 p5 : M31} {x0 x1 y0 y1 w0 w1 : ℕ} (hx0 : x0 < 2
  ^ 16) (hx1 : x1 < 2 ^ 16) (hy0 : y0 < 2 ^ 16) (hy1 : y1 < 2 ^ 16)
    (hw0 : (x0 + 2 ^ 16 * x1 + 2 ^ 32 - (y0 + 2 ^ 16 * y1)) % 2 ^ 32 % 2 ^ 16 = w0) (hw1 : (x0 + 2 ^ 16 * x1 + 2 ^ 32
    - (y0 + 2 ^ 16 * y1)) % 2 ^ 32 / 2 ^ 16 = w1)
    (hi : (clk - ic - 1).val < 2 ^ 20) (h0 : (clk - c0 - 1).val < 2 ^ 20) (h1 : (clk - c1 - 1).val < 2 ^ 20) (h2 :
    (clk - c2 - 1).val < 2 ^ 20) (h3 : (clk - c3 - 1).val < 2 ^ 20) (h4 : (clk - c4 - 1).val < 2 ^ 20) (h5 : (clk -
    c5 - 1).val < 2 ^ 20) {e : Effect}
    (he : e = ⟨[fp + a, fp + a + 1, fp + b, fp + b + 1], [(fp + d, (w0 : M31)), (fp + d + 1, (w1 : M31))], pc + 1,
    fp⟩) {x : Bundle}
    (hx : x = ⟨⟨pc, fp⟩, clk, .U32StoreSubFpFp a b d, ic, [
      ⟨fp + a, c0, p0, (x0 : M31)⟩,
      ⟨fp + a + 1, c1, p1, (x1 : M31)⟩,
      ⟨fp + b, c2, p2, (y0 : M31)⟩,
      ⟨fp + b + 1, c3, p3, (y1 : M31)⟩,
      ⟨fp + d, c4, p4, (w0 : M31)⟩,
      ⟨fp + d + 1, c5, p5, (w1 : M31)⟩]⟩) :
    Complete (evaluate (write 1 x).row) (write 1 x).entries x e := by
  obtain ⟨k0, k1, hk0, hk1, b0, b1, f0, f1, g0, g1⟩ := sub_write hx0 hx1 hy0 hy1 hw0 hw1
  have hrow : (write 1 x).row = {
      enabler := 1, pc := pc, fp := fp, clock := clk, inst_prev_clock := ic, src0_off := a, src1_off := b,
      dst_off := d, op0_val_lo := (x0 : M31), op0_val_hi := (x1 : M31), op0_prev_lo_clock := c0,
      op0_prev_hi_clock := c1, op1_val_lo := (y0 : M31), op1_val_hi := (y1 : M31), op1_prev_lo_clock := c2,
      op1_prev_hi_clock := c3, dst_prev_val_lo := p4, dst_prev_val_hi := p5, dst_prev_lo_clock := c4,
      dst_prev_hi_clock := c5, borrow_lo := k0, borrow_hi := k1 } := by
    subst hx
    simp [write, value, accessField, accClock, prevValue, address, instValue, Instruction.encode, Instruction.operands,
      Instruction.opcodeValue, M31.ofU32, f0, f1, g0, g1]
  have hent : (write 1 x).entries.map Entry.padded = (evaluate (write 1 x).row).entries.map Entry.padded := by
    rw [hrow]
    subst hx
    simp [evaluate, write, Entry.padded, Rel.arity, value, accessField, accClock, prevValue, address, instValue,
    Instruction.encode, Instruction.operands,
      Instruction.opcodeValue, M31.ofU32, f0, f1, g0, g1]
  have hperf := performs (r := (write 1 x).row) rfl
  rw [hrow] at hperf hent ⊢
  subst he
  refine ⟨?_, ?_, performs_of (fp := x.registers.fp) (pc := x.registers.pc) (c := x.clock)
    (by subst hx; exact hperf) rfl rfl ?_, hent⟩
  · simp only [Eval.Satisfied, evaluate, List.forall_mem_cons, List.not_mem_nil, false_implies, implies_true, and_true]
    exact ⟨by simp, bit_cast hk0, bit_cast hk1⟩
  · simp only [Eval.TablesHold, evaluate, List.forall_mem_cons, th_memory, th_registers, th_rc20, th_rc16, th_rc8,
      true_and, List.not_mem_nil, false_implies, implies_true, and_true, f0, f1, g0, g1]
    exact ⟨rc16_cast hx0, rc16_cast hx1, rc16_cast hy0, rc16_cast hy1, rc16_cast b0, rc16_cast b1, hi, h0, h1, h2,
    h3, h4, h5⟩
  · refine .of_eq ?_
    subst hx
    simp [accs, stepRecords, codeCells, Instruction.toQM31s, Instruction.packQM31s, QM31.ofM31, Instruction.encode,
      Instruction.operands, Instruction.opcodeValue, M31.ofU32, f0, f1, g0, g1]

theorem honest {x : Bundle} {mem : Mem} {e : Effect} {a b d : M31} (h : Honest x mem e)
    (hin : x.instruction = .U32StoreSubFpFp a b d) : Complete (evaluate (write 1 x).row) (write 1 x).entries x e := by
  obtain ⟨⟨pc, fp⟩, clk, i, ic, l⟩ := x
  obtain ⟨hs, ha, hi, hr⟩ := h
  subst hin
  simp only [sem, bin32, bin32Imm, split, Option.bind_eq_bind, Option.bind_eq_some_iff] at hs
  obtain ⟨m, hm, n, hn, hd⟩ := hs
  obtain ⟨x0, x1, hx0, hx1, mx0, mx1, rfl⟩ := u32_inv hm
  obtain ⟨y0, y1, hy0, hy1, my0, my1, rfl⟩ := u32_inv hn
  have he := done_inv hd
  simp only [he, Effect.log, List.map_cons, List.map_nil, List.cons_append, List.nil_append, mx0, mx1, my0, my1] at ha
  obtain ⟨c0, p0, l0, rfl, ha0⟩ := acc_cons ha
  obtain ⟨c1, p1, l1, rfl, ha1⟩ := acc_cons ha0
  obtain ⟨c2, p2, l2, rfl, ha2⟩ := acc_cons ha1
  obtain ⟨c3, p3, l3, rfl, ha3⟩ := acc_cons ha2
  obtain ⟨c4, p4, l4, rfl, ha4⟩ := acc_cons ha3
  obtain ⟨c5, p5, l5, rfl, ha5⟩ := acc_cons ha4
  obtain rfl := acc_nil ha5
  simp only [List.forall_mem_cons] at hr
  obtain ⟨h0, h1, h2, h3, h4, h5, -⟩ := hr
  exact complete hx0 hx1 hy0 hy1 rfl rfl hi h0 h1 h2 h3 h4 h5 he rfl

end U32StoreSubFpFp

end Air
end CairoM
