import Verif.AirWriteLemmas

/-!
# Honest rows: felt components
-/

set_option linter.unusedSimpArgs false
set_option linter.unusedVariables false

namespace CairoM
namespace Air

open Adapter (Bundle DataAccess)
open Isa

namespace StoreFpFp

theorem complete_add {pc fp clk ic a b d u v c0 p0 c1 p1 c2 p2 : M31} 
    (hi : (clk - ic - 1).val < 2 ^ 20) (h0 : (clk - c0 - 1).val < 2 ^ 20) (h1 : (clk - c1 - 1).val < 2 ^ 20) (h2 :
    (clk - c2 - 1).val < 2 ^ 20) {e : Effect}
    (he : e = ⟨[fp + a, fp + b], [(fp + d, u + v)], pc + 1, fp⟩) {x : Bundle}
    (hx : x = ⟨⟨pc, fp⟩, clk, .StoreAddFpFp a b d, ic,
      [⟨fp + a, c0, p0, u⟩, ⟨fp + b, c1, p1, v⟩, ⟨fp + d, c2, p2, u + v⟩]⟩) :
    Complete (evaluate (write 1 x).row) (write 1 x).entries x e := by
  subst hx he
  refine ⟨?_, ?_, performs_of (performs rfl) ?_ ?_ ?_, ?_⟩
  · simp [Eval.Satisfied, evaluate, invOr1, invOr2, write, instValue, value, accessField, accClock, prevValue,
    address, Instruction.encode, Instruction.operands,
    Instruction.opcodeValue, M31.ofU32, immOf, num1, num2, num3, num4, num5, num6, num7, num8,
    notRet1, notRet2, notRet3, notRet4]
  · simp only [Eval.TablesHold, evaluate, write, List.forall_mem_cons, th_memory, th_registers, th_rc20, th_rc16,
    true_and,
      List.not_mem_nil, false_implies, implies_true, and_true]
    exact ⟨hi, h0, h1, h2⟩
  · simp [nextPc, write, instValue, value, accessField, accClock, prevValue, address, Instruction.encode,
    Instruction.operands,
    Instruction.opcodeValue, M31.ofU32, immOf, num1, num2, num3, num4, num5, num6, num7, num8,
    notRet1, notRet2, notRet3, notRet4]
  · simp [nextFp, write, instValue, value, accessField, accClock, prevValue, address, Instruction.encode,
    Instruction.operands,
    Instruction.opcodeValue, M31.ofU32, immOf, num1, num2, num3, num4, num5, num6, num7, num8,
    notRet1, notRet2, notRet3, notRet4]
  · refine .of_eq ?_
    simp [accs, stepRecords, codeCells, Instruction.toQM31s, Instruction.packQM31s, QM31.ofM31,
      write, instValue, value, accessField, accClock, prevValue, address, Instruction.encode, Instruction.operands,
    Instruction.opcodeValue, M31.ofU32, immOf, num1, num2, num3, num4, num5, num6, num7, num8,
    notRet1, notRet2, notRet3, notRet4]
  · simp [evaluate, Entry.padded, Rel.arity,
      write, instValue, value, accessField, accClock, prevValue, address, Instruction.encode, Instruction.operands,
    Instruction.opcodeValue, M31.ofU32, immOf, num1, num2, num3, num4, num5, num6, num7, num8,
    notRet1, notRet2, notRet3, notRet4]

theorem complete_sub {pc fp clk ic a b d u v c0 p0 c1 p1 c2 p2 : M31} 
    (hi : (clk - ic - 1).val < 2 ^ 20) (h0 : (clk - c0 - 1).val < 2 ^ 20) (h1 : (clk - c1 - 1).val < 2 ^ 20) (h2 :
    (clk - c2 - 1).val < 2 ^ 20) {e : Effect}
    (he : e = ⟨[fp + a, fp + b], [(fp + d, u - v)], pc + 1, fp⟩) {x : Bundle}
    (hx : x = ⟨⟨pc, fp⟩, clk, .StoreSubFpFp a b d, ic,
      [⟨fp + a, c0, p0, u⟩, ⟨fp + b, c1, p1, v⟩, ⟨fp + d, c2, p2, u - v⟩]⟩) :
    Complete (evaluate (write 1 x).row) (write 1 x).entries x e := by
  subst hx he
  refine ⟨?_, ?_, performs_of (performs rfl) ?_ ?_ ?_, ?_⟩
  · simp [Eval.Satisfied, evaluate, invOr1, invOr2, write, instValue, value, accessField, accClock, prevValue,
    address, Instruction.encode, Instruction.operands,
    Instruction.opcodeValue, M31.ofU32, immOf, num1, num2, num3, num4, num5, num6, num7, num8,
    notRet1, notRet2, notRet3, notRet4]
  · simp only [Eval.TablesHold, evaluate, write, List.forall_mem_cons, th_memory, th_registers, th_rc20, th_rc16,
    true_and,
      List.not_mem_nil, false_implies, implies_true, and_true]
    exact ⟨hi, h0, h1, h2⟩
  · simp [nextPc, write, instValue, value, accessField, accClock, prevValue, address, Instruction.encode,
    Instruction.operands,
    Instruction.opcodeValue, M31.ofU32, immOf, num1, num2, num3, num4, num5, num6, num7, num8,
    notRet1, notRet2, notRet3, notRet4]
  · simp [nextFp, write, instValue, value, accessField, accClock, prevValue, address, Instruction.encode,
    Instruction.operands,
    Instruction.opcodeValue, M31.ofU32, immOf, num1, num2, num3, num4, num5, num6, num7, num8,
    notRet1, notRet2, notRet3, notRet4]
  · refine .of_eq ?_
    simp [accs, stepRecords, codeCells, Instruction.toQM31s, Instruction.packQM31s, QM31.ofM31,
      write, instValue, value, accessField, accClock, prevValue, address, Instruction.encode, Instruction.operands,
    Instruction.opcodeValue, M31.ofU32, immOf, num1, num2, num3, num4, num5, num6, num7, num8,
    notRet1, notRet2, notRet3, notRet4]
  · simp [evaluate, Entry.padded, Rel.arity,
      write, instValue, value, accessField, accClock, prevValue, address, Instruction.encode, Instruction.operands,
    Instruction.opcodeValue, M31.ofU32, immOf, num1, num2, num3, num4, num5, num6, num7, num8,
    notRet1, notRet2, notRet3, notRet4]

theorem complete_mul {pc fp clk ic a b d u v c0 p0 c1 p1 c2 p2 : M31} 
    (hi : (clk - ic - 1).val < 2 ^ 20) (h0 : (clk - c0 - 1).val < 2 ^ 20) (h1 : (clk - c1 - 1).val < 2 ^ 20) (h2 :
    (clk - c2 - 1).val < 2 ^ 20) {e : Effect}
    (he : e = ⟨[fp + a, fp + b], [(fp + d, u * v)], pc + 1, fp⟩) {x : Bundle}
    (hx : x = ⟨⟨pc, fp⟩, clk, .StoreMulFpFp a b d, ic,
      [⟨fp + a, c0, p0, u⟩, ⟨fp + b, c1, p1, v⟩, ⟨fp + d, c2, p2, u * v⟩]⟩) :
    Complete (evaluate (write 1 x).row) (write 1 x).entries x e := by
  subst hx he
  refine ⟨?_, ?_, performs_of (performs rfl) ?_ ?_ ?_, ?_⟩
  · simp [Eval.Satisfied, evaluate, invOr1, invOr2, write, instValue, value, accessField, accClock, prevValue,
    address, Instruction.encode, Instruction.operands,
    Instruction.opcodeValue, M31.ofU32, immOf, num1, num2, num3, num4, num5, num6, num7, num8,
    notRet1, notRet2, notRet3, notRet4]
  · simp only [Eval.TablesHold, evaluate, write, List.forall_mem_cons, th_memory, th_registers, th_rc20, th_rc16,
    true_and,
      List.not_mem_nil, false_implies, implies_true, and_true]
    exact ⟨hi, h0, h1, h2⟩
  · simp [nextPc, write, instValue, value, accessField, accClock, prevValue, address, Instruction.encode,
    Instruction.operands,
    Instruction.opcodeValue, M31.ofU32, immOf, num1, num2, num3, num4, num5, num6, num7, num8,
    notRet1, notRet2, notRet3, notRet4]
  · simp [nextFp, write, instValue, value, accessField, accClock, prevValue, address, Instruction.encode,
    Instruction.operands,
    Instruction.opcodeValue, M31.ofU32, immOf, num1, num2, num3, num4, num5, num6, num7, num8,
    notRet1, notRet2, notRet3, notRet4]
  · refine .of_eq ?_
    simp [accs, stepRecords, codeCells, Instruction.toQM31s, Instruction.packQM31s, QM31.ofM31,
      write, instValue, value, accessField, accClock, prevValue, address, Instruction.encode, Instruction.operands,
    Instruction.opcodeValue, M31.ofU32, immOf, num1, num2, num3, num4, num5, num6, num7, num8,
    notRet1, notRet2, notRet3, notRet4]
  · simp [evaluate, Entry.padded, Rel.arity,
      write, instValue, value, accessField, accClock, prevValue, address, Instruction.encode, Instruction.operands,
    Instruction.opcodeValue, M31.ofU32, immOf, num1, num2, num3, num4, num5, num6, num7, num8,
    notRet1, notRet2, notRet3, notRet4]

theorem complete_div {pc fp clk ic a b d u v c0 p0 c1 p1 c2 p2 : M31} (hv : v ≠ 0)
    (hi : (clk - ic - 1).val < 2 ^ 20) (h0 : (clk - c0 - 1).val < 2 ^ 20) (h1 : (clk - c1 - 1).val < 2 ^ 20) (h2 :
    (clk - c2 - 1).val < 2 ^ 20) {e : Effect}
    (he : e = ⟨[fp + a, fp + b], [(fp + d, u * v⁻¹)], pc + 1, fp⟩) {x : Bundle}
    (hx : x = ⟨⟨pc, fp⟩, clk, .StoreDivFpFp a b d, ic,
      [⟨fp + a, c0, p0, u⟩, ⟨fp + b, c1, p1, v⟩, ⟨fp + d, c2, p2, u * v⁻¹⟩]⟩) :
    Complete (evaluate (write 1 x).row) (write 1 x).entries x e := by
  subst hx he
  refine ⟨?_, ?_, performs_of (performs rfl) ?_ ?_ ?_, ?_⟩
  · simp [Eval.Satisfied, evaluate, invOrZero, hv, write, instValue, value, accessField, accClock, prevValue,
    address, Instruction.encode, Instruction.operands,
    Instruction.opcodeValue, M31.ofU32, immOf, num1, num2, num3, num4, num5, num6, num7, num8,
    notRet1, notRet2, notRet3, notRet4]
  · simp only [Eval.TablesHold, evaluate, write, List.forall_mem_cons, th_memory, th_registers, th_rc20, th_rc16,
    true_and,
      List.not_mem_nil, false_implies, implies_true, and_true]
    exact ⟨hi, h0, h1, h2⟩
  · simp [nextPc, write, instValue, value, accessField, accClock, prevValue, address, Instruction.encode,
    Instruction.operands,
    Instruction.opcodeValue, M31.ofU32, immOf, num1, num2, num3, num4, num5, num6, num7, num8,
    notRet1, notRet2, notRet3, notRet4]
  · simp [nextFp, write, instValue, value, accessField, accClock, prevValue, address, Instruction.encode,
    Instruction.operands,
    Instruction.opcodeValue, M31.ofU32, immOf, num1, num2, num3, num4, num5, num6, num7, num8,
    notRet1, notRet2, notRet3, notRet4]
  · refine .of_eq ?_
    simp [accs, stepRecords, codeCells, Instruction.toQM31s, Instruction.packQM31s, QM31.ofM31,
      write, instValue, value, accessField, accClock, prevValue, address, Instruction.encode, Instruction.operands,
    Instruction.opcodeValue, M31.ofU32, immOf, num1, num2, num3, num4, num5, num6, num7, num8,
    notRet1, notRet2, notRet3, notRet4]
  · simp [evaluate, Entry.padded, Rel.arity,
      write, instValue, value, accessField, accClock, prevValue, address, Instruction.encode, Instruction.operands,
    Instruction.opcodeValue, M31.ofU32, immOf, num1, num2, num3, num4, num5, num6, num7, num8,
    notRet1, notRet2, notRet3, notRet4]

theorem honest_add {x : Bundle} {mem : Mem} {e : Effect} {a b d : M31} (h : Honest x mem e)
    (hin : x.instruction = .StoreAddFpFp a b d) : Complete (evaluate (write 1 x).row) (write 1 x).entries x e := by
  obtain ⟨⟨pc, fp⟩, clk, i, ic, l⟩ := x
  obtain ⟨hs, ha, hi, hr⟩ := h
  subst hin
  simp only [sem, Option.bind_eq_bind, Option.bind_eq_some_iff] at hs
  obtain ⟨u, hu, v, hv, hd⟩ := hs
  replace hu := felt_inv hu
  replace hv := felt_inv hv
  have he := done_inv hd
  simp only [he, Effect.log, List.map_cons, List.map_nil, List.cons_append, List.nil_append, hu, hv] at ha
  obtain ⟨c0, p0, l0, rfl, ha0⟩ := acc_cons ha
  obtain ⟨c1, p1, l1, rfl, ha1⟩ := acc_cons ha0
  obtain ⟨c2, p2, l2, rfl, ha2⟩ := acc_cons ha1
  obtain rfl := acc_nil ha2
  simp only [List.forall_mem_cons] at hr
  obtain ⟨h0, h1, h2, -⟩ := hr
  exact complete_add hi h0 h1 h2 he rfl

theorem honest_sub {x : Bundle} {mem : Mem} {e : Effect} {a b d : M31} (h : Honest x mem e)
    (hin : x.instruction = .StoreSubFpFp a b d) : Complete (evaluate (write 1 x).row) (write 1 x).entries x e := by
  obtain ⟨⟨pc, fp⟩, clk, i, ic, l⟩ := x
  obtain ⟨hs, ha, hi, hr⟩ := h
  subst hin
  simp only [sem, Option.bind_eq_bind, Option.bind_eq_some_iff] at hs
  obtain ⟨u, hu, v, hv, hd⟩ := hs
  replace hu := felt_inv hu
  replace hv := felt_inv hv
  have he := done_inv hd
  simp only [he, Effect.log, List.map_cons, List.map_nil, List.cons_append, List.nil_append, hu, hv] at ha
  obtain ⟨c0, p0, l0, rfl, ha0⟩ := acc_cons ha
  obtain ⟨c1, p1, l1, rfl, ha1⟩ := acc_cons ha0
  obtain ⟨c2, p2, l2, rfl, ha2⟩ := acc_cons ha1
  obtain rfl := acc_nil ha2
  simp only [List.forall_mem_cons] at hr
  obtain ⟨h0, h1, h2, -⟩ := hr
  exact complete_sub hi h0 h1 h2 he rfl

theorem honest_mul {x : Bundle} {mem : Mem} {e : Effect} {a b d : M31} (h : Honest x mem e)
    (hin : x.instruction = .StoreMulFpFp a b d) : Complete (evaluate (write 1 x).row) (write 1 x).entries x e := by
  obtain ⟨⟨pc, fp⟩, clk, i, ic, l⟩ := x
  obtain ⟨hs, ha, hi, hr⟩ := h
  subst hin
  simp only [sem, Option.bind_eq_bind, Option.bind_eq_some_iff] at hs
  obtain ⟨u, hu, v, hv, hd⟩ := hs
  replace hu := felt_inv hu
  replace hv := felt_inv hv
  have he := done_inv hd
  simp only [he, Effect.log, List.map_cons, List.map_nil, List.cons_append, List.nil_append, hu, hv] at ha
  obtain ⟨c0, p0, l0, rfl, ha0⟩ := acc_cons ha
  obtain ⟨c1, p1, l1, rfl, ha1⟩ := acc_cons ha0
  obtain ⟨c2, p2, l2, rfl, ha2⟩ := acc_cons ha1
  obtain rfl := acc_nil ha2
  simp only [List.forall_mem_cons] at hr
  obtain ⟨h0, h1, h2, -⟩ := hr
  exact complete_mul hi h0 h1 h2 he rfl

theorem honest_div {x : Bundle} {mem : Mem} {e : Effect} {a b d : M31} (h : Honest x mem e)
    (hin : x.instruction = .StoreDivFpFp a b d) : Complete (evaluate (write 1 x).row) (write 1 x).entries x e := by
  obtain ⟨⟨pc, fp⟩, clk, i, ic, l⟩ := x
  obtain ⟨hs, ha, hi, hr⟩ := h
  subst hin
  simp only [sem, Option.bind_eq_bind, Option.bind_eq_some_iff] at hs
  obtain ⟨u, hu, v, hv, hd⟩ := hs
  split at hd
  · simp at hd
  rename_i hv0
  replace hu := felt_inv hu
  replace hv := felt_inv hv
  have he := done_inv hd
  simp only [he, Effect.log, List.map_cons, List.map_nil, List.cons_append, List.nil_append, hu, hv] at ha
  obtain ⟨c0, p0, l0, rfl, ha0⟩ := acc_cons ha
  obtain ⟨c1, p1, l1, rfl, ha1⟩ := acc_cons ha0
  obtain ⟨c2, p2, l2, rfl, ha2⟩ := acc_cons ha1
  obtain rfl := acc_nil ha2
  simp only [List.forall_mem_cons] at hr
  obtain ⟨h0, h1, h2, -⟩ := hr
  exact complete_div hv0 hi h0 h1 h2 he rfl

end StoreFpFp

namespace StoreFpImm

theorem complete_add {pc fp clk ic a i d u c0 p0 c1 p1 : M31} 
    (hi : (clk - ic - 1).val < 2 ^ 20) (h0 : (clk - c0 - 1).val < 2 ^ 20) (h1 : (clk - c1 - 1).val < 2 ^ 20) {e :
    Effect}
    (he : e = ⟨[fp + a], [(fp + d, u + i)], pc + 1, fp⟩) {x : Bundle}
    (hx : x = ⟨⟨pc, fp⟩, clk, .StoreAddFpImm a i d, ic,
      [⟨fp + a, c0, p0, u⟩, ⟨fp + d, c1, p1, u + i⟩]⟩) :
    Complete (evaluate (write 1 x).row) (write 1 x).entries x e := by
  subst hx he
  refine ⟨?_, ?_, performs_of (performs rfl) ?_ ?_ ?_, ?_⟩
  · simp [Eval.Satisfied, evaluate, invOr1, invOr2, write, instValue, value, accessField, accClock, prevValue,
    address, Instruction.encode, Instruction.operands,
    Instruction.opcodeValue, M31.ofU32, immOf, num1, num2, num3, num4, num5, num6, num7, num8,
    notRet1, notRet2, notRet3, notRet4]
  · simp only [Eval.TablesHold, evaluate, write, List.forall_mem_cons, th_memory, th_registers, th_rc20, th_rc16,
    true_and,
      List.not_mem_nil, false_implies, implies_true, and_true]
    exact ⟨hi, h0, h1⟩
  · simp [nextPc, write, instValue, value, accessField, accClock, prevValue, address, Instruction.encode,
    Instruction.operands,
    Instruction.opcodeValue, M31.ofU32, immOf, num1, num2, num3, num4, num5, num6, num7, num8,
    notRet1, notRet2, notRet3, notRet4]
  · simp [nextFp, write, instValue, value, accessField, accClock, prevValue, address, Instruction.encode,
    Instruction.operands,
    Instruction.opcodeValue, M31.ofU32, immOf, num1, num2, num3, num4, num5, num6, num7, num8,
    notRet1, notRet2, notRet3, notRet4]
  · refine .of_eq ?_
    simp [accs, stepRecords, codeCells, Instruction.toQM31s, Instruction.packQM31s, QM31.ofM31,
      write, instValue, value, accessField, accClock, prevValue, address, Instruction.encode, Instruction.operands,
    Instruction.opcodeValue, M31.ofU32, immOf, num1, num2, num3, num4, num5, num6, num7, num8,
    notRet1, notRet2, notRet3, notRet4]
  · simp [evaluate, Entry.padded, Rel.arity,
      write, instValue, value, accessField, accClock, prevValue, address, Instruction.encode, Instruction.operands,
    Instruction.opcodeValue, M31.ofU32, immOf, num1, num2, num3, num4, num5, num6, num7, num8,
    notRet1, notRet2, notRet3, notRet4]

theorem complete_mul {pc fp clk ic a i d u c0 p0 c1 p1 : M31} 
    (hi : (clk - ic - 1).val < 2 ^ 20) (h0 : (clk - c0 - 1).val < 2 ^ 20) (h1 : (clk - c1 - 1).val < 2 ^ 20) {e :
    Effect}
    (he : e = ⟨[fp + a], [(fp + d, u * i)], pc + 1, fp⟩) {x : Bundle}
    (hx : x = ⟨⟨pc, fp⟩, clk, .StoreMulFpImm a i d, ic,
      [⟨fp + a, c0, p0, u⟩, ⟨fp + d, c1, p1, u * i⟩]⟩) :
    Complete (evaluate (write 1 x).row) (write 1 x).entries x e := by
  subst hx he
  refine ⟨?_, ?_, performs_of (performs rfl) ?_ ?_ ?_, ?_⟩
  · simp [Eval.Satisfied, evaluate, invOr1, invOr2, write, instValue, value, accessField, accClock, prevValue,
    address, Instruction.encode, Instruction.operands,
    Instruction.opcodeValue, M31.ofU32, immOf, num1, num2, num3, num4, num5, num6, num7, num8,
    notRet1, notRet2, notRet3, notRet4]
  · simp only [Eval.TablesHold, evaluate, write, List.forall_mem_cons, th_memory, th_registers, th_rc20, th_rc16,
    true_and,
      List.not_mem_nil, false_implies, implies_true, and_true]
    exact ⟨hi, h0, h1⟩
  · simp [nextPc, write, instValue, value, accessField, accClock, prevValue, address, Instruction.encode,
    Instruction.operands,
    Instruction.opcodeValue, M31.ofU32, immOf, num1, num2, num3, num4, num5, num6, num7, num8,
    notRet1, notRet2, notRet3, notRet4]
  · simp [nextFp, write, instValue, value, accessField, accClock, prevValue, address, Instruction.encode,
    Instruction.operands,
    Instruction.opcodeValue, M31.ofU32, immOf, num1, num2, num3, num4, num5, num6, num7, num8,
    notRet1, notRet2, notRet3, notRet4]
  · refine .of_eq ?_
    simp [accs, stepRecords, codeCells, Instruction.toQM31s, Instruction.packQM31s, QM31.ofM31,
      write, instValue, value, accessField, accClock, prevValue, address, Instruction.encode, Instruction.operands,
    Instruction.opcodeValue, M31.ofU32, immOf, num1, num2, num3, num4, num5, num6, num7, num8,
    notRet1, notRet2, notRet3, notRet4]
  · simp [evaluate, Entry.padded, Rel.arity,
      write, instValue, value, accessField, accClock, prevValue, address, Instruction.encode, Instruction.operands,
    Instruction.opcodeValue, M31.ofU32, immOf, num1, num2, num3, num4, num5, num6, num7, num8,
    notRet1, notRet2, notRet3, notRet4]

theorem honest_add {x : Bundle} {mem : Mem} {e : Effect} {a b d : M31} (h : Honest x mem e)
    (hin : x.instruction = .StoreAddFpImm a b d) : Complete (evaluate (write 1 x).row) (write 1 x).entries x e := by
  obtain ⟨⟨pc, fp⟩, clk, i, ic, l⟩ := x
  obtain ⟨hs, ha, hi, hr⟩ := h
  subst hin
  simp only [sem, Option.bind_eq_bind, Option.bind_eq_some_iff] at hs
  obtain ⟨u, hu, hd⟩ := hs
  replace hu := felt_inv hu
  have he := done_inv hd
  simp only [he, Effect.log, List.map_cons, List.map_nil, List.cons_append, List.nil_append, hu] at ha
  obtain ⟨c0, p0, l0, rfl, ha0⟩ := acc_cons ha
  obtain ⟨c1, p1, l1, rfl, ha1⟩ := acc_cons ha0
  obtain rfl := acc_nil ha1
  simp only [List.forall_mem_cons] at hr
  obtain ⟨h0, h1, -⟩ := hr
  exact complete_add hi h0 h1 he rfl

theorem honest_mul {x : Bundle} {mem : Mem} {e : Effect} {a b d : M31} (h : Honest x mem e)
    (hin : x.instruction = .StoreMulFpImm a b d) : Complete (evaluate (write 1 x).row) (write 1 x).entries x e := by
  obtain ⟨⟨pc, fp⟩, clk, i, ic, l⟩ := x
  obtain ⟨hs, ha, hi, hr⟩ := h
  subst hin
  simp only [sem, Option.bind_eq_bind, Option.bind_eq_some_iff] at hs
  obtain ⟨u, hu, hd⟩ := hs
  replace hu := felt_inv hu
  have he := done_inv hd
  simp only [he, Effect.log, List.map_cons, List.map_nil, List.cons_append, List.nil_append, hu] at ha
  obtain ⟨c0, p0, l0, rfl, ha0⟩ := acc_cons ha
  obtain ⟨c1, p1, l1, rfl, ha1⟩ := acc_cons ha0
  obtain rfl := acc_nil ha1
  simp only [List.forall_mem_cons] at hr
  obtain ⟨h0, h1, -⟩ := hr
  exact complete_mul hi h0 h1 he rfl

end StoreFpImm

namespace AssertEqFpImm

theorem complete {pc fp clk ic a i c0 p0 : M31} 
    (hi : (clk - ic - 1).val < 2 ^ 20) (h0 : (clk - c0 - 1).val < 2 ^ 20) {e : Effect}
    (he : e = ⟨[fp + a], [], pc + 1, fp⟩) {x : Bundle}
    (hx : x = ⟨⟨pc, fp⟩, clk, .AssertEqFpImm a i, ic,
      [⟨fp + a, c0, p0, i⟩]⟩) :
    Complete (evaluate (write 1 x).row) (write 1 x).entries x e := by
  subst hx he
  refine ⟨?_, ?_, performs_of (performs rfl) ?_ ?_ ?_, ?_⟩
  · simp [Eval.Satisfied, evaluate, invOr1, invOr2, write, instValue, value, accessField, accClock, prevValue,
    address, Instruction.encode, Instruction.operands,
    Instruction.opcodeValue, M31.ofU32, immOf, num1, num2, num3, num4, num5, num6, num7, num8,
    notRet1, notRet2, notRet3, notRet4]
  · simp only [Eval.TablesHold, evaluate, write, List.forall_mem_cons, th_memory, th_registers, th_rc20, th_rc16,
    true_and,
      List.not_mem_nil, false_implies, implies_true, and_true]
    exact ⟨hi, h0⟩
  · simp [nextPc, write, instValue, value, accessField, accClock, prevValue, address, Instruction.encode,
    Instruction.operands,
    Instruction.opcodeValue, M31.ofU32, immOf, num1, num2, num3, num4, num5, num6, num7, num8,
    notRet1, notRet2, notRet3, notRet4]
  · simp [nextFp, write, instValue, value, accessField, accClock, prevValue, address, Instruction.encode,
    Instruction.operands,
    Instruction.opcodeValue, M31.ofU32, immOf, num1, num2, num3, num4, num5, num6, num7, num8,
    notRet1, notRet2, notRet3, notRet4]
  · refine .of_eq ?_
    simp [accs, stepRecords, codeCells, Instruction.toQM31s, Instruction.packQM31s, QM31.ofM31,
      write, instValue, value, accessField, accClock, prevValue, address, Instruction.encode, Instruction.operands,
    Instruction.opcodeValue, M31.ofU32, immOf, num1, num2, num3, num4, num5, num6, num7, num8,
    notRet1, notRet2, notRet3, notRet4]
  · simp [evaluate, Entry.padded, Rel.arity,
      write, instValue, value, accessField, accClock, prevValue, address, Instruction.encode, Instruction.operands,
    Instruction.opcodeValue, M31.ofU32, immOf, num1, num2, num3, num4, num5, num6, num7, num8,
    notRet1, notRet2, notRet3, notRet4]

theorem honest {x : Bundle} {mem : Mem} {e : Effect} {a b : M31} (h : Honest x mem e)
    (hin : x.instruction = .AssertEqFpImm a b) : Complete (evaluate (write 1 x).row) (write 1 x).entries x e := by
  obtain ⟨⟨pc, fp⟩, clk, i, ic, l⟩ := x
  obtain ⟨hs, ha, hi, hr⟩ := h
  subst hin
  simp only [sem, Option.bind_eq_bind, Option.bind_eq_some_iff] at hs
  obtain ⟨u, hu, hd⟩ := hs
  split at hd
  swap
  · simp at hd
  rename_i hv0
  subst hv0
  replace hu := felt_inv hu
  have he := done_inv hd
  simp only [he, Effect.log, List.map_cons, List.map_nil, List.cons_append, List.nil_append, hu] at ha
  obtain ⟨c0, p0, l0, rfl, ha0⟩ := acc_cons ha
  obtain rfl := acc_nil ha0
  simp only [List.forall_mem_cons] at hr
  obtain ⟨h0, -⟩ := hr
  exact complete hi h0 he rfl

end AssertEqFpImm

namespace CallAbsImm

theorem complete {pc fp clk ic f t c0 p0 c1 p1 : M31} 
    (hi : (clk - ic - 1).val < 2 ^ 20) (h0 : (clk - c0 - 1).val < 2 ^ 20) (h1 : (clk - c1 - 1).val < 2 ^ 20) {e :
    Effect}
    (he : e = ⟨[], [(fp + f, fp), (fp + f + 1, pc + 1)], t, fp + f + 2⟩) {x : Bundle}
    (hx : x = ⟨⟨pc, fp⟩, clk, .CallAbsImm f t, ic,
      [⟨fp + f, c0, p0, fp⟩, ⟨fp + f + 1, c1, p1, pc + 1⟩]⟩) :
    Complete (evaluate (write 1 x).row) (write 1 x).entries x e := by
  subst hx he
  refine ⟨?_, ?_, performs_of (performs rfl) ?_ ?_ ?_, ?_⟩
  · simp [Eval.Satisfied, evaluate, invOr1, invOr2, write, instValue, value, accessField, accClock, prevValue,
    address, Instruction.encode, Instruction.operands,
    Instruction.opcodeValue, M31.ofU32, immOf, num1, num2, num3, num4, num5, num6, num7, num8,
    notRet1, notRet2, notRet3, notRet4]
  · simp only [Eval.TablesHold, evaluate, write, List.forall_mem_cons, th_memory, th_registers, th_rc20, th_rc16,
    true_and,
      List.not_mem_nil, false_implies, implies_true, and_true]
    exact ⟨hi, h0, h1⟩
  · simp [nextPc, write, instValue, value, accessField, accClock, prevValue, address, Instruction.encode,
    Instruction.operands,
    Instruction.opcodeValue, M31.ofU32, immOf, num1, num2, num3, num4, num5, num6, num7, num8,
    notRet1, notRet2, notRet3, notRet4]
  · show fp + f + 1 + 1 = fp + f + 2; ring
  · refine .of_eq ?_
    simp [accs, stepRecords, codeCells, Instruction.toQM31s, Instruction.packQM31s, QM31.ofM31,
      write, instValue, value, accessField, accClock, prevValue, address, Instruction.encode, Instruction.operands,
    Instruction.opcodeValue, M31.ofU32, immOf, num1, num2, num3, num4, num5, num6, num7, num8,
    notRet1, notRet2, notRet3, notRet4]
  · simp [evaluate, Entry.padded, Rel.arity,
      write, instValue, value, accessField, accClock, prevValue, address, Instruction.encode, Instruction.operands,
    Instruction.opcodeValue, M31.ofU32, immOf, num1, num2, num3, num4, num5, num6, num7, num8,
    notRet1, notRet2, notRet3, notRet4]

theorem honest {x : Bundle} {mem : Mem} {e : Effect} {a b : M31} (h : Honest x mem e)
    (hin : x.instruction = .CallAbsImm a b) : Complete (evaluate (write 1 x).row) (write 1 x).entries x e := by
  obtain ⟨⟨pc, fp⟩, clk, i, ic, l⟩ := x
  obtain ⟨hs, ha, hi, hr⟩ := h
  subst hin
  simp only [sem, Option.bind_eq_bind, Option.bind_eq_some_iff] at hs
  have hd := hs
  have he := done_inv hd
  simp only [he, Effect.log, List.map_cons, List.map_nil, List.cons_append, List.nil_append] at ha
  obtain ⟨c0, p0, l0, rfl, ha0⟩ := acc_cons ha
  obtain ⟨c1, p1, l1, rfl, ha1⟩ := acc_cons ha0
  obtain rfl := acc_nil ha1
  simp only [List.forall_mem_cons] at hr
  obtain ⟨h0, h1, -⟩ := hr
  exact complete hi h0 h1 he rfl

end CallAbsImm

namespace JmpImm

theorem complete_abs {pc fp clk ic t  : M31} 
    (hi : (clk - ic - 1).val < 2 ^ 20)  {e : Effect}
    (he : e = ⟨[], [], t, fp⟩) {x : Bundle}
    (hx : x = ⟨⟨pc, fp⟩, clk, .JmpAbsImm t, ic, []⟩) :
    Complete (evaluate (write 1 x).row) (write 1 x).entries x e := by
  subst hx he
  refine ⟨?_, ?_, performs_of (performs rfl) ?_ ?_ ?_, ?_⟩
  · simp [Eval.Satisfied, evaluate, invOr1, invOr2, write, instValue, value, accessField, accClock, prevValue,
    address, Instruction.encode, Instruction.operands,
    Instruction.opcodeValue, M31.ofU32, immOf, num1, num2, num3, num4, num5, num6, num7, num8,
    notRet1, notRet2, notRet3, notRet4]
  · simp only [Eval.TablesHold, evaluate, write, List.forall_mem_cons, th_memory, th_registers, th_rc20, th_rc16,
    true_and,
      List.not_mem_nil, false_implies, implies_true, and_true]
    exact hi
  · simp [nextPc, write, instValue, value, accessField, accClock, prevValue, address, Instruction.encode,
    Instruction.operands,
    Instruction.opcodeValue, M31.ofU32, immOf, num1, num2, num3, num4, num5, num6, num7, num8,
    notRet1, notRet2, notRet3, notRet4]
  · simp [nextFp, write, instValue, value, accessField, accClock, prevValue, address, Instruction.encode,
    Instruction.operands,
    Instruction.opcodeValue, M31.ofU32, immOf, num1, num2, num3, num4, num5, num6, num7, num8,
    notRet1, notRet2, notRet3, notRet4]
  · refine .of_eq ?_
    simp [accs, stepRecords, codeCells, Instruction.toQM31s, Instruction.packQM31s, QM31.ofM31,
      write, instValue, value, accessField, accClock, prevValue, address, Instruction.encode, Instruction.operands,
    Instruction.opcodeValue, M31.ofU32, immOf, num1, num2, num3, num4, num5, num6, num7, num8,
    notRet1, notRet2, notRet3, notRet4]
  · simp [evaluate, Entry.padded, Rel.arity,
      write, instValue, value, accessField, accClock, prevValue, address, Instruction.encode, Instruction.operands,
    Instruction.opcodeValue, M31.ofU32, immOf, num1, num2, num3, num4, num5, num6, num7, num8,
    notRet1, notRet2, notRet3, notRet4]

theorem complete_rel {pc fp clk ic t  : M31} 
    (hi : (clk - ic - 1).val < 2 ^ 20)  {e : Effect}
    (he : e = ⟨[], [], pc + t, fp⟩) {x : Bundle}
    (hx : x = ⟨⟨pc, fp⟩, clk, .JmpRelImm t, ic, []⟩) :
    Complete (evaluate (write 1 x).row) (write 1 x).entries x e := by
  subst hx he
  refine ⟨?_, ?_, performs_of (performs rfl) ?_ ?_ ?_, ?_⟩
  · simp [Eval.Satisfied, evaluate, invOr1, invOr2, write, instValue, value, accessField, accClock, prevValue,
    address, Instruction.encode, Instruction.operands,
    Instruction.opcodeValue, M31.ofU32, immOf, num1, num2, num3, num4, num5, num6, num7, num8,
    notRet1, notRet2, notRet3, notRet4]
  · simp only [Eval.TablesHold, evaluate, write, List.forall_mem_cons, th_memory, th_registers, th_rc20, th_rc16,
    true_and,
      List.not_mem_nil, false_implies, implies_true, and_true]
    exact hi
  · simp [nextPc, write, instValue, value, accessField, accClock, prevValue, address, Instruction.encode,
    Instruction.operands,
    Instruction.opcodeValue, M31.ofU32, immOf, num1, num2, num3, num4, num5, num6, num7, num8,
    notRet1, notRet2, notRet3, notRet4, add_comm]
  · simp [nextFp, write, instValue, value, accessField, accClock, prevValue, address, Instruction.encode,
    Instruction.operands,
    Instruction.opcodeValue, M31.ofU32, immOf, num1, num2, num3, num4, num5, num6, num7, num8,
    notRet1, notRet2, notRet3, notRet4]
  · refine .of_eq ?_
    simp [accs, stepRecords, codeCells, Instruction.toQM31s, Instruction.packQM31s, QM31.ofM31,
      write, instValue, value, accessField, accClock, prevValue, address, Instruction.encode, Instruction.operands,
    Instruction.opcodeValue, M31.ofU32, immOf, num1, num2, num3, num4, num5, num6, num7, num8,
    notRet1, notRet2, notRet3, notRet4]
  · simp [evaluate, Entry.padded, Rel.arity,
      write, instValue, value, accessField, accClock, prevValue, address, Instruction.encode, Instruction.operands,
    Instruction.opcodeValue, M31.ofU32, immOf, num1, num2, num3, num4, num5, num6, num7, num8,
    notRet1, notRet2, notRet3, notRet4]

theorem honest_abs {x : Bundle} {mem : Mem} {e : Effect} {a : M31} (h : Honest x mem e)
    (hin : x.instruction = .JmpAbsImm a) : Complete (evaluate (write 1 x).row) (write 1 x).entries x e := by
  obtain ⟨⟨pc, fp⟩, clk, i, ic, l⟩ := x
  obtain ⟨hs, ha, hi, hr⟩ := h
  subst hin
  simp only [sem, Option.bind_eq_bind, Option.bind_eq_some_iff] at hs
  have hd := hs
  have he := done_inv hd
  simp only [he, Effect.log, List.map_cons, List.map_nil, List.cons_append, List.nil_append] at ha
  obtain rfl := acc_nil ha
  exact complete_abs hi he rfl

theorem honest_rel {x : Bundle} {mem : Mem} {e : Effect} {a : M31} (h : Honest x mem e)
    (hin : x.instruction = .JmpRelImm a) : Complete (evaluate (write 1 x).row) (write 1 x).entries x e := by
  obtain ⟨⟨pc, fp⟩, clk, i, ic, l⟩ := x
  obtain ⟨hs, ha, hi, hr⟩ := h
  subst hin
  simp only [sem, Option.bind_eq_bind, Option.bind_eq_some_iff] at hs
  have hd := hs
  have he := done_inv hd
  simp only [he, Effect.log, List.map_cons, List.map_nil, List.cons_append, List.nil_append] at ha
  obtain rfl := acc_nil ha
  exact complete_rel hi he rfl

end JmpImm

namespace JnzFpImm

theorem complete {pc fp clk ic a i u c0 p0 : M31} 
    (hi : (clk - ic - 1).val < 2 ^ 20) (h0 : (clk - c0 - 1).val < 2 ^ 20) {e : Effect}
    (he : e = ⟨[fp + a], [], if u = 0 then pc + 1 else pc + i, fp⟩) {x : Bundle}
    (hx : x = ⟨⟨pc, fp⟩, clk, .JnzFpImm a i, ic,
      [⟨fp + a, c0, p0, u⟩]⟩) :
    Complete (evaluate (write 1 x).row) (write 1 x).entries x e := by
  subst hx he
  refine ⟨?_, ?_, performs_of (performs rfl) ?_ ?_ ?_, ?_⟩
  · by_cases h : u = 0 <;>
      simp [Eval.Satisfied, evaluate, nonZero, invOrZero, h, write, instValue, value, accessField, accClock,
      prevValue, address, Instruction.encode, Instruction.operands,
    Instruction.opcodeValue, M31.ofU32, immOf, num1, num2, num3, num4, num5, num6, num7, num8,
    notRet1, notRet2, notRet3, notRet4]
  · simp only [Eval.TablesHold, evaluate, write, List.forall_mem_cons, th_memory, th_registers, th_rc20, th_rc16,
    true_and,
      List.not_mem_nil, false_implies, implies_true, and_true]
    exact ⟨hi, h0⟩
  · by_cases h : u = 0 <;> simp [nextPc, nonZero, h, write, instValue, value, accessField, accClock, prevValue,
    address, Instruction.encode, Instruction.operands,
    Instruction.opcodeValue, M31.ofU32, immOf, num1, num2, num3, num4, num5, num6, num7, num8,
    notRet1, notRet2, notRet3, notRet4]
  · simp [nextFp, write, instValue, value, accessField, accClock, prevValue, address, Instruction.encode,
    Instruction.operands,
    Instruction.opcodeValue, M31.ofU32, immOf, num1, num2, num3, num4, num5, num6, num7, num8,
    notRet1, notRet2, notRet3, notRet4]
  · refine .of_eq ?_
    simp [accs, stepRecords, codeCells, Instruction.toQM31s, Instruction.packQM31s, QM31.ofM31,
      write, instValue, value, accessField, accClock, prevValue, address, Instruction.encode, Instruction.operands,
    Instruction.opcodeValue, M31.ofU32, immOf, num1, num2, num3, num4, num5, num6, num7, num8,
    notRet1, notRet2, notRet3, notRet4]
  · simp [evaluate, Entry.padded, Rel.arity,
      write, instValue, value, accessField, accClock, prevValue, address, Instruction.encode, Instruction.operands,
    Instruction.opcodeValue, M31.ofU32, immOf, num1, num2, num3, num4, num5, num6, num7, num8,
    notRet1, notRet2, notRet3, notRet4]

theorem honest {x : Bundle} {mem : Mem} {e : Effect} {a b : M31} (h : Honest x mem e)
    (hin : x.instruction = .JnzFpImm a b) : Complete (evaluate (write 1 x).row) (write 1 x).entries x e := by
  obtain ⟨⟨pc, fp⟩, clk, i, ic, l⟩ := x
  obtain ⟨hs, ha, hi, hr⟩ := h
  subst hin
  simp only [sem, Option.bind_eq_bind, Option.bind_eq_some_iff] at hs
  obtain ⟨u, hu, hd⟩ := hs
  replace hu := felt_inv hu
  have he := done_inv hd
  simp only [he, Effect.log, List.map_cons, List.map_nil, List.cons_append, List.nil_append, hu] at ha
  obtain ⟨c0, p0, l0, rfl, ha0⟩ := acc_cons ha
  obtain rfl := acc_nil ha0
  simp only [List.forall_mem_cons] at hr
  obtain ⟨h0, -⟩ := hr
  exact complete hi h0 he rfl

end JnzFpImm

namespace Ret

theorem complete {pc fp clk ic u v c0 p0 c1 p1 : M31} 
    (hi : (clk - ic - 1).val < 2 ^ 20) (h0 : (clk - c0 - 1).val < 2 ^ 20) (h1 : (clk - c1 - 1).val < 2 ^ 20) {e :
    Effect}
    (he : e = ⟨[fp - 1, fp - 2], [], u, v⟩) {x : Bundle}
    (hx : x = ⟨⟨pc, fp⟩, clk, .Ret, ic,
      [⟨fp - 1, c0, p0, u⟩, ⟨fp - 2, c1, p1, v⟩]⟩) :
    Complete (evaluate (write 1 x).row) (write 1 x).entries x e := by
  subst hx he
  refine ⟨?_, ?_, performs_of (performs rfl) ?_ ?_ ?_, ?_⟩
  · simp [Eval.Satisfied, evaluate, invOr1, invOr2, write, instValue, value, accessField, accClock, prevValue,
    address, Instruction.encode, Instruction.operands,
    Instruction.opcodeValue, M31.ofU32, immOf, num1, num2, num3, num4, num5, num6, num7, num8,
    notRet1, notRet2, notRet3, notRet4]
  · simp only [Eval.TablesHold, evaluate, write, List.forall_mem_cons, th_memory, th_registers, th_rc20, th_rc16,
    true_and,
      List.not_mem_nil, false_implies, implies_true, and_true]
    exact ⟨hi, h1, h0⟩
  · simp [nextPc, write, instValue, value, accessField, accClock, prevValue, address, Instruction.encode,
    Instruction.operands,
    Instruction.opcodeValue, M31.ofU32, immOf, num1, num2, num3, num4, num5, num6, num7, num8,
    notRet1, notRet2, notRet3, notRet4]
  · simp [nextFp, write, instValue, value, accessField, accClock, prevValue, address, Instruction.encode,
    Instruction.operands,
    Instruction.opcodeValue, M31.ofU32, immOf, num1, num2, num3, num4, num5, num6, num7, num8,
    notRet1, notRet2, notRet3, notRet4]
  · refine .trans (.cons _ (.swap _ _ _)) (.of_eq ?_)
    simp [accs, stepRecords, codeCells, Instruction.toQM31s, Instruction.packQM31s, QM31.ofM31,
      write, instValue, value, accessField, accClock, prevValue, address, Instruction.encode, Instruction.operands,
    Instruction.opcodeValue, M31.ofU32, immOf, num1, num2, num3, num4, num5, num6, num7, num8,
    notRet1, notRet2, notRet3, notRet4]
  · simp [evaluate, Entry.padded, Rel.arity,
      write, instValue, value, accessField, accClock, prevValue, address, Instruction.encode, Instruction.operands,
    Instruction.opcodeValue, M31.ofU32, immOf, num1, num2, num3, num4, num5, num6, num7, num8,
    notRet1, notRet2, notRet3, notRet4]

theorem honest {x : Bundle} {mem : Mem} {e : Effect} (h : Honest x mem e)
    (hin : x.instruction = .Ret) : Complete (evaluate (write 1 x).row) (write 1 x).entries x e := by
  obtain ⟨⟨pc, fp⟩, clk, i, ic, l⟩ := x
  obtain ⟨hs, ha, hi, hr⟩ := h
  subst hin
  simp only [sem, Option.bind_eq_bind, Option.bind_eq_some_iff] at hs
  obtain ⟨u, hu, v, hv, hd⟩ := hs
  replace hu := felt_inv hu
  replace hv := felt_inv hv
  have he := done_inv hd
  simp only [he, Effect.log, List.map_cons, List.map_nil, List.cons_append, List.nil_append, hu, hv] at ha
  obtain ⟨c0, p0, l0, rfl, ha0⟩ := acc_cons ha
  obtain ⟨c1, p1, l1, rfl, ha1⟩ := acc_cons ha0
  obtain rfl := acc_nil ha1
  simp only [List.forall_mem_cons] at hr
  obtain ⟨h0, h1, -⟩ := hr
  exact complete hi h0 h1 he rfl

end Ret

namespace StoreImm

theorem complete {pc fp clk ic i d c0 p0 : M31} 
    (hi : (clk - ic - 1).val < 2 ^ 20) (h0 : (clk - c0 - 1).val < 2 ^ 20) {e : Effect}
    (he : e = ⟨[], [(fp + d, i)], pc + 1, fp⟩) {x : Bundle}
    (hx : x = ⟨⟨pc, fp⟩, clk, .StoreImm i d, ic,
      [⟨fp + d, c0, p0, i⟩]⟩) :
    Complete (evaluate (write 1 x).row) (write 1 x).entries x e := by
  subst hx he
  refine ⟨?_, ?_, performs_of (performs rfl) ?_ ?_ ?_, ?_⟩
  · simp [Eval.Satisfied, evaluate, invOr1, invOr2, write, instValue, value, accessField, accClock, prevValue,
    address, Instruction.encode, Instruction.operands,
    Instruction.opcodeValue, M31.ofU32, immOf, num1, num2, num3, num4, num5, num6, num7, num8,
    notRet1, notRet2, notRet3, notRet4]
  · simp only [Eval.TablesHold, evaluate, write, List.forall_mem_cons, th_memory, th_registers, th_rc20, th_rc16,
    true_and,
      List.not_mem_nil, false_implies, implies_true, and_true]
    exact ⟨hi, h0⟩
  · simp [nextPc, write, instValue, value, accessField, accClock, prevValue, address, Instruction.encode,
    Instruction.operands,
    Instruction.opcodeValue, M31.ofU32, immOf, num1, num2, num3, num4, num5, num6, num7, num8,
    notRet1, notRet2, notRet3, notRet4]
  · simp [nextFp, write, instValue, value, accessField, accClock, prevValue, address, Instruction.encode,
    Instruction.operands,
    Instruction.opcodeValue, M31.ofU32, immOf, num1, num2, num3, num4, num5, num6, num7, num8,
    notRet1, notRet2, notRet3, notRet4]
  · refine .of_eq ?_
    simp [accs, stepRecords, codeCells, Instruction.toQM31s, Instruction.packQM31s, QM31.ofM31,
      write, instValue, value, accessField, accClock, prevValue, address, Instruction.encode, Instruction.operands,
    Instruction.opcodeValue, M31.ofU32, immOf, num1, num2, num3, num4, num5, num6, num7, num8,
    notRet1, notRet2, notRet3, notRet4]
  · simp [evaluate, Entry.padded, Rel.arity,
      write, instValue, value, accessField, accClock, prevValue, address, Instruction.encode, Instruction.operands,
    Instruction.opcodeValue, M31.ofU32, immOf, num1, num2, num3, num4, num5, num6, num7, num8,
    notRet1, notRet2, notRet3, notRet4]

theorem honest {x : Bundle} {mem : Mem} {e : Effect} {a b : M31} (h : Honest x mem e)
    (hin : x.instruction = .StoreImm a b) : Complete (evaluate (write 1 x).row) (write 1 x).entries x e := by
  obtain ⟨⟨pc, fp⟩, clk, i, ic, l⟩ := x
  obtain ⟨hs, ha, hi, hr⟩ := h
  subst hin
  simp only [sem, Option.bind_eq_bind, Option.bind_eq_some_iff] at hs
  have hd := hs
  have he := done_inv hd
  simp only [he, Effect.log, List.map_cons, List.map_nil, List.cons_append, List.nil_append] at ha
  obtain ⟨c0, p0, l0, rfl, ha0⟩ := acc_cons ha
  obtain rfl := acc_nil ha0
  simp only [List.forall_mem_cons] at hr
  obtain ⟨h0, -⟩ := hr
  exact complete hi h0 he rfl

end StoreImm

namespace StoreFramePointer

theorem complete {pc fp clk ic i d c0 p0 : M31} 
    (hi : (clk - ic - 1).val < 2 ^ 20) (h0 : (clk - c0 - 1).val < 2 ^ 20) {e : Effect}
    (he : e = ⟨[], [(fp + d, fp + i)], pc + 1, fp⟩) {x : Bundle}
    (hx : x = ⟨⟨pc, fp⟩, clk, .StoreFramePointer i d, ic,
      [⟨fp + d, c0, p0, fp + i⟩]⟩) :
    Complete (evaluate (write 1 x).row) (write 1 x).entries x e := by
  subst hx he
  refine ⟨?_, ?_, performs_of (performs rfl) ?_ ?_ ?_, ?_⟩
  · simp [Eval.Satisfied, evaluate, invOr1, invOr2, write, instValue, value, accessField, accClock, prevValue,
    address, Instruction.encode, Instruction.operands,
    Instruction.opcodeValue, M31.ofU32, immOf, num1, num2, num3, num4, num5, num6, num7, num8,
    notRet1, notRet2, notRet3, notRet4]
  · simp only [Eval.TablesHold, evaluate, write, List.forall_mem_cons, th_memory, th_registers, th_rc20, th_rc16,
    true_and,
      List.not_mem_nil, false_implies, implies_true, and_true]
    exact ⟨hi, h0⟩
  · simp [nextPc, write, instValue, value, accessField, accClock, prevValue, address, Instruction.encode,
    Instruction.operands,
    Instruction.opcodeValue, M31.ofU32, immOf, num1, num2, num3, num4, num5, num6, num7, num8,
    notRet1, notRet2, notRet3, notRet4]
  · simp [nextFp, write, instValue, value, accessField, accClock, prevValue, address, Instruction.encode,
    Instruction.operands,
    Instruction.opcodeValue, M31.ofU32, immOf, num1, num2, num3, num4, num5, num6, num7, num8,
    notRet1, notRet2, notRet3, notRet4]
  · refine .of_eq ?_
    simp [accs, stepRecords, codeCells, Instruction.toQM31s, Instruction.packQM31s, QM31.ofM31,
      write, instValue, value, accessField, accClock, prevValue, address, Instruction.encode, Instruction.operands,
    Instruction.opcodeValue, M31.ofU32, immOf, num1, num2, num3, num4, num5, num6, num7, num8,
    notRet1, notRet2, notRet3, notRet4]
  · simp [evaluate, Entry.padded, Rel.arity,
      write, instValue, value, accessField, accClock, prevValue, address, Instruction.encode, Instruction.operands,
    Instruction.opcodeValue, M31.ofU32, immOf, num1, num2, num3, num4, num5, num6, num7, num8,
    notRet1, notRet2, notRet3, notRet4]

theorem honest {x : Bundle} {mem : Mem} {e : Effect} {a b : M31} (h : Honest x mem e)
    (hin : x.instruction = .StoreFramePointer a b) : Complete (evaluate (write 1 x).row) (write 1 x).entries x e := by
  obtain ⟨⟨pc, fp⟩, clk, i, ic, l⟩ := x
  obtain ⟨hs, ha, hi, hr⟩ := h
  subst hin
  simp only [sem, Option.bind_eq_bind, Option.bind_eq_some_iff] at hs
  have hd := hs
  have he := done_inv hd
  simp only [he, Effect.log, List.map_cons, List.map_nil, List.cons_append, List.nil_append] at ha
  obtain ⟨c0, p0, l0, rfl, ha0⟩ := acc_cons ha
  obtain rfl := acc_nil ha0
  simp only [List.forall_mem_cons] at hr
  obtain ⟨h0, -⟩ := hr
  exact complete hi h0 he rfl

end StoreFramePointer

namespace DoubleDerefFpImm

theorem complete_load {pc fp clk ic a i d u v c0 p0 c1 p1 c2 p2 : M31} 
    (hi : (clk - ic - 1).val < 2 ^ 20) (h0 : (clk - c0 - 1).val < 2 ^ 20) (h1 : (clk - c1 - 1).val < 2 ^ 20) (h2 :
    (clk - c2 - 1).val < 2 ^ 20) {e : Effect}
    (he : e = ⟨[fp + a, u + i], [(fp + d, v)], pc + 1, fp⟩) {x : Bundle}
    (hx : x = ⟨⟨pc, fp⟩, clk, .StoreDoubleDerefFp a i d, ic,
      [⟨fp + a, c0, p0, u⟩, ⟨u + i, c1, p1, v⟩, ⟨fp + d, c2, p2, v⟩]⟩) :
    Complete (evaluate (write 1 x).row) (write 1 x).entries x e := by
  subst hx he
  refine ⟨?_, ?_, performs_of (performs rfl) ?_ ?_ ?_, ?_⟩
  · simp [Eval.Satisfied, evaluate, invOr1, invOr2, write, instValue, value, accessField, accClock, prevValue,
    address, Instruction.encode, Instruction.operands,
    Instruction.opcodeValue, M31.ofU32, immOf, num1, num2, num3, num4, num5, num6, num7, num8,
    notRet1, notRet2, notRet3, notRet4]
  · simp only [Eval.TablesHold, evaluate, write, List.forall_mem_cons, th_memory, th_registers, th_rc20, th_rc16,
    true_and,
      List.not_mem_nil, false_implies, implies_true, and_true]
    exact ⟨hi, h0, h1, h2⟩
  · simp [nextPc, write, instValue, value, accessField, accClock, prevValue, address, Instruction.encode,
    Instruction.operands,
    Instruction.opcodeValue, M31.ofU32, immOf, num1, num2, num3, num4, num5, num6, num7, num8,
    notRet1, notRet2, notRet3, notRet4]
  · simp [nextFp, write, instValue, value, accessField, accClock, prevValue, address, Instruction.encode,
    Instruction.operands,
    Instruction.opcodeValue, M31.ofU32, immOf, num1, num2, num3, num4, num5, num6, num7, num8,
    notRet1, notRet2, notRet3, notRet4]
  · refine .of_eq ?_
    simp [accs, stepRecords, codeCells, Instruction.toQM31s, Instruction.packQM31s, QM31.ofM31,
      write, instValue, value, accessField, accClock, prevValue, address, Instruction.encode, Instruction.operands,
    Instruction.opcodeValue, M31.ofU32, immOf, num1, num2, num3, num4, num5, num6, num7, num8,
    notRet1, notRet2, notRet3, notRet4]
  · simp [evaluate, Entry.padded, Rel.arity,
      write, instValue, value, accessField, accClock, prevValue, address, Instruction.encode, Instruction.operands,
    Instruction.opcodeValue, M31.ofU32, immOf, num1, num2, num3, num4, num5, num6, num7, num8,
    notRet1, notRet2, notRet3, notRet4]

theorem complete_store {pc fp clk ic a i d u v c0 p0 c1 p1 c2 p2 : M31} 
    (hi : (clk - ic - 1).val < 2 ^ 20) (h0 : (clk - c0 - 1).val < 2 ^ 20) (h1 : (clk - c1 - 1).val < 2 ^ 20) (h2 :
    (clk - c2 - 1).val < 2 ^ 20) {e : Effect}
    (he : e = ⟨[fp + a, fp + d], [(u + i, v)], pc + 1, fp⟩) {x : Bundle}
    (hx : x = ⟨⟨pc, fp⟩, clk, .StoreToDoubleDerefFpImm a i d, ic,
      [⟨fp + a, c0, p0, u⟩, ⟨fp + d, c1, p1, v⟩, ⟨u + i, c2, p2, v⟩]⟩) :
    Complete (evaluate (write 1 x).row) (write 1 x).entries x e := by
  subst hx he
  refine ⟨?_, ?_, performs_of (performs rfl) ?_ ?_ ?_, ?_⟩
  · simp [Eval.Satisfied, evaluate, invOr1, invOr2, write, instValue, value, accessField, accClock, prevValue,
    address, Instruction.encode, Instruction.operands,
    Instruction.opcodeValue, M31.ofU32, immOf, num1, num2, num3, num4, num5, num6, num7, num8,
    notRet1, notRet2, notRet3, notRet4]
  · simp only [Eval.TablesHold, evaluate, write, List.forall_mem_cons, th_memory, th_registers, th_rc20, th_rc16,
    true_and,
      List.not_mem_nil, false_implies, implies_true, and_true]
    exact ⟨hi, h0, h1, h2⟩
  · simp [nextPc, write, instValue, value, accessField, accClock, prevValue, address, Instruction.encode,
    Instruction.operands,
    Instruction.opcodeValue, M31.ofU32, immOf, num1, num2, num3, num4, num5, num6, num7, num8,
    notRet1, notRet2, notRet3, notRet4]
  · simp [nextFp, write, instValue, value, accessField, accClock, prevValue, address, Instruction.encode,
    Instruction.operands,
    Instruction.opcodeValue, M31.ofU32, immOf, num1, num2, num3, num4, num5, num6, num7, num8,
    notRet1, notRet2, notRet3, notRet4]
  · refine .of_eq ?_
    simp [accs, stepRecords, codeCells, Instruction.toQM31s, Instruction.packQM31s, QM31.ofM31,
      write, instValue, value, accessField, accClock, prevValue, address, Instruction.encode, Instruction.operands,
    Instruction.opcodeValue, M31.ofU32, immOf, num1, num2, num3, num4, num5, num6, num7, num8,
    notRet1, notRet2, notRet3, notRet4]
  · simp [evaluate, Entry.padded, Rel.arity,
      write, instValue, value, accessField, accClock, prevValue, address, Instruction.encode, Instruction.operands,
    Instruction.opcodeValue, M31.ofU32, immOf, num1, num2, num3, num4, num5, num6, num7, num8,
    notRet1, notRet2, notRet3, notRet4]

theorem honest_load {x : Bundle} {mem : Mem} {e : Effect} {a b d : M31} (h : Honest x mem e)
    (hin : x.instruction = .StoreDoubleDerefFp a b d) : Complete (evaluate (write 1 x).row) (write 1 x).entries x e
    := by
  obtain ⟨⟨pc, fp⟩, clk, i, ic, l⟩ := x
  obtain ⟨hs, ha, hi, hr⟩ := h
  subst hin
  simp only [sem, Option.bind_eq_bind, Option.bind_eq_some_iff] at hs
  obtain ⟨u, hu, v, hv, hd⟩ := hs
  replace hu := felt_inv hu
  replace hv := felt_inv hv
  have he := done_inv hd
  simp only [he, Effect.log, List.map_cons, List.map_nil, List.cons_append, List.nil_append, hu, hv] at ha
  obtain ⟨c0, p0, l0, rfl, ha0⟩ := acc_cons ha
  obtain ⟨c1, p1, l1, rfl, ha1⟩ := acc_cons ha0
  obtain ⟨c2, p2, l2, rfl, ha2⟩ := acc_cons ha1
  obtain rfl := acc_nil ha2
  simp only [List.forall_mem_cons] at hr
  obtain ⟨h0, h1, h2, -⟩ := hr
  exact complete_load hi h0 h1 h2 he rfl

theorem honest_store {x : Bundle} {mem : Mem} {e : Effect} {a b d : M31} (h : Honest x mem e)
    (hin : x.instruction = .StoreToDoubleDerefFpImm a b d) : Complete (evaluate (write 1 x).row) (write 1 x).entries
    x e := by
  obtain ⟨⟨pc, fp⟩, clk, i, ic, l⟩ := x
  obtain ⟨hs, ha, hi, hr⟩ := h
  subst hin
  simp only [sem, Option.bind_eq_bind, Option.bind_eq_some_iff] at hs
  obtain ⟨u, hu, v, hv, hd⟩ := hs
  replace hu := felt_inv hu
  replace hv := felt_inv hv
  have he := done_inv hd
  simp only [he, Effect.log, List.map_cons, List.map_nil, List.cons_append, List.nil_append, hu, hv] at ha
  obtain ⟨c0, p0, l0, rfl, ha0⟩ := acc_cons ha
  obtain ⟨c1, p1, l1, rfl, ha1⟩ := acc_cons ha0
  obtain ⟨c2, p2, l2, rfl, ha2⟩ := acc_cons ha1
  obtain rfl := acc_nil ha2
  simp only [List.forall_mem_cons] at hr
  obtain ⟨h0, h1, h2, -⟩ := hr
  exact complete_store hi h0 h1 h2 he rfl

end DoubleDerefFpImm

namespace DoubleDerefFpFp

theorem complete_load {pc fp clk ic a i d u v w c0 p0 c1 p1 c2 p2 c3 p3 : M31} 
    (hi : (clk - ic - 1).val < 2 ^ 20) (h0 : (clk - c0 - 1).val < 2 ^ 20) (h1 : (clk - c1 - 1).val < 2 ^ 20) (h2 :
    (clk - c2 - 1).val < 2 ^ 20) (h3 : (clk - c3 - 1).val < 2 ^ 20) {e : Effect}
    (he : e = ⟨[fp + a, fp + i, u + w], [(fp + d, v)], pc + 1, fp⟩) {x : Bundle}
    (hx : x = ⟨⟨pc, fp⟩, clk, .StoreDoubleDerefFpFp a i d, ic,
      [⟨fp + a, c0, p0, u⟩, ⟨fp + i, c1, p1, w⟩, ⟨u + w, c2, p2, v⟩, ⟨fp + d, c3, p3, v⟩]⟩) :
    Complete (evaluate (write 1 x).row) (write 1 x).entries x e := by
  subst hx he
  refine ⟨?_, ?_, performs_of (performs rfl) ?_ ?_ ?_, ?_⟩
  · simp [Eval.Satisfied, evaluate, invOr1, invOr2, write, instValue, value, accessField, accClock, prevValue,
    address, Instruction.encode, Instruction.operands,
    Instruction.opcodeValue, M31.ofU32, immOf, num1, num2, num3, num4, num5, num6, num7, num8,
    notRet1, notRet2, notRet3, notRet4]
  · simp only [Eval.TablesHold, evaluate, write, List.forall_mem_cons, th_memory, th_registers, th_rc20, th_rc16,
    true_and,
      List.not_mem_nil, false_implies, implies_true, and_true]
    exact ⟨hi, h0, h1, h2, h3⟩
  · simp [nextPc, write, instValue, value, accessField, accClock, prevValue, address, Instruction.encode,
    Instruction.operands,
    Instruction.opcodeValue, M31.ofU32, immOf, num1, num2, num3, num4, num5, num6, num7, num8,
    notRet1, notRet2, notRet3, notRet4]
  · simp [nextFp, write, instValue, value, accessField, accClock, prevValue, address, Instruction.encode,
    Instruction.operands,
    Instruction.opcodeValue, M31.ofU32, immOf, num1, num2, num3, num4, num5, num6, num7, num8,
    notRet1, notRet2, notRet3, notRet4]
  · refine .of_eq ?_
    simp [accs, stepRecords, codeCells, Instruction.toQM31s, Instruction.packQM31s, QM31.ofM31,
      write, instValue, value, accessField, accClock, prevValue, address, Instruction.encode, Instruction.operands,
    Instruction.opcodeValue, M31.ofU32, immOf, num1, num2, num3, num4, num5, num6, num7, num8,
    notRet1, notRet2, notRet3, notRet4]
  · simp [evaluate, Entry.padded, Rel.arity,
      write, instValue, value, accessField, accClock, prevValue, address, Instruction.encode, Instruction.operands,
    Instruction.opcodeValue, M31.ofU32, immOf, num1, num2, num3, num4, num5, num6, num7, num8,
    notRet1, notRet2, notRet3, notRet4]

theorem complete_store {pc fp clk ic a i d u v w c0 p0 c1 p1 c2 p2 c3 p3 : M31} 
    (hi : (clk - ic - 1).val < 2 ^ 20) (h0 : (clk - c0 - 1).val < 2 ^ 20) (h1 : (clk - c1 - 1).val < 2 ^ 20) (h2 :
    (clk - c2 - 1).val < 2 ^ 20) (h3 : (clk - c3 - 1).val < 2 ^ 20) {e : Effect}
    (he : e = ⟨[fp + a, fp + i, fp + d], [(u + w, v)], pc + 1, fp⟩) {x : Bundle}
    (hx : x = ⟨⟨pc, fp⟩, clk, .StoreToDoubleDerefFpFp a i d, ic,
      [⟨fp + a, c0, p0, u⟩, ⟨fp + i, c1, p1, w⟩, ⟨fp + d, c2, p2, v⟩, ⟨u + w, c3, p3, v⟩]⟩) :
    Complete (evaluate (write 1 x).row) (write 1 x).entries x e := by
  subst hx he
  refine ⟨?_, ?_, performs_of (performs rfl) ?_ ?_ ?_, ?_⟩
  · simp [Eval.Satisfied, evaluate, invOr1, invOr2, write, instValue, value, accessField, accClock, prevValue,
    address, Instruction.encode, Instruction.operands,
    Instruction.opcodeValue, M31.ofU32, immOf, num1, num2, num3, num4, num5, num6, num7, num8,
    notRet1, notRet2, notRet3, notRet4]
  · simp only [Eval.TablesHold, evaluate, write, List.forall_mem_cons, th_memory, th_registers, th_rc20, th_rc16,
    true_and,
      List.not_mem_nil, false_implies, implies_true, and_true]
    exact ⟨hi, h0, h1, h2, h3⟩
  · simp [nextPc, write, instValue, value, accessField, accClock, prevValue, address, Instruction.encode,
    Instruction.operands,
    Instruction.opcodeValue, M31.ofU32, immOf, num1, num2, num3, num4, num5, num6, num7, num8,
    notRet1, notRet2, notRet3, notRet4]
  · simp [nextFp, write, instValue, value, accessField, accClock, prevValue, address, Instruction.encode,
    Instruction.operands,
    Instruction.opcodeValue, M31.ofU32, immOf, num1, num2, num3, num4, num5, num6, num7, num8,
    notRet1, notRet2, notRet3, notRet4]
  · refine .of_eq ?_
    simp [accs, stepRecords, codeCells, Instruction.toQM31s, Instruction.packQM31s, QM31.ofM31,
      write, instValue, value, accessField, accClock, prevValue, address, Instruction.encode, Instruction.operands,
    Instruction.opcodeValue, M31.ofU32, immOf, num1, num2, num3, num4, num5, num6, num7, num8,
    notRet1, notRet2, notRet3, notRet4]
  · simp [evaluate, Entry.padded, Rel.arity,
      write, instValue, value, accessField, accClock, prevValue, address, Instruction.encode, Instruction.operands,
    Instruction.opcodeValue, M31.ofU32, immOf, num1, num2, num3, num4, num5, num6, num7, num8,
    notRet1, notRet2, notRet3, notRet4]

theorem honest_load {x : Bundle} {mem : Mem} {e : Effect} {a b d : M31} (h : Honest x mem e)
    (hin : x.instruction = .StoreDoubleDerefFpFp a b d) : Complete (evaluate (write 1 x).row) (write 1 x).entries x e
    := by
  obtain ⟨⟨pc, fp⟩, clk, i, ic, l⟩ := x
  obtain ⟨hs, ha, hi, hr⟩ := h
  subst hin
  simp only [sem, Option.bind_eq_bind, Option.bind_eq_some_iff] at hs
  obtain ⟨u, hu, w, hw, v, hv, hd⟩ := hs
  replace hu := felt_inv hu
  replace hw := felt_inv hw
  replace hv := felt_inv hv
  have he := done_inv hd
  simp only [he, Effect.log, List.map_cons, List.map_nil, List.cons_append, List.nil_append, hu, hw, hv] at ha
  obtain ⟨c0, p0, l0, rfl, ha0⟩ := acc_cons ha
  obtain ⟨c1, p1, l1, rfl, ha1⟩ := acc_cons ha0
  obtain ⟨c2, p2, l2, rfl, ha2⟩ := acc_cons ha1
  obtain ⟨c3, p3, l3, rfl, ha3⟩ := acc_cons ha2
  obtain rfl := acc_nil ha3
  simp only [List.forall_mem_cons] at hr
  obtain ⟨h0, h1, h2, h3, -⟩ := hr
  exact complete_load hi h0 h1 h2 h3 he rfl

theorem honest_store {x : Bundle} {mem : Mem} {e : Effect} {a b d : M31} (h : Honest x mem e)
    (hin : x.instruction = .StoreToDoubleDerefFpFp a b d) : Complete (evaluate (write 1 x).row) (write 1 x).entries x
    e := by
  obtain ⟨⟨pc, fp⟩, clk, i, ic, l⟩ := x
  obtain ⟨hs, ha, hi, hr⟩ := h
  subst hin
  simp only [sem, Option.bind_eq_bind, Option.bind_eq_some_iff] at hs
  obtain ⟨u, hu, w, hw, v, hv, hd⟩ := hs
  replace hu := felt_inv hu
  replace hw := felt_inv hw
  replace hv := felt_inv hv
  have he := done_inv hd
  simp only [he, Effect.log, List.map_cons, List.map_nil, List.cons_append, List.nil_append, hu, hw, hv] at ha
  obtain ⟨c0, p0, l0, rfl, ha0⟩ := acc_cons ha
  obtain ⟨c1, p1, l1, rfl, ha1⟩ := acc_cons ha0
  obtain ⟨c2, p2, l2, rfl, ha2⟩ := acc_cons ha1
  obtain ⟨c3, p3, l3, rfl, ha3⟩ := acc_cons ha2
  obtain rfl := acc_nil ha3
  simp only [List.forall_mem_cons] at hr
  obtain ⟨h0, h1, h2, h3, -⟩ := hr
  exact complete_store hi h0 h1 h2 h3 he rfl

end DoubleDerefFpFp

namespace StoreLeFpImm

theorem complete_aux {pc fp clk ic a i d u c0 p0 c1 p1 A B w : M31} (hAB : A.val ≤ B.val)
    (hw : (u.val ≤ i.val ∧ w = 1 ∧ A = u ∧ B = i) ∨ (¬ u.val ≤ i.val ∧ w = 0 ∧ A = i ∧ B = u))
    (hi : (clk - ic - 1).val < 2 ^ 20) (h0 : (clk - c0 - 1).val < 2 ^ 20) (h1 : (clk - c1 - 1).val < 2 ^ 20) {e :
    Effect}
    (he : e = ⟨[fp + a], [(fp + d, w)], pc + 1, fp⟩) {x : Bundle}
    (hx : x = ⟨⟨pc, fp⟩, clk, .StoreLeFpImm a i d, ic, [⟨fp + a, c0, p0, u⟩, ⟨fp + d, c1, p1, w⟩]⟩) :
    Complete (evaluate (write 1 x).row) (write 1 x).entries x e := by
  have hP : P = 2147483647 := rfl
  obtain ⟨s, l, m, ii, jj, k, hs, hsl, hlm, hk, hsum⟩ := sortedArcs_spec hAB (ZMod.val_lt B)
  have hA : (if u.val ≤ i.val then u else i) = A := by rcases hw with ⟨h, -, hA, -⟩ | ⟨h, -, hA, -⟩ <;> simp [h, hA]
  have hB : (if u.val ≤ i.val then i else u) = B := by rcases hw with ⟨h, -, -, hB⟩ | ⟨h, -, -, hB⟩ <;> simp [h, hB]
  have hW : (if u.val ≤ i.val then (1 : M31) else 0) = w := by rcases hw with ⟨h, hw, -⟩ | ⟨h, hw, -⟩ <;> simp [h, hw]
  have hrow : (write 1 x).row = ⟨1, pc, fp, clk, ic, a, i, d, u, c0, p1, c1, A, B, if k = 2 then 1 else 0,
      if k = 1 then 1 else 0, if k = 0 then 1 else 0, (s % 10923 : ℕ), (s / 10923 : ℕ), (l % 16384 : ℕ),
      (l / 16384 : ℕ), w⟩ := by
    subst hx
    simp [write, instValue, value, accessField, accClock, prevValue, Instruction.encode, Instruction.operands,
      Instruction.opcodeValue, M31.ofU32, hA, hB, hW, hs]
  have hent : (write 1 x).entries.map Entry.padded = (evaluate (write 1 x).row).entries.map Entry.padded := by
    subst hx
    simp [evaluate, write, Entry.padded, Rel.arity]
  have hperf := performs (r := (write 1 x).row) rfl
  rw [hrow] at hperf hent ⊢
  subst he
  refine ⟨?_, ?_, performs_of (fp := x.registers.fp) (pc := x.registers.pc) (c := x.clock)
    (by subst hx; exact hperf) rfl rfl ?_, hent⟩
  · have e1 := cast_diff hAB
    have e2 := cast_compl (b := B)
    have f1 : (w = 1 ∧ A = u ∧ B = i) ∨ (w = 0 ∧ A = i ∧ B = u) := by tauto
    have f2 : w * (1 - w) = 0 := by rcases f1 with ⟨rfl, -⟩ | ⟨rfl, -⟩ <;> simp
    have f3 : A - w * u - (1 - w) * i = 0 := by rcases f1 with ⟨rfl, rfl, rfl⟩ | ⟨rfl, rfl, rfl⟩ <;> simp
    have f4 : B - w * i - (1 - w) * u = 0 := by rcases f1 with ⟨rfl, rfl, rfl⟩ | ⟨rfl, rfl, rfl⟩ <;> simp
    rcases hk with ⟨rfl, q1, q2⟩ | ⟨rfl, q1, q2⟩ | ⟨rfl, q1, q2⟩ <;>
    · replace q1 := congrArg (Nat.cast (R := M31)) q1
      replace q2 := congrArg (Nat.cast (R := M31)) q2
      simp only [Nat.cast_add, Nat.cast_mul, e1, e2, ZMod.natCast_zmod_val] at q1 q2
      simp only [Eval.Satisfied, evaluate, cast_divmod3, cast_divmod2, q1, q2, List.forall_mem_cons, List.not_mem_nil,
        false_implies, implies_true, and_true, f2, f3, f4]
      simp
      try ring
  · simp only [Eval.TablesHold, evaluate, List.forall_mem_cons, th_memory, th_registers, th_rc20, th_rc16, true_and,
      List.not_mem_nil, false_implies, implies_true, and_true]
    have hv : ∀ n : ℕ, n < 2 ^ 16 → ((n : ℕ) : M31).val < 2 ^ 16 := fun n hn => by
      rwa [ZMod.val_natCast_of_lt (by omega)]
    exact ⟨hv _ (by omega), hv _ (by omega), hv _ (by omega), hv _ (by omega), hi, h0, h1⟩
  · refine .of_eq ?_
    subst hx
    simp [accs, stepRecords, codeCells, Instruction.toQM31s, Instruction.packQM31s, QM31.ofM31, Instruction.encode,
      Instruction.operands, Instruction.opcodeValue, M31.ofU32]

theorem complete {pc fp clk ic a i d u c0 p0 c1 p1 : M31}
    (hi : (clk - ic - 1).val < 2 ^ 20) (h0 : (clk - c0 - 1).val < 2 ^ 20) (h1 : (clk - c1 - 1).val < 2 ^ 20) {e :
    Effect}
    (he : e = ⟨[fp + a], [(fp + d, bit (u.val ≤ i.val))], pc + 1, fp⟩) {x : Bundle}
    (hx : x = ⟨⟨pc, fp⟩, clk, .StoreLeFpImm a i d, ic,
      [⟨fp + a, c0, p0, u⟩, ⟨fp + d, c1, p1, bit (u.val ≤ i.val)⟩]⟩) :
    Complete (evaluate (write 1 x).row) (write 1 x).entries x e := by
  by_cases h : u.val ≤ i.val
  · exact complete_aux h (.inl ⟨h, by rw [bit, if_pos h], rfl, rfl⟩) hi h0 h1 he hx
  · exact complete_aux (by omega) (.inr ⟨h, by rw [bit, if_neg h], rfl, rfl⟩) hi h0 h1 he hx

theorem honest {x : Bundle} {mem : Mem} {e : Effect} {a b d : M31} (h : Honest x mem e)
    (hin : x.instruction = .StoreLeFpImm a b d) : Complete (evaluate (write 1 x).row) (write 1 x).entries x e := by
  obtain ⟨⟨pc, fp⟩, clk, i, ic, l⟩ := x
  obtain ⟨hs, ha, hi, hr⟩ := h
  subst hin
  simp only [sem, Option.bind_eq_bind, Option.bind_eq_some_iff] at hs
  obtain ⟨u, hu, hd⟩ := hs
  replace hu := felt_inv hu
  have he := done_inv hd
  simp only [he, Effect.log, List.map_cons, List.map_nil, List.cons_append, List.nil_append, hu] at ha
  obtain ⟨c0, p0, l0, rfl, ha0⟩ := acc_cons ha
  obtain ⟨c1, p1, l1, rfl, ha1⟩ := acc_cons ha0
  obtain rfl := acc_nil ha1
  simp only [List.forall_mem_cons] at hr
  obtain ⟨h0, h1, -⟩ := hr
  exact complete hi h0 h1 he rfl

end StoreLeFpImm
end Air
end CairoM
