import Verif.AirRows

/-!
# Soundness of the felt, data-movement and control-flow circuits

For every component: any row that satisfies the constraints and whose table lookups hold is inert when disabled and a
step of the machine of `IsaSpec` when enabled (`Sound`, see `AirSpec`).
-/

namespace CairoM
namespace Air

open Isa

/-- Proves that the words at `pc` are the encoding. -/
local macro "air_enc" : tactic => `(tactic|
  first
  | rfl
  | (norm_num [QM31.limbs, Instruction.encode, Instruction.opcodeValue, Instruction.operands, M31.ofU32]; done))

/-- Splits the hypothesis that the constraints hold. -/
local macro "air_split" h:ident : tactic => `(tactic|
  simp only [List.forall_mem_cons, List.not_mem_nil, false_implies, implies_true, and_true] at $h:ident)

/-! ## Felt arithmetic -/

namespace StoreFpFp

/-- **C30** (memory operands), partial: the row is sound unless it divides by zero. Missing: division by zero, where the
property fails (`C30_violated_div`). -/
theorem C30_store_fp_fp_partial (r : Row) (hs : (evaluate r).Satisfied) (ht : (evaluate r).TablesHold)
    (hz : r.opcode_flag_0 = 1 → r.opcode_flag_1 = 1 → r.op1_val ≠ 0) : Sound r.enabler (evaluate r) := by
  simp only [Eval.Satisfied, evaluate] at hs
  air_split hs
  obtain ⟨he, hf0, hf1, hprod, hi1, -, hdiv, hres⟩ := hs
  rcases bool_of he with h | h
  · exact .inl ⟨h, inert h⟩
  refine .inr ⟨h, _, _, _, _, _, _, performs h, ordered h ht, ?_⟩
  rcases bool_of hf0 with f0 | f0 <;> rcases bool_of hf1 with f1 | f1
  · have hv : r.dst_val = r.op0_val + r.op1_val := by rw [sub_eq_zero.1 hres, f0, f1]; ring
    refine executes_of (.StoreAddFpFp r.off0 r.off1 r.off2)
      ⟨[r.fp + r.off0, r.fp + r.off1], [(r.fp + r.off2, r.op0_val + r.op1_val)], r.pc + 1, r.fp⟩ rfl rfl fun mem hm => ?_
    simp only [accs, f0, f1] at hm; air_split hm
    obtain ⟨hi, h0, h1, h2⟩ := hm
    refine ⟨_, stored_one _ hi.2 (Nat.le_of_ble_eq_true rfl) (by air_enc), ?_, ?_⟩
    · dsimp only [sem]
      rw [felt_of h0, felt_of h1, Option.bind_eq_bind, Option.bind_some, Option.bind_some, done_of (by simpa using h2.1)]
    · simp [Effect.log, accs, h0.2, h1.2, hv, f0, f1]
  · have hv : r.dst_val = r.op0_val - r.op1_val := by rw [sub_eq_zero.1 hres, f0, f1]; ring
    refine executes_of (.StoreSubFpFp r.off0 r.off1 r.off2)
      ⟨[r.fp + r.off0, r.fp + r.off1], [(r.fp + r.off2, r.op0_val - r.op1_val)], r.pc + 1, r.fp⟩ rfl rfl fun mem hm => ?_
    simp only [accs, f0, f1] at hm; air_split hm
    obtain ⟨hi, h0, h1, h2⟩ := hm
    refine ⟨_, stored_one _ hi.2 (Nat.le_of_ble_eq_true rfl) (by air_enc), ?_, ?_⟩
    · dsimp only [sem]
      rw [felt_of h0, felt_of h1, Option.bind_eq_bind, Option.bind_some, Option.bind_some, done_of (by simpa using h2.1)]
    · simp [Effect.log, accs, h0.2, h1.2, hv, f0, f1]
  · have hv : r.dst_val = r.op0_val * r.op1_val := by
      rw [sub_eq_zero.1 hres, f0, f1, ← sub_eq_zero.1 hprod]; ring
    refine executes_of (.StoreMulFpFp r.off0 r.off1 r.off2)
      ⟨[r.fp + r.off0, r.fp + r.off1], [(r.fp + r.off2, r.op0_val * r.op1_val)], r.pc + 1, r.fp⟩ rfl rfl fun mem hm => ?_
    simp only [accs, f0, f1] at hm; air_split hm
    obtain ⟨hi, h0, h1, h2⟩ := hm
    refine ⟨_, stored_one _ hi.2 (Nat.le_of_ble_eq_true rfl) (by air_enc), ?_, ?_⟩
    · dsimp only [sem]
      rw [felt_of h0, felt_of h1, Option.bind_eq_bind, Option.bind_some, Option.bind_some, done_of (by simpa using h2.1)]
    · simp [Effect.log, accs, h0.2, h1.2, hv, f0, f1]
  · have hne := hz f0 f1
    have hinv : r.op1_inv = r.op1_val⁻¹ :=
      eq_inv_of_mul_eq_one_left (sub_eq_zero.1 ((mul_eq_zero.1 hi1).resolve_left hne))
    have hv : r.dst_val = r.op0_val * r.op1_val⁻¹ := by
      rw [sub_eq_zero.1 hres, f0, f1, sub_eq_zero.1 hdiv, hinv]; ring
    refine executes_of (.StoreDivFpFp r.off0 r.off1 r.off2)
      ⟨[r.fp + r.off0, r.fp + r.off1], [(r.fp + r.off2, r.op0_val * r.op1_val⁻¹)], r.pc + 1, r.fp⟩ rfl rfl
      fun mem hm => ?_
    simp only [accs, f0, f1] at hm; air_split hm
    obtain ⟨hi, h0, h1, h2⟩ := hm
    refine ⟨_, stored_one _ hi.2 (Nat.le_of_ble_eq_true rfl) (by air_enc), ?_, ?_⟩
    · dsimp only [sem]
      rw [felt_of h0, felt_of h1, Option.bind_eq_bind, Option.bind_some, Option.bind_some, if_neg hne,
        done_of (by simpa using h2.1)]
    · simp [Effect.log, accs, h0.2, h1.2, hv, f0, f1]

/-- **C30** fails for division: the circuit accepts `x / 0 = 0`, where the machine faults. -/
theorem C30_violated_div : ∃ r : Row, r.enabler = 1 ∧ (evaluate r).Satisfied ∧ (evaluate r).TablesHold ∧
    ¬ Sound r.enabler (evaluate r) := by
  let r : Row := ⟨1, 0, 100, 1, 0, 0, 1, 2, 0, 5, 0, 0, 0, 0, 0, 0, 1, 1, 0, 0⟩
  refine ⟨r, rfl, satisfied_of_check (by decide +kernel), tablesHold_of_check (by decide +kernel), ?_⟩
  refine not_sound_of (performs rfl) rfl
    (fun a => if a = 0 then ⟨3, 0, 1, 2⟩ else if a = 100 then ⟨5, 0, 0, 0⟩ else ⟨0, 0, 0, 0⟩) (by decide +kernel) ?_
  intro i hi e he
  rw [stored_unique hi (j := .StoreDivFpFp 0 1 2) (by decide +kernel),
    show sem (.StoreDivFpFp 0 1 2) r.pc r.fp _ = none by decide +kernel] at he
  cases he

/-- Non-vacuity of `C30_store_fp_fp_partial`: `7 / 2` in cells 100, 101, result in cell 102. -/
example : let r : Row := ⟨1, 3, 100, 9, 4, 0, 1, 2, 5, 7, 6, 2, 1073741824, 7, 0, 1073741827, 1, 1, 14, 1073741827⟩
    (evaluate r).Satisfied ∧ (evaluate r).TablesHold ∧ r.op1_val ≠ 0 :=
  ⟨satisfied_of_check (by decide +kernel), tablesHold_of_check (by decide +kernel), by decide⟩

end StoreFpFp

namespace StoreFpImm

/-- **C30** (immediate operand), partial: the row is sound if the second opcode flag is unset. Missing: opcodes 5 and 7, which
no instruction uses but the circuit accepts (`C30_violated_opcode`). -/
theorem C30_store_fp_imm_partial (r : Row) (hs : (evaluate r).Satisfied) (ht : (evaluate r).TablesHold)
    (f1 : r.opcode_flag_1 = 0) :
    Sound r.enabler (evaluate r) := by
  simp only [Eval.Satisfied, evaluate] at hs
  air_split hs
  obtain ⟨he, hf0, -, hprod, -, -, -, hres⟩ := hs
  rcases bool_of he with h | h
  · exact .inl ⟨h, inert h⟩
  refine .inr ⟨h, _, _, _, _, _, _, performs h, ordered h ht, ?_⟩
  rcases bool_of hf0 with f0 | f0
  · have hv : r.dst_val = r.src_val + r.imm := by rw [sub_eq_zero.1 hres, f0, f1]; ring
    refine executes_of (.StoreAddFpImm r.src_off r.imm r.dst_off)
      ⟨[r.fp + r.src_off], [(r.fp + r.dst_off, r.src_val + r.imm)], r.pc + 1, r.fp⟩ rfl rfl fun mem hm => ?_
    simp only [accs, f0, f1, hv] at hm; air_split hm
    obtain ⟨hi, h0, h1⟩ := hm
    refine ⟨_, stored_one _ hi.2 (Nat.le_of_ble_eq_true rfl) (by air_enc), ?_, ?_⟩
    · dsimp only [sem]
      rw [felt_of h0, Option.bind_eq_bind, Option.bind_some, done_of (by simpa using h1.1)]
    · simp [Effect.log, accs, h0.2, f0, f1, hv]
  · have hv : r.dst_val = r.src_val * r.imm := by
      rw [sub_eq_zero.1 hres, f0, f1, ← sub_eq_zero.1 hprod]; ring
    refine executes_of (.StoreMulFpImm r.src_off r.imm r.dst_off)
      ⟨[r.fp + r.src_off], [(r.fp + r.dst_off, r.src_val * r.imm)], r.pc + 1, r.fp⟩ rfl rfl fun mem hm => ?_
    simp only [accs, f0, f1, hv] at hm; air_split hm
    obtain ⟨hi, h0, h1⟩ := hm
    refine ⟨_, stored_one _ hi.2 (Nat.le_of_ble_eq_true rfl) (by air_enc), ?_, ?_⟩
    · dsimp only [sem]
      rw [felt_of h0, Option.bind_eq_bind, Option.bind_some, done_of (by simpa using h1.1)]
    · simp [Effect.log, accs, h0.2, f0, f1, hv]

/-- **C30** fails for the unused opcodes 5 and 7: the circuit accepts `dst = src - imm` for the word `[5, src, imm, dst]`,
which is not an instruction. -/
theorem C30_violated_opcode : ∃ r : Row, r.enabler = 1 ∧ (evaluate r).Satisfied ∧ (evaluate r).TablesHold ∧
    ¬ Sound r.enabler (evaluate r) := by
  let r : Row := ⟨1, 0, 100, 1, 0, 0, 2, 1, 0, 5, 1073741824, 0, 0, 3, 0, 1, 10, 1073741826⟩
  refine ⟨r, rfl, satisfied_of_check (by decide +kernel), tablesHold_of_check (by decide +kernel), ?_⟩
  refine not_sound_of (performs rfl) rfl
    (fun a => if a = 0 then ⟨5, 0, 2, 1⟩ else if a = 100 then ⟨5, 0, 0, 0⟩ else ⟨0, 0, 0, 0⟩) (by decide +kernel) ?_
  intro i hi
  have h := congrArg ZMod.val (stored_opcode hi)
  rw [Instruction.val_ofU32_opcode] at h
  have h5 : i.opcodeValue = 5 := h.symm
  cases i <;> exact absurd h5 (by simp [Instruction.opcodeValue])

/-- Non-vacuity of `C30_store_fp_imm_partial`. -/
example : let r : Row := ⟨1, 3, 100, 9, 4, 0, 2, 1, 5, 7, 1073741824, 7, 0, 14, 1, 0, 14, 1073741827⟩
    (evaluate r).Satisfied ∧ (evaluate r).TablesHold ∧ r.opcode_flag_1 = 0 :=
  ⟨satisfied_of_check (by decide +kernel), tablesHold_of_check (by decide +kernel), by decide⟩

end StoreFpImm

/-! ## Felt comparison -/

namespace StoreLeFpImm

/-- **C38**, partial: the row is sound unless the compared values are equal and the result is 0. Missing: that case, where the
property fails (`C38_violated`). -/
theorem C38_store_le_partial (r : Row) (hs : (evaluate r).Satisfied) (ht : (evaluate r).TablesHold)
    (hz : r.src_val = r.imm → r.is_le = 1) :
    Sound r.enabler (evaluate r) := by
  simp only [Eval.Satisfied, evaluate] at hs
  air_split hs
  obtain ⟨he, hk01, hk02, -, hsum, hle, e1, e2, e3, e4, e5, e6, ea, eb⟩ := hs
  rcases bool_of he with h | h
  · exact .inl ⟨h, inert h⟩
  refine .inr ⟨h, _, _, _, _, _, _, performs h, ordered h ht, ?_⟩
  obtain ⟨r0, r1, r2, r3⟩ := ranges h ht
  rw [h, one_mul] at hsum ea eb
  have hab : r.a.val ≤ r.b.val :=
    arcs_le r0 r1 r2 r3 (bool_of hk01) (bool_of hk02) (sub_eq_zero.1 hsum) e1 e2 e3 e4 e5 e6
  have hbit : bit (r.src_val.val ≤ r.imm.val) = r.is_le := by
    rcases bool_of hle with h0 | h0
    · have ha : r.a = r.imm := by rw [h0] at ea; linear_combination ea
      have hb : r.b = r.src_val := by rw [h0] at eb; linear_combination eb
      rw [ha, hb] at hab
      have hne : r.src_val.val ≠ r.imm.val := fun hc => by
        have := hz (ZMod.val_injective P hc)
        rw [h0] at this; exact absurd this (by decide)
      rw [bit, if_neg (by omega), h0]
    · have ha : r.a = r.src_val := by rw [h0] at ea; linear_combination ea
      have hb : r.b = r.imm := by rw [h0] at eb; linear_combination eb
      rw [ha, hb] at hab
      rw [bit, if_pos hab, h0]
  refine executes_of (.StoreLeFpImm r.src_off r.imm r.dst_off)
    ⟨[r.fp + r.src_off], [(r.fp + r.dst_off, r.is_le)], r.pc + 1, r.fp⟩ rfl rfl fun mem hm => ?_
  simp only [accs] at hm; air_split hm
  obtain ⟨hi, h0, h1⟩ := hm
  refine ⟨_, stored_one _ hi.2 (Nat.le_of_ble_eq_true rfl) (by air_enc), ?_, ?_⟩
  · dsimp only [sem]
    rw [felt_of h0, Option.bind_eq_bind, Option.bind_some, hbit, done_of (by simpa using h1.1)]
  · simp [Effect.log, accs, h0.2]

/-- **C38** fails when the two values are equal: the circuit also accepts the result 0 for `5 <= 5`. -/
theorem C38_violated : ∃ r : Row, r.enabler = 1 ∧ (evaluate r).Satisfied ∧ (evaluate r).TablesHold ∧
    ¬ Sound r.enabler (evaluate r) := by
  let r : Row := ⟨1, 0, 100, 1, 0, 0, 5, 1, 5, 0, 0, 0, 5, 5, 1, 0, 0, 5, 0, 0, 0, 0⟩
  refine ⟨r, rfl, satisfied_of_check (by decide +kernel), tablesHold_of_check (by decide +kernel), ?_⟩
  refine not_sound_of (performs rfl) rfl
    (fun a => if a = 0 then ⟨48, 0, 5, 1⟩ else if a = 100 then ⟨5, 0, 0, 0⟩ else ⟨0, 0, 0, 0⟩) (by decide +kernel) ?_
  intro i hi e he
  rw [stored_unique hi (j := .StoreLeFpImm 0 5 1) (by decide +kernel)] at he ⊢
  have : e = ⟨[100 + 0], [(100 + 1, 1)], 0 + 1, 100⟩ := by
    dsimp only [sem, r] at he
    have hr : InRange (100 + 1) := by decide +kernel
    rw [felt_of (v := 5) (by decide +kernel), Option.bind_eq_bind, Option.bind_some, done_of (by simpa using hr)] at he
    exact (Option.some.inj he).symm
  subst this
  intro _ _ hp
  have h1 := hp.mem_iff.2 (List.mem_append_right _ (by simp [Effect.log] :
    (⟨100 + 1, ⟨1, 0, 0, 0⟩⟩ : MemoryEntry) ∈ Effect.log ⟨[100 + 0], [(100 + 1, 1)], 0 + 1, 100⟩ _))
  simp only [accs, List.map_cons, List.map_nil, List.mem_cons, List.not_mem_nil, or_false, MemoryEntry.mk.injEq,
    QM31.mk.injEq] at h1
  exact absurd h1 (by decide +kernel)

/-- Non-vacuity of `C38_store_le_partial`: `5 <= 7`. -/
example : let r : Row := ⟨1, 3, 100, 9, 4, 0, 7, 1, 5, 5, 0, 6, 5, 7, 1, 0, 0, 5, 0, 2, 0, 1⟩
    (evaluate r).Satisfied ∧ (evaluate r).TablesHold ∧ r.src_val ≠ r.imm :=
  ⟨satisfied_of_check (by decide +kernel), tablesHold_of_check (by decide +kernel), by decide⟩

end StoreLeFpImm

/-! ## Assertion and control flow -/

namespace AssertEqFpImm

/-- **C31** (assertion). -/
theorem C31_assert_eq (r : Row) (hs : (evaluate r).Satisfied) (ht : (evaluate r).TablesHold) :
    Sound r.enabler (evaluate r) := by
  simp only [Eval.Satisfied, evaluate] at hs
  air_split hs
  obtain ⟨he, h1⟩ := hs
  rcases bool_of he with h | h
  · exact .inl ⟨h, inert h⟩
  refine .inr ⟨h, _, _, _, _, _, _, performs h, ordered h ht, ?_⟩
  refine executes_of (.AssertEqFpImm r.src0_off r.imm)
    ⟨[r.fp + r.src0_off], [], r.pc + 1, r.fp⟩ rfl rfl fun mem hm => ?_
  simp only [accs] at hm; air_split hm
  obtain ⟨hi, h0⟩ := hm
  refine ⟨_, stored_one _ hi.2 (Nat.le_of_ble_eq_true rfl) (by air_enc), ?_, ?_⟩
  · dsimp only [sem]
    rw [felt_of h0, Option.bind_eq_bind, Option.bind_some, if_pos (sub_eq_zero.1 h1), done_of (by simp)]
  · simp [Effect.log, accs, h0.2]

/-- Non-vacuity of `C31_assert_eq`. -/
example : let r : Row := ⟨1, 3, 100, 9, 4, 2, 7, 5, 7⟩
    r.enabler = 1 ∧ (evaluate r).Satisfied ∧ (evaluate r).TablesHold :=
  ⟨rfl, satisfied_of_check (by decide +kernel), tablesHold_of_check (by decide +kernel)⟩

end AssertEqFpImm

namespace CallAbsImm

/-- **C31** (call). -/
theorem C31_call (r : Row) (hs : (evaluate r).Satisfied) (ht : (evaluate r).TablesHold) :
    Sound r.enabler (evaluate r) := by
  simp only [Eval.Satisfied, evaluate] at hs
  air_split hs
  have he := hs
  rcases bool_of he with h | h
  · exact .inl ⟨h, inert h⟩
  refine .inr ⟨h, _, _, _, _, _, _, performs h, ordered h ht, ?_⟩
  have h2 : r.fp + r.off0 + 1 + 1 = r.fp + r.off0 + 2 := by ring
  refine executes_of (.CallAbsImm r.off0 r.off1)
    ⟨[], [(r.fp + r.off0, r.fp), (r.fp + r.off0 + 1, r.pc + 1)], r.off1, r.fp + r.off0 + 2⟩ rfl h2 fun mem hm => ?_
  simp only [accs] at hm; air_split hm
  obtain ⟨hi, h0, h1⟩ := hm
  refine ⟨_, stored_one _ hi.2 (Nat.le_of_ble_eq_true rfl) (by air_enc), ?_, ?_⟩
  · dsimp only [sem]
    rw [done_of (by simpa using ⟨h0.1, h1.1⟩)]
  · simp [Effect.log, accs]

/-- Non-vacuity of `C31_call`. -/
example : let r : Row := ⟨1, 3, 100, 9, 4, 5, 40, 0, 1, 2, 3⟩
    r.enabler = 1 ∧ (evaluate r).Satisfied ∧ (evaluate r).TablesHold :=
  ⟨rfl, satisfied_of_check (by decide +kernel), tablesHold_of_check (by decide +kernel)⟩

end CallAbsImm

namespace Ret

/-- **C31** (return). -/
theorem C31_ret (r : Row) (hs : (evaluate r).Satisfied) (ht : (evaluate r).TablesHold) :
    Sound r.enabler (evaluate r) := by
  simp only [Eval.Satisfied, evaluate] at hs
  air_split hs
  have he := hs
  rcases bool_of he with h | h
  · exact .inl ⟨h, inert h⟩
  refine .inr ⟨h, _, _, _, _, _, _, performs h, ordered h ht, ?_⟩
  refine executes_of (.Ret)
    ⟨[r.fp - 1, r.fp - 2], [], r.fp_min_1_val, r.fp_min_2_val⟩ rfl rfl fun mem hm => ?_
  simp only [accs] at hm; air_split hm
  obtain ⟨hi, h0, h1⟩ := hm
  refine ⟨_, stored_one _ hi.2 (Nat.le_of_ble_eq_true rfl) (by air_enc), ?_, ?_⟩
  · dsimp only [sem]
    rw [felt_of h1, Option.bind_eq_bind, Option.bind_some, felt_of h0, Option.bind_some, done_of (by simp)]
  · simp only [Effect.log, accs, List.map_cons, List.map_nil, h0.2, h1.2, List.append_nil, List.cons_append, List.nil_append]
    exact (List.Perm.swap _ _ _).cons _

/-- Non-vacuity of `C31_ret`. -/
example : let r : Row := ⟨1, 3, 100, 9, 4, 5, 90, 5, 17⟩
    r.enabler = 1 ∧ (evaluate r).Satisfied ∧ (evaluate r).TablesHold :=
  ⟨rfl, satisfied_of_check (by decide +kernel), tablesHold_of_check (by decide +kernel)⟩

end Ret

namespace JmpImm

/-- **C31** (absolute and relative jumps). -/
theorem C31_jmp (r : Row) (hs : (evaluate r).Satisfied) (ht : (evaluate r).TablesHold) :
    Sound r.enabler (evaluate r) := by
  simp only [Eval.Satisfied, evaluate] at hs
  air_split hs
  obtain ⟨he, hr⟩ := hs
  rcases bool_of he with h | h
  · exact .inl ⟨h, inert h⟩
  refine .inr ⟨h, _, _, _, _, _, _, performs h, ordered h ht, ?_⟩
  rcases bool_of hr with f0 | f0
  · refine executes_of (.JmpAbsImm r.off0)
      ⟨[], [], r.off0, r.fp⟩ (by simp [nextPc, f0]) rfl fun mem hm => ?_
    simp only [accs, f0] at hm; air_split hm
    have hi := hm
    refine ⟨_, stored_one _ hi.2 (Nat.le_of_ble_eq_true rfl) (by air_enc), ?_, ?_⟩
    · dsimp only [sem]
      rw [done_of (by simp)]
    · simp [Effect.log, accs, f0]
  · refine executes_of (.JmpRelImm r.off0)
      ⟨[], [], r.pc + r.off0, r.fp⟩ (by simp [nextPc, f0, add_comm]) rfl fun mem hm => ?_
    simp only [accs, f0] at hm; air_split hm
    have hi := hm
    refine ⟨_, stored_one _ hi.2 (Nat.le_of_ble_eq_true rfl) (by air_enc), ?_, ?_⟩
    · dsimp only [sem]
      rw [done_of (by simp)]
    · simp [Effect.log, accs, f0]

/-- Non-vacuity of `C31_jmp`. -/
example : let r : Row := ⟨1, 3, 100, 9, 4, 5, 1⟩
    r.enabler = 1 ∧ (evaluate r).Satisfied ∧ (evaluate r).TablesHold :=
  ⟨rfl, satisfied_of_check (by decide +kernel), tablesHold_of_check (by decide +kernel)⟩

end JmpImm

namespace JnzFpImm

/-- **C31** (conditional jump). -/
theorem C31_jnz (r : Row) (hs : (evaluate r).Satisfied) (ht : (evaluate r).TablesHold) :
    Sound r.enabler (evaluate r) := by
  simp only [Eval.Satisfied, evaluate] at hs
  air_split hs
  obtain ⟨he, h1, h2, h3⟩ := hs
  rcases bool_of he with h | h
  · exact .inl ⟨h, inert h⟩
  refine .inr ⟨h, _, _, _, _, _, _, performs h, ordered h ht, ?_⟩
  rw [h, one_mul] at h1 h2 h3
  have hpc : r.pc_new = if r.op0_val = 0 then r.pc + 1 else r.pc + r.imm := by
    split
    · rename_i h0
      rw [h0] at h2; linear_combination h3 + (r.imm - 1) * h2
    · rename_i h0
      have ht := (mul_eq_zero.1 h1).resolve_left h0
      linear_combination h3 + (r.imm - 1) * ht
  refine executes_of (.JnzFpImm r.off0 r.imm)
    ⟨[r.fp + r.off0], [], (if r.op0_val = 0 then r.pc + 1 else r.pc + r.imm), r.fp⟩ hpc rfl fun mem hm => ?_
  simp only [accs] at hm; air_split hm
  obtain ⟨hi, h0⟩ := hm
  refine ⟨_, stored_one _ hi.2 (Nat.le_of_ble_eq_true rfl) (by air_enc), ?_, ?_⟩
  · dsimp only [sem]
    rw [felt_of h0, Option.bind_eq_bind, Option.bind_some, done_of (by simp)]
  · simp [Effect.log, accs, h0.2]

/-- Non-vacuity of `C31_jnz`. -/
example : let r : Row := ⟨1, 3, 100, 9, 4, 5, 40, 5, 1, 1, 1, 43⟩
    r.enabler = 1 ∧ (evaluate r).Satisfied ∧ (evaluate r).TablesHold :=
  ⟨rfl, satisfied_of_check (by decide +kernel), tablesHold_of_check (by decide +kernel)⟩

end JnzFpImm

/-! ## Data movement -/

namespace StoreImm

/-- **C32** (store immediate). -/
theorem C32_store_imm (r : Row) (hs : (evaluate r).Satisfied) (ht : (evaluate r).TablesHold) :
    Sound r.enabler (evaluate r) := by
  simp only [Eval.Satisfied, evaluate] at hs
  air_split hs
  have he := hs
  rcases bool_of he with h | h
  · exact .inl ⟨h, inert h⟩
  refine .inr ⟨h, _, _, _, _, _, _, performs h, ordered h ht, ?_⟩
  refine executes_of (.StoreImm r.off0 r.off2)
    ⟨[], [(r.fp + r.off2, r.off0)], r.pc + 1, r.fp⟩ rfl rfl fun mem hm => ?_
  simp only [accs] at hm; air_split hm
  obtain ⟨hi, h0⟩ := hm
  refine ⟨_, stored_one _ hi.2 (Nat.le_of_ble_eq_true rfl) (by air_enc), ?_, ?_⟩
  · dsimp only [sem]
    rw [done_of (by simpa using h0.1)]
  · simp [Effect.log, accs]

/-- Non-vacuity of `C32_store_imm`. -/
example : let r : Row := ⟨1, 3, 100, 9, 4, 5, 40, 5, 1⟩
    r.enabler = 1 ∧ (evaluate r).Satisfied ∧ (evaluate r).TablesHold :=
  ⟨rfl, satisfied_of_check (by decide +kernel), tablesHold_of_check (by decide +kernel)⟩

end StoreImm

namespace StoreFramePointer

/-- **C32** (store frame pointer). -/
theorem C32_store_frame_pointer (r : Row) (hs : (evaluate r).Satisfied) (ht : (evaluate r).TablesHold) :
    Sound r.enabler (evaluate r) := by
  simp only [Eval.Satisfied, evaluate] at hs
  air_split hs
  have he := hs
  rcases bool_of he with h | h
  · exact .inl ⟨h, inert h⟩
  refine .inr ⟨h, _, _, _, _, _, _, performs h, ordered h ht, ?_⟩
  refine executes_of (.StoreFramePointer r.imm r.dst_off)
    ⟨[], [(r.fp + r.dst_off, r.fp + r.imm)], r.pc + 1, r.fp⟩ rfl rfl fun mem hm => ?_
  simp only [accs] at hm; air_split hm
  obtain ⟨hi, h0⟩ := hm
  refine ⟨_, stored_one _ hi.2 (Nat.le_of_ble_eq_true rfl) (by air_enc), ?_, ?_⟩
  · dsimp only [sem]
    rw [done_of (by simpa using h0.1)]
  · simp [Effect.log, accs]

/-- Non-vacuity of `C32_store_frame_pointer`. -/
example : let r : Row := ⟨1, 3, 100, 9, 4, 5, 40, 5, 1⟩
    r.enabler = 1 ∧ (evaluate r).Satisfied ∧ (evaluate r).TablesHold :=
  ⟨rfl, satisfied_of_check (by decide +kernel), tablesHold_of_check (by decide +kernel)⟩

end StoreFramePointer

namespace DoubleDerefFpImm

/-- **C32** (load from and store to `[[fp + b] + imm]`). -/
theorem C32_double_deref_fp_imm (r : Row) (hs : (evaluate r).Satisfied) (ht : (evaluate r).TablesHold) :
    Sound r.enabler (evaluate r) := by
  simp only [Eval.Satisfied, evaluate] at hs
  air_split hs
  obtain ⟨he, hw, e1, e2⟩ := hs
  rcases bool_of he with h | h
  · exact .inl ⟨h, inert h⟩
  refine .inr ⟨h, _, _, _, _, _, _, performs h, ordered h ht, ?_⟩
  rw [h, one_mul] at e1 e2
  have hd : (36 : M31) * (36 : M31)⁻¹ = 1 := mul_inv_cancel₀ (by decide)
  rcases bool_of hw with w | w
  · have hop : r.opcode_constant = 8 := by linear_combination 36 * w - (r.opcode_constant - 8) * hd
    have ha1 : r.addr1 = r.val0 + r.off1 := by rw [w] at e1; linear_combination e1
    have ha2 : r.addr2 = r.fp + r.off2 := by rw [w] at e2; linear_combination e2
    refine executes_of (.StoreDoubleDerefFp r.off0 r.off1 r.off2)
      ⟨[r.fp + r.off0, r.val0 + r.off1], [(r.fp + r.off2, r.val1)], r.pc + 1, r.fp⟩ rfl rfl fun mem hm => ?_
    simp only [accs, hop, ha1, ha2] at hm; air_split hm
    obtain ⟨hi, h0, h1, h2⟩ := hm
    refine ⟨_, stored_one _ hi.2 (Nat.le_of_ble_eq_true rfl) (by air_enc), ?_, ?_⟩
    · dsimp only [sem]
      rw [felt_of h0, Option.bind_eq_bind, Option.bind_some, felt_of h1, Option.bind_some, done_of (by simpa using h2.1)]
    · simp [Effect.log, accs, h0.2, h1.2, hop, ha1, ha2]
  · have hop : r.opcode_constant = 44 := by linear_combination 36 * w - (r.opcode_constant - 8) * hd
    have ha1 : r.addr1 = r.fp + r.off2 := by rw [w] at e1; linear_combination e1
    have ha2 : r.addr2 = r.val0 + r.off1 := by rw [w] at e2; linear_combination e2
    refine executes_of (.StoreToDoubleDerefFpImm r.off0 r.off1 r.off2)
      ⟨[r.fp + r.off0, r.fp + r.off2], [(r.val0 + r.off1, r.val1)], r.pc + 1, r.fp⟩ rfl rfl fun mem hm => ?_
    simp only [accs, hop, ha1, ha2] at hm; air_split hm
    obtain ⟨hi, h0, h1, h2⟩ := hm
    refine ⟨_, stored_one _ hi.2 (Nat.le_of_ble_eq_true rfl) (by air_enc), ?_, ?_⟩
    · dsimp only [sem]
      rw [felt_of h0, Option.bind_eq_bind, Option.bind_some, felt_of h1, Option.bind_some, done_of (by simpa using h2.1)]
    · simp [Effect.log, accs, h0.2, h1.2, hop, ha1, ha2]

/-- Non-vacuity of `C32_double_deref_fp_imm`. -/
example : let r : Row := ⟨1, 3, 100, 9, 4, 44, 5, 2, 6, 200, 5, 106, 77, 5, 202, 1, 0⟩
    r.enabler = 1 ∧ (evaluate r).Satisfied ∧ (evaluate r).TablesHold :=
  ⟨rfl, satisfied_of_check (by decide +kernel), tablesHold_of_check (by decide +kernel)⟩

end DoubleDerefFpImm

namespace DoubleDerefFpFp

/-- **C32** (load from and store to `[[fp + b] + [fp + o]]`). -/
theorem C32_double_deref_fp_fp (r : Row) (hs : (evaluate r).Satisfied) (ht : (evaluate r).TablesHold) :
    Sound r.enabler (evaluate r) := by
  simp only [Eval.Satisfied, evaluate] at hs
  air_split hs
  obtain ⟨he, hw, e1, e2⟩ := hs
  rcases bool_of he with h | h
  · exact .inl ⟨h, inert h⟩
  refine .inr ⟨h, _, _, _, _, _, _, performs h, ordered h ht, ?_⟩
  rw [h, one_mul] at e1 e2
  have hd : (3 : M31) * (3 : M31)⁻¹ = 1 := mul_inv_cancel₀ (by decide)
  rcases bool_of hw with w | w
  · have hop : r.opcode_constant = 42 := by linear_combination 3 * w - (r.opcode_constant - 42) * hd
    have ha1 : r.addr2 = r.val0 + r.val1 := by rw [w] at e1; linear_combination e1
    have ha2 : r.addr3 = r.fp + r.off2 := by rw [w] at e2; linear_combination e2
    refine executes_of (.StoreDoubleDerefFpFp r.off0 r.off1 r.off2)
      ⟨[r.fp + r.off0, r.fp + r.off1, r.val0 + r.val1], [(r.fp + r.off2, r.val2)], r.pc + 1, r.fp⟩ rfl rfl fun mem hm => ?_
    simp only [accs, hop, ha1, ha2] at hm; air_split hm
    obtain ⟨hi, h0, h1, h2, h3⟩ := hm
    refine ⟨_, stored_one _ hi.2 (Nat.le_of_ble_eq_true rfl) (by air_enc), ?_, ?_⟩
    · dsimp only [sem]
      rw [felt_of h0, Option.bind_eq_bind, Option.bind_some, felt_of h1, Option.bind_some, felt_of h2, Option.bind_some, done_of (by simpa using h3.1)]
    · simp [Effect.log, accs, h0.2, h1.2, h2.2, hop, ha1, ha2]
  · have hop : r.opcode_constant = 45 := by linear_combination 3 * w - (r.opcode_constant - 42) * hd
    have ha1 : r.addr2 = r.fp + r.off2 := by rw [w] at e1; linear_combination e1
    have ha2 : r.addr3 = r.val0 + r.val1 := by rw [w] at e2; linear_combination e2
    refine executes_of (.StoreToDoubleDerefFpFp r.off0 r.off1 r.off2)
      ⟨[r.fp + r.off0, r.fp + r.off1, r.fp + r.off2], [(r.val0 + r.val1, r.val2)], r.pc + 1, r.fp⟩ rfl rfl fun mem hm => ?_
    simp only [accs, hop, ha1, ha2] at hm; air_split hm
    obtain ⟨hi, h0, h1, h2, h3⟩ := hm
    refine ⟨_, stored_one _ hi.2 (Nat.le_of_ble_eq_true rfl) (by air_enc), ?_, ?_⟩
    · dsimp only [sem]
      rw [felt_of h0, Option.bind_eq_bind, Option.bind_some, felt_of h1, Option.bind_some, felt_of h2, Option.bind_some, done_of (by simpa using h3.1)]
    · simp [Effect.log, accs, h0.2, h1.2, h2.2, hop, ha1, ha2]

/-- Non-vacuity of `C32_double_deref_fp_fp`. -/
example : let r : Row := ⟨1, 3, 100, 9, 4, 45, 5, 2, 6, 200, 5, 2, 5, 106, 77, 5, 202, 1, 0⟩
    r.enabler = 1 ∧ (evaluate r).Satisfied ∧ (evaluate r).TablesHold :=
  ⟨rfl, satisfied_of_check (by decide +kernel), tablesHold_of_check (by decide +kernel)⟩

end DoubleDerefFpFp

end Air
end CairoM
