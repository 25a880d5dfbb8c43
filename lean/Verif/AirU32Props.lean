import Verif.AirRows
import Verif.AirArith

/-!
# Soundness of the 32-bit circuits

For every component: any row that satisfies the constraints and whose table lookups hold is inert when disabled and a
step of the machine of `IsaSpec` when enabled (`Sound`, see `AirSpec`).
-/

set_option linter.unusedSimpArgs false

namespace CairoM
namespace Air

open Isa

/-- Proves that the words at `pc` are the encoding. -/
local macro "air_enc" : tactic => `(tactic|
  first
  | rfl
  | (norm_num [QM31.limbs, Instruction.encode, Instruction.opcodeValue, Instruction.operands, M31.ofU32]; done))

/-- Splits the hypothesis that the constraints hold. -/
local macro "air_split" h:ident : tactic => `(tactic|
  simp only [List.forall_mem_cons, List.not_mem_nil, false_implies, implies_true, and_true] at $h:ident)

theorem inRange_pair {a lo hi : M31} (h0 : InRange a) (h1 : InRange (a + 1)) :
    ∀ w ∈ [(a, lo), (a + 1, hi)], InRange w.1 := by
  simp only [List.forall_mem_cons, List.not_mem_nil, false_implies, implies_true, and_true]
  exact ⟨h0, h1⟩

theorem bin32_of {pc fp : M31} {mem : Mem} {a b d x0 x1 y0 y1 z0 z1 : M31} {f : ℕ → ℕ → ℕ}
    (h0 : InRange (fp + a) ∧ mem (fp + a) = ⟨x0, 0, 0, 0⟩) (h1 : InRange (fp + a + 1) ∧ mem (fp + a + 1) = ⟨x1, 0, 0, 0⟩)
    (h2 : InRange (fp + b) ∧ mem (fp + b) = ⟨y0, 0, 0, 0⟩) (h3 : InRange (fp + b + 1) ∧ mem (fp + b + 1) = ⟨y1, 0, 0, 0⟩)
    (h4 : InRange (fp + d)) (h5 : InRange (fp + d + 1)) (r0 : x0.val < 2 ^ 16) (r1 : x1.val < 2 ^ 16)
    (r2 : y0.val < 2 ^ 16) (r3 : y1.val < 2 ^ 16) (r4 : z0.val < 2 ^ 16)
    (hf : f (x0.val + 2 ^ 16 * x1.val) (y0.val + 2 ^ 16 * y1.val) = z0.val + 2 ^ 16 * z1.val) :
    bin32 pc fp mem a b d f =
      some ⟨[fp + a, fp + a + 1, fp + b, fp + b + 1], [(fp + d, z0), (fp + d + 1, z1)], pc + 1, fp⟩ := by
  unfold bin32
  rw [u32_of h0 h1 r0 r1, u32_of h2 h3 r2 r3, Option.bind_eq_bind, Option.bind_some, Option.bind_some,
    split_of r4 hf, done_of (inRange_pair h4 h5)]

theorem bin32Imm_of {pc fp : M31} {mem : Mem} {a d x0 x1 y0 y1 z0 z1 : M31} {f : ℕ → ℕ → ℕ}
    (h0 : InRange (fp + a) ∧ mem (fp + a) = ⟨x0, 0, 0, 0⟩) (h1 : InRange (fp + a + 1) ∧ mem (fp + a + 1) = ⟨x1, 0, 0, 0⟩)
    (h4 : InRange (fp + d)) (h5 : InRange (fp + d + 1)) (r0 : x0.val < 2 ^ 16) (r1 : x1.val < 2 ^ 16)
    (r2 : y0.val < 2 ^ 16) (r3 : y1.val < 2 ^ 16) (r4 : z0.val < 2 ^ 16)
    (hf : f (x0.val + 2 ^ 16 * x1.val) (y0.val + 2 ^ 16 * y1.val) = z0.val + 2 ^ 16 * z1.val) :
    bin32Imm pc fp mem a y0 y1 d f =
      some ⟨[fp + a, fp + a + 1], [(fp + d, z0), (fp + d + 1, z1)], pc + 2, fp⟩ := by
  unfold bin32Imm
  rw [u32_of h0 h1 r0 r1, ofLimbs_of r2 r3, Option.bind_eq_bind, Option.bind_some, Option.bind_some,
    split_of r4 hf, done_of (inRange_pair h4 h5)]

theorem byte_pair_lt {x y : M31} (hx : x.val < 2 ^ 8) (hy : y.val < 2 ^ 8) : (x + y * 256).val < 2 ^ 16 := by
  rw [byte_pair hx hy]; omega

theorem opcode_cases {c k : M31} (h : (c - k).val < 3) : c = k ∨ c = k + 1 ∨ c = k + 2 := by
  have h3 : (c - k).val = 0 ∨ (c - k).val = 1 ∨ (c - k).val = 2 := by omega
  have hc : c = ((c - k).val : M31) + k := by rw [ZMod.natCast_zmod_val]; ring
  rcases h3 with h3 | h3 | h3 <;> rw [h3] at hc
  · left; rw [hc]; push_cast; ring
  · right; left; rw [hc]; push_cast; ring
  · right; right; rw [hc]; push_cast; ring

theorem next_two (pc : M31) : pc + 1 + 1 = pc + 2 := by ring

theorem divMod_of {n q d r : ℕ} (h : n = q * d + r) (hr : r < d) : n / d = q ∧ n % d = r := by
  have hd : 0 < d := by omega
  constructor
  · rw [h, Nat.add_comm, Nat.add_mul_div_right _ _ hd, Nat.div_eq_of_lt hr, Nat.zero_add]
  · rw [h, Nat.add_comm, Nat.add_mul_mod_self_right, Nat.mod_eq_of_lt hr]

/-- To refute soundness of an enabled row: a consumed record that is not older than the row. -/
theorem not_sound_of_unordered {enabler : M31} {ev : Eval} {pc fp c pc' fp' : M31} {accs : List Access}
    (h : Performs ev pc fp c pc' fp' accs) (he : enabler = 1) (hn : ¬ Ordered c accs) : ¬ Sound enabler ev := by
  rintro (⟨h0, -⟩ | ⟨-, qc, gp, d, qc', gp', bccs, hp, ho, -⟩)
  · rw [he] at h0; exact absurd h0 (by decide)
  · obtain ⟨rfl, rfl, rfl, rfl, rfl, rfl⟩ := h.unique hp
    exact hn ho

/-! ## Addition and subtraction -/

namespace U32StoreAddFpFp

/-- **C33** (memory operands): the row adds modulo `2^32`. -/
theorem C33_add_fp_fp (r : Row) (hs : (evaluate r).Satisfied) (ht : (evaluate r).TablesHold) :
    Sound r.enabler (evaluate r) := by
  simp only [Eval.Satisfied, evaluate] at hs
  air_split hs
  obtain ⟨he, hk, hl⟩ := hs
  rcases bool_of he with h | h
  · exact .inl ⟨h, inert h⟩
  refine .inr ⟨h, _, _, _, _, _, _, performs h, ordered h ht, ?_⟩
  obtain ⟨r0, r1, r2, r3, r4, r5⟩ := ranges h ht
  refine executes_of (.U32StoreAddFpFp r.src0_off r.src1_off r.dst_off)
    ⟨[r.fp + r.src0_off, r.fp + r.src0_off + 1, r.fp + r.src1_off, r.fp + r.src1_off + 1],
      [(r.fp + r.dst_off, r.op0_val_lo + r.op1_val_lo - r.u16_carry * 65536), (r.fp + r.dst_off + 1, r.op0_val_hi + r.op1_val_hi + r.u16_carry - r.u32_carry * 65536)], r.pc + 1, r.fp⟩
    rfl rfl fun mem hm => ?_
  simp only [accs] at hm; air_split hm
  obtain ⟨hi, h0, h1, h2, h3, h4, h5⟩ := hm
  refine ⟨_, stored_one _ hi.2 (Nat.le_of_ble_eq_true rfl) (by air_enc), ?_, ?_⟩
  · dsimp only [sem]
    exact bin32_of h0 h1 h2 h3 h4.1 h5.1 r0 r1 r2 r3 r4
      (add_core r0 r1 r2 r3 (bool_of hk) (bool_of hl) r4 r5 rfl rfl)
  · simp [Effect.log, accs, h0.2, h1.2, h2.2, h3.2]

/-- Non-vacuity of `C33_add_fp_fp`: `0x1ffff + 0xffff0002` wraps, with both carries set. -/
example : let r : Row := ⟨1, 3, 100, 9, 4, 0, 2, 4, 65535, 1, 5, 5, 2, 65535, 5, 5, 77, 77, 5, 5, 1, 1⟩
    (evaluate r).Satisfied ∧ (evaluate r).TablesHold :=
  ⟨satisfied_of_check (by decide +kernel), tablesHold_of_check (by decide +kernel)⟩

end U32StoreAddFpFp

namespace U32StoreSubFpFp

/-- **C33** (subtraction): the row subtracts modulo `2^32`. -/
theorem C33_sub_fp_fp (r : Row) (hs : (evaluate r).Satisfied) (ht : (evaluate r).TablesHold) :
    Sound r.enabler (evaluate r) := by
  simp only [Eval.Satisfied, evaluate] at hs
  air_split hs
  obtain ⟨he, hk, hl⟩ := hs
  rcases bool_of he with h | h
  · exact .inl ⟨h, inert h⟩
  refine .inr ⟨h, _, _, _, _, _, _, performs h, ordered h ht, ?_⟩
  obtain ⟨r0, r1, r2, r3, r4, r5⟩ := ranges h ht
  refine executes_of (.U32StoreSubFpFp r.src0_off r.src1_off r.dst_off)
    ⟨[r.fp + r.src0_off, r.fp + r.src0_off + 1, r.fp + r.src1_off, r.fp + r.src1_off + 1],
      [(r.fp + r.dst_off, r.op0_val_lo + r.borrow_lo * 65536 - r.op1_val_lo), (r.fp + r.dst_off + 1, r.op0_val_hi - r.borrow_lo + r.borrow_hi * 65536 - r.op1_val_hi)], r.pc + 1, r.fp⟩
    rfl rfl fun mem hm => ?_
  simp only [accs] at hm; air_split hm
  obtain ⟨hi, h0, h1, h2, h3, h4, h5⟩ := hm
  refine ⟨_, stored_one _ hi.2 (Nat.le_of_ble_eq_true rfl) (by air_enc), ?_, ?_⟩
  · dsimp only [sem]
    exact bin32_of h0 h1 h2 h3 h4.1 h5.1 r0 r1 r2 r3 r4
      (sub_core r0 r1 r2 r3 (bool_of hk) (bool_of hl) r4 r5 rfl rfl)
  · simp [Effect.log, accs, h0.2, h1.2, h2.2, h3.2]

/-- Non-vacuity of `C33_sub_fp_fp`: `5 - 7` wraps, with both borrows set. -/
example : let r : Row := ⟨1, 3, 100, 9, 4, 0, 2, 4, 5, 0, 5, 5, 7, 0, 5, 5, 77, 77, 5, 5, 1, 1⟩
    (evaluate r).Satisfied ∧ (evaluate r).TablesHold :=
  ⟨satisfied_of_check (by decide +kernel), tablesHold_of_check (by decide +kernel)⟩

end U32StoreSubFpFp

namespace U32StoreAddFpImm

/-- **C33** (immediate operand): the row adds modulo `2^32`. -/
theorem C33_add_fp_imm (r : Row) (hs : (evaluate r).Satisfied) (ht : (evaluate r).TablesHold) :
    Sound r.enabler (evaluate r) := by
  simp only [Eval.Satisfied, evaluate] at hs
  air_split hs
  obtain ⟨he, hk, hl⟩ := hs
  rcases bool_of he with h | h
  · exact .inl ⟨h, inert h⟩
  refine .inr ⟨h, _, _, _, _, _, _, performs h, ordered h ht, ?_⟩
  obtain ⟨r0, r1, r2, r3, r4, r5⟩ := ranges h ht
  refine executes_of (.U32StoreAddFpImm r.src_off r.imm_lo r.imm_hi r.dst_off)
    ⟨[r.fp + r.src_off, r.fp + r.src_off + 1],
      [(r.fp + r.dst_off, r.op0_val_lo + r.imm_lo - r.u16_carry * 65536), (r.fp + r.dst_off + 1, r.op0_val_hi + r.imm_hi + r.u16_carry - r.u32_carry * 65536)], r.pc + 2, r.fp⟩
    (next_two r.pc) rfl fun mem hm => ?_
  simp only [accs] at hm; air_split hm
  obtain ⟨hi, hi', h0, h1, h2, h3⟩ := hm
  refine ⟨_, stored_two _ hi.2 hi'.2 (Nat.le_of_ble_eq_true rfl) (by air_enc), ?_, ?_⟩
  · dsimp only [sem]
    exact bin32Imm_of h0 h1 h2.1 h3.1 r0 r1 r2 r3 r4
      (add_core r0 r1 r2 r3 (bool_of hk) (bool_of hl) r4 r5 rfl rfl)
  · simp [Effect.log, accs, h0.2, h1.2]

/-- Non-vacuity of `C33_add_fp_imm`: `0x1ffff + 0xffff0002` wraps, with both carries set. -/
example : let r : Row := ⟨1, 3, 100, 9, 4, 0, 2, 65535, 4, 65535, 1, 5, 5, 77, 77, 5, 5, 1, 1⟩
    (evaluate r).Satisfied ∧ (evaluate r).TablesHold :=
  ⟨satisfied_of_check (by decide +kernel), tablesHold_of_check (by decide +kernel)⟩

end U32StoreAddFpImm

namespace U32StoreImm

/-- **C32** (32-bit immediate): the row stores the two limbs of the immediate. -/
theorem C32_u32_store_imm (r : Row) (hs : (evaluate r).Satisfied) (ht : (evaluate r).TablesHold) :
    Sound r.enabler (evaluate r) := by
  simp only [Eval.Satisfied, evaluate] at hs
  air_split hs
  have he := hs
  rcases bool_of he with h | h
  · exact .inl ⟨h, inert h⟩
  refine .inr ⟨h, _, _, _, _, _, _, performs h, ordered h ht, ?_⟩
  obtain ⟨r0, r1⟩ := ranges h ht
  refine executes_of (.U32StoreImm r.imm_lo r.imm_hi r.dst_off)
    ⟨[],
      [(r.fp + r.dst_off, r.imm_lo), (r.fp + r.dst_off + 1, r.imm_hi)], r.pc + 1, r.fp⟩
    rfl rfl fun mem hm => ?_
  simp only [accs] at hm; air_split hm
  obtain ⟨hi, h0, h1⟩ := hm
  refine ⟨_, stored_one _ hi.2 (Nat.le_of_ble_eq_true rfl) (by air_enc), ?_, ?_⟩
  · dsimp only [sem]
    rw [ofLimbs_of r0 r1, Option.bind_eq_bind, Option.bind_some, split_of r0 rfl, done_of (inRange_pair h0.1 h1.1)]
  · simp [Effect.log, accs]

/-- Non-vacuity of `C32_u32_store_imm`: the immediate `0xfffe0007`. -/
example : let r : Row := ⟨1, 3, 100, 9, 4, 7, 65534, 4, 77, 77, 5, 5⟩
    (evaluate r).Satisfied ∧ (evaluate r).TablesHold :=
  ⟨satisfied_of_check (by decide +kernel), tablesHold_of_check (by decide +kernel)⟩

end U32StoreImm

/-! ## Multiplication -/

namespace U32StoreMulFpFp

/-- **C34** (memory operands), partial: the row multiplies modulo `2^32`, provided the records it consumes for the second
operand are older than the row. Missing: the circuit does not check that (`C34_violated_clock`). -/
theorem C34_mul_fp_fp_partial (r : Row) (hs : (evaluate r).Satisfied) (ht : (evaluate r).TablesHold)
    (hc : (r.clock - r.op1_prev_clock_lo - 1).val < 2 ^ 20 ∧ (r.clock - r.op1_prev_clock_hi - 1).val < 2 ^ 20) :
    Sound r.enabler (evaluate r) := by
  simp only [Eval.Satisfied, evaluate] at hs
  air_split hs
  obtain ⟨he, e0, e1, e2, e3⟩ := hs
  rcases bool_of he with h | h
  · exact .inl ⟨h, inert h⟩
  have ho : Ordered r.clock (accs r) := by
    obtain ⟨o0, o1, o2, o3, o4⟩ := ordered_partly h ht
    simp only [Ordered, accs, List.forall_mem_cons, List.not_mem_nil, false_implies, implies_true, and_true]
    exact ⟨o0, o1, o2, hc.1, hc.2, o3, o4⟩
  refine .inr ⟨h, _, _, _, _, _, _, performs h, ho, ?_⟩
  obtain ⟨x0, x1, x2, x3, y0, y1, y2, y3, z0, z1, z2, z3, c0, c1, c2, c3⟩ := ranges h ht
  rw [h, one_mul] at e0 e1 e2 e3
  refine executes_of (.U32StoreMulFpFp r.src0_off r.src1_off r.dst_off)
    ⟨[r.fp + r.src0_off, r.fp + r.src0_off + 1, r.fp + r.src1_off, r.fp + r.src1_off + 1],
      [(r.fp + r.dst_off, r.res_0 + r.res_1 * 256), (r.fp + r.dst_off + 1, r.res_2 + r.res_3 * 256)], r.pc + 1, r.fp⟩
    rfl rfl fun mem hm => ?_
  simp only [accs] at hm; air_split hm
  obtain ⟨hi, h0, h1, h2, h3, h4, h5⟩ := hm
  refine ⟨_, stored_one _ hi.2 (Nat.le_of_ble_eq_true rfl) (by air_enc), ?_, ?_⟩
  · dsimp only [sem]
    exact bin32_of h0 h1 h2 h3 h4.1 h5.1 (byte_pair_lt x0 x1) (byte_pair_lt x2 x3) (byte_pair_lt y0 y1) (byte_pair_lt y2 y3)
      (byte_pair_lt z0 z1)
      (mul_core x0 x1 x2 x3 y0 y1 y2 y3 z0 z1 z2 z3 c0 c1 c2 c3 e0 e1 e2 e3)
  · simp [Effect.log, accs, h0.2, h1.2, h2.2, h3.2]

/-- **C34** fails for memory operands: the second operand of an accepted row can come from the future (the consumed
record carries a clock later than the row's). -/
theorem C34_violated_clock : ∃ r : Row, r.enabler = 1 ∧ (evaluate r).Satisfied ∧ (evaluate r).TablesHold ∧
    ¬ Sound r.enabler (evaluate r) := by
  let r : Row := ⟨1, 3, 100, 9, 4, 0, 2, 4, 239, 190, 173, 222, 5, 5, 13, 240, 254, 202, 14, 14, 77, 77, 5, 5, 35, 194, 244, 56, 12, 233, 424, 552⟩
  refine ⟨r, rfl, satisfied_of_check (by decide +kernel), tablesHold_of_check (by decide +kernel), ?_⟩
  refine not_sound_of_unordered (performs rfl) rfl fun ho => ?_
  have := ho ⟨r.fp + r.src1_off, r.op1_prev_clock_lo, ⟨r.op1_0 + r.op1_1 * 256, 0, 0, 0⟩,
    ⟨r.op1_0 + r.op1_1 * 256, 0, 0, 0⟩⟩ (by simp [accs])
  exact absurd this (by decide +kernel)

/-- Non-vacuity of `C34_mul_fp_fp_partial`: `0xdeadbeef * 0xcafef00d`. -/
example : let r : Row := ⟨1, 3, 100, 9, 4, 0, 2, 4, 239, 190, 173, 222, 5, 5, 13, 240, 254, 202, 5, 5, 77, 77, 5, 5, 35, 194, 244, 56, 12, 233, 424, 552⟩
    (evaluate r).Satisfied ∧ (evaluate r).TablesHold ∧
      (r.clock - r.op1_prev_clock_lo - 1).val < 2 ^ 20 ∧ (r.clock - r.op1_prev_clock_hi - 1).val < 2 ^ 20 :=
  ⟨satisfied_of_check (by decide +kernel), tablesHold_of_check (by decide +kernel), by decide +kernel⟩

end U32StoreMulFpFp

namespace U32StoreMulFpImm

/-- **C34** (immediate operand): the row multiplies modulo `2^32`. -/
theorem C34_mul_fp_imm (r : Row) (hs : (evaluate r).Satisfied) (ht : (evaluate r).TablesHold) :
    Sound r.enabler (evaluate r) := by
  simp only [Eval.Satisfied, evaluate] at hs
  air_split hs
  obtain ⟨he, e0, e1, e2, e3⟩ := hs
  rcases bool_of he with h | h
  · exact .inl ⟨h, inert h⟩
  refine .inr ⟨h, _, _, _, _, _, _, performs h, ordered h ht, ?_⟩
  obtain ⟨x0, x1, x2, x3, y0, y1, y2, y3, z0, z1, z2, z3, c0, c1, c2, c3⟩ := ranges h ht
  rw [h, one_mul] at e0 e1 e2 e3
  refine executes_of (.U32StoreMulFpImm r.src_off (r.imm_0 + r.imm_1 * 256) (r.imm_2 + r.imm_3 * 256) r.dst_off)
    ⟨[r.fp + r.src_off, r.fp + r.src_off + 1],
      [(r.fp + r.dst_off, r.res_0 + r.res_1 * 256), (r.fp + r.dst_off + 1, r.res_2 + r.res_3 * 256)], r.pc + 2, r.fp⟩
    (next_two r.pc) rfl fun mem hm => ?_
  simp only [accs] at hm; air_split hm
  obtain ⟨hi, hi', h0, h1, h2, h3⟩ := hm
  refine ⟨_, stored_two _ hi.2 hi'.2 (Nat.le_of_ble_eq_true rfl) (by air_enc), ?_, ?_⟩
  · dsimp only [sem]
    exact bin32Imm_of h0 h1 h2.1 h3.1 (byte_pair_lt x0 x1) (byte_pair_lt x2 x3) (byte_pair_lt y0 y1) (byte_pair_lt y2 y3)
      (byte_pair_lt z0 z1)
      (mul_core x0 x1 x2 x3 y0 y1 y2 y3 z0 z1 z2 z3 c0 c1 c2 c3 e0 e1 e2 e3)
  · simp [Effect.log, accs, h0.2, h1.2]

/-- Non-vacuity of `C34_mul_fp_imm`: `0xdeadbeef * 0xcafef00d`. -/
example : let r : Row := ⟨1, 3, 100, 9, 4, 0, 13, 240, 254, 202, 4, 239, 190, 173, 222, 5, 5, 77, 77, 5, 5, 35, 194, 244, 56, 12, 233, 424, 552⟩
    (evaluate r).Satisfied ∧ (evaluate r).TablesHold :=
  ⟨satisfied_of_check (by decide +kernel), tablesHold_of_check (by decide +kernel)⟩

end U32StoreMulFpImm

/-! ## Division -/

namespace U32StoreDivFpFp

/-- **C35** (memory operands), partial: the row stores quotient and remainder and the divisor is not zero, provided the
records it consumes for the divisor are older than the row. Missing: the circuit does not check that
(`C35_violated_clock`). -/
theorem C35_divrem_fp_fp_partial (r : Row) (hs : (evaluate r).Satisfied) (ht : (evaluate r).TablesHold)
    (hc : (r.clock - r.op1_prev_clock_lo - 1).val < 2 ^ 20 ∧ (r.clock - r.op1_prev_clock_hi - 1).val < 2 ^ 20) :
    Sound r.enabler (evaluate r) := by
  simp only [Eval.Satisfied, evaluate] at hs
  air_split hs
  obtain ⟨he, ea0, ea1, ea2, eb0, e0, e1, e2, e3, e4, e5, e6, e7, f0, f1, f2, f3, f4, f5⟩ := hs
  rcases bool_of he with h | h
  · exact .inl ⟨h, inert h⟩
  have ho : Ordered r.clock (accs r) := by
    obtain ⟨o0, o1, o2, o3, o4, o5, o6, o7⟩ := ordered_partly h ht
    simp only [Ordered, accs, List.forall_mem_cons, List.not_mem_nil, false_implies, implies_true, and_true]
    exact ⟨o0, o1, o2, o3, hc.1, hc.2, o4, o5, o6, o7⟩
  refine .inr ⟨h, _, _, _, _, _, _, performs h, ho, ?_⟩
  obtain ⟨d0, d1, d2, d3, q0, q1, q2, q3, p0, p1, p2, p3, p4, p5, p6, p7, n0, n1, s0, s1, c0, c1, c2, c3, c4, c5, -,
    b0, b1⟩ := ranges h ht
  rw [h, one_mul] at ea0 ea1 ea2 eb0 e0 e1 e2 e3 e4 e5 e6 e7 f0 f1 f2 f3 f4 f5
  obtain ⟨hn, hr⟩ := div_core d0 d1 d2 d3 q0 q1 q2 q3 p0 p1 p2 p3 p4 p5 p6 p7 n0 n1 s0 s1 c0 c1 c2 c3 c4 c5 b0 b1
    ea0 ea1 ea2 eb0 e0 e1 e2 e3 e4 e5 e6 e7 f0 f1 f2 f3 f4 f5
  obtain ⟨hq, hm'⟩ := divMod_of hn hr
  refine executes_of (.U32StoreDivRemFpFp r.src0_off r.src1_off r.dst_off r.dst_rem_off)
    ⟨[r.fp + r.src0_off, r.fp + r.src0_off + 1, r.fp + r.src1_off, r.fp + r.src1_off + 1],
      [(r.fp + r.dst_off, r.q_0 + r.q_1 * 256), (r.fp + r.dst_off + 1, r.q_2 + r.q_3 * 256),
      (r.fp + r.dst_rem_off, r.r_lo), (r.fp + r.dst_rem_off + 1, r.r_hi)], r.pc + 2, r.fp⟩
    (next_two r.pc) rfl fun mem hm => ?_
  simp only [accs] at hm; air_split hm
  obtain ⟨hi, hi', h0, h1, h2, h3, h4, h5, h6, h7⟩ := hm
  refine ⟨_, stored_two _ hi.2 hi'.2 (Nat.le_of_ble_eq_true rfl) (by air_enc), ?_, ?_⟩
  · dsimp only [sem]
    rw [u32_of h0 h1 n0 n1, u32_of h2 h3 (byte_pair_lt d0 d1) (byte_pair_lt d2 d3)]
    rw [Option.bind_eq_bind, Option.bind_some, Option.bind_some, if_neg (by omega), split_of (byte_pair_lt q0 q1) hq,
      split_of s0 hm', done_of (by
        simp only [List.cons_append, List.nil_append]
        simp only [List.forall_mem_cons, List.not_mem_nil, false_implies, implies_true, and_true]
        exact ⟨h4.1, h5.1, h6.1, h7.1⟩)]
    rfl
  · simp [Effect.log, accs, h0.2, h1.2, h2.2, h3.2]

/-- **C35** fails for memory operands: the divisor of an accepted row can come from the future (the consumed record
carries a clock later than the row's). -/
theorem C35_violated_clock : ∃ r : Row, r.enabler = 1 ∧ (evaluate r).Satisfied ∧ (evaluate r).TablesHold ∧
    ¬ Sound r.enabler (evaluate r) := by
  let r : Row := ⟨1, 3, 100, 9, 4, 0, 2, 4, 6, 47768, 65244, 5, 5, 69, 35, 1, 0, 14, 14, 77, 77, 5, 5, 77, 77, 5, 5, 0, 224, 0, 0, 0, 60, 30, 0, 0, 0, 0, 0, 96, 220, 254, 0, 0, 0, 0, 0, 0, 0, 0, 1, 0, 23192, 0⟩
  refine ⟨r, rfl, satisfied_of_check (by decide +kernel), tablesHold_of_check (by decide +kernel), ?_⟩
  refine not_sound_of_unordered (performs rfl) rfl fun ho => ?_
  have := ho ⟨r.fp + r.src1_off, r.op1_prev_clock_lo, ⟨r.d_0 + r.d_1 * 256, 0, 0, 0⟩,
    ⟨r.d_0 + r.d_1 * 256, 0, 0, 0⟩⟩ (by simp [accs])
  exact absurd this (by decide +kernel)

/-- Non-vacuity of `C35_divrem_fp_fp_partial`: `0xfedcba98` by `0x12345`. -/
example : let r : Row := ⟨1, 3, 100, 9, 4, 0, 2, 4, 6, 47768, 65244, 5, 5, 69, 35, 1, 0, 5, 5, 77, 77, 5, 5, 77, 77, 5, 5, 0, 224, 0, 0, 0, 60, 30, 0, 0, 0, 0, 0, 96, 220, 254, 0, 0, 0, 0, 0, 0, 0, 0, 1, 0, 23192, 0⟩
    (evaluate r).Satisfied ∧ (evaluate r).TablesHold ∧
      (r.clock - r.op1_prev_clock_lo - 1).val < 2 ^ 20 ∧ (r.clock - r.op1_prev_clock_hi - 1).val < 2 ^ 20 :=
  ⟨satisfied_of_check (by decide +kernel), tablesHold_of_check (by decide +kernel), by decide +kernel⟩

end U32StoreDivFpFp

namespace U32StoreDivFpImm

/-- **C35** (immediate divisor): the row stores quotient and remainder and the divisor is not zero. -/
theorem C35_divrem_fp_imm (r : Row) (hs : (evaluate r).Satisfied) (ht : (evaluate r).TablesHold) :
    Sound r.enabler (evaluate r) := by
  simp only [Eval.Satisfied, evaluate] at hs
  air_split hs
  obtain ⟨he, ea0, ea1, ea2, eb0, e0, e1, e2, e3, e4, e5, e6, e7, f0, f1, f2, f3, f4, f5⟩ := hs
  rcases bool_of he with h | h
  · exact .inl ⟨h, inert h⟩
  refine .inr ⟨h, _, _, _, _, _, _, performs h, ordered h ht, ?_⟩
  obtain ⟨d0, d1, d2, d3, q0, q1, q2, q3, p0, p1, p2, p3, p4, p5, p6, p7, n0, n1, s0, s1, c0, c1, c2, c3, c4, c5, -,
    b0, b1⟩ := ranges h ht
  rw [h, one_mul] at ea0 ea1 ea2 eb0 e0 e1 e2 e3 e4 e5 e6 e7 f0 f1 f2 f3 f4 f5
  obtain ⟨hn, hr⟩ := div_core d0 d1 d2 d3 q0 q1 q2 q3 p0 p1 p2 p3 p4 p5 p6 p7 n0 n1 s0 s1 c0 c1 c2 c3 c4 c5 b0 b1
    ea0 ea1 ea2 eb0 e0 e1 e2 e3 e4 e5 e6 e7 f0 f1 f2 f3 f4 f5
  obtain ⟨hq, hm'⟩ := divMod_of hn hr
  refine executes_of (.U32StoreDivRemFpImm r.src_off (r.d_0 + r.d_1 * 256) (r.d_2 + r.d_3 * 256) r.dst_off r.dst_rem_off)
    ⟨[r.fp + r.src_off, r.fp + r.src_off + 1],
      [(r.fp + r.dst_off, r.q_0 + r.q_1 * 256), (r.fp + r.dst_off + 1, r.q_2 + r.q_3 * 256),
      (r.fp + r.dst_rem_off, r.r_lo), (r.fp + r.dst_rem_off + 1, r.r_hi)], r.pc + 2, r.fp⟩
    (next_two r.pc) rfl fun mem hm => ?_
  simp only [accs] at hm; air_split hm
  obtain ⟨hi, hi', h0, h1, h2, h3, h4, h5⟩ := hm
  refine ⟨_, stored_two _ hi.2 hi'.2 (Nat.le_of_ble_eq_true rfl) (by air_enc), ?_, ?_⟩
  · dsimp only [sem]
    rw [u32_of h0 h1 n0 n1, ofLimbs_of (byte_pair_lt d0 d1) (byte_pair_lt d2 d3)]
    rw [Option.bind_eq_bind, Option.bind_some, Option.bind_some, if_neg (by omega), split_of (byte_pair_lt q0 q1) hq,
      split_of s0 hm', done_of (by
        simp only [List.cons_append, List.nil_append]
        simp only [List.forall_mem_cons, List.not_mem_nil, false_implies, implies_true, and_true]
        exact ⟨h2.1, h3.1, h4.1, h5.1⟩)]
    rfl
  · simp [Effect.log, accs, h0.2, h1.2]

/-- Non-vacuity of `C35_divrem_fp_imm`: `0xfedcba98` by `0x12345`. -/
example : let r : Row := ⟨1, 3, 100, 9, 4, 0, 69, 35, 1, 0, 4, 6, 47768, 65244, 5, 5, 77, 77, 5, 5, 77, 77, 5, 5, 0, 224, 0, 0, 0, 60, 30, 0, 0, 0, 0, 0, 96, 220, 254, 0, 0, 0, 0, 0, 0, 0, 0, 1, 0, 23192, 0⟩
    (evaluate r).Satisfied ∧ (evaluate r).TablesHold :=
  ⟨satisfied_of_check (by decide +kernel), tablesHold_of_check (by decide +kernel)⟩

end U32StoreDivFpImm

/-! ## Comparison -/

namespace U32StoreEqFpFp

/-- **C36** (equality of memory operands): the row stores whether the two numbers are equal. -/
theorem C36_eq_fp_fp (r : Row) (hs : (evaluate r).Satisfied) (ht : (evaluate r).TablesHold) :
    Sound r.enabler (evaluate r) := by
  simp only [Eval.Satisfied, evaluate] at hs
  air_split hs
  obtain ⟨he, e1, e2, e3, e4⟩ := hs
  rcases bool_of he with h | h
  · exact .inl ⟨h, inert h⟩
  refine .inr ⟨h, _, _, _, _, _, _, performs h, ordered h ht, ?_⟩
  obtain ⟨r0, r1, r2, r3⟩ := ranges h ht
  refine executes_of (.U32StoreEqFpFp r.src0_off r.src1_off r.dst_off)
    ⟨[r.fp + r.src0_off, r.fp + r.src0_off + 1, r.fp + r.src1_off, r.fp + r.src1_off + 1],
      [(r.fp + r.dst_off, r.is_eq_prod)], r.pc + 1, r.fp⟩
    rfl rfl fun mem hm => ?_
  simp only [accs] at hm; air_split hm
  obtain ⟨hi, h0, h1, h2, h3, h4⟩ := hm
  refine ⟨_, stored_one _ hi.2 (Nat.le_of_ble_eq_true rfl) (by air_enc), ?_, ?_⟩
  · dsimp only [sem]
    rw [u32_of h0 h1 r0 r1, u32_of h2 h3 r2 r3, Option.bind_eq_bind, Option.bind_some, Option.bind_some,
      eq_core r0 r1 r2 r3 e1 e2 e3 e4, done_of (by simpa using h4.1)]
  · simp [Effect.log, accs, h0.2, h1.2, h2.2, h3.2]

/-- Non-vacuity of `C36_eq_fp_fp`: `0x20001 = 0x10001` is false. -/
example : let r : Row := ⟨1, 3, 100, 9, 4, 0, 2, 4, 1, 2, 5, 5, 1, 1, 5, 5, 77, 5, 0, 2147483646, 1, 0⟩
    (evaluate r).Satisfied ∧ (evaluate r).TablesHold :=
  ⟨satisfied_of_check (by decide +kernel), tablesHold_of_check (by decide +kernel)⟩

end U32StoreEqFpFp

namespace U32StoreLtFpFp

/-- **C36** (order of memory operands): the row stores whether the first number is less than the second. -/
theorem C36_lt_fp_fp (r : Row) (hs : (evaluate r).Satisfied) (ht : (evaluate r).TablesHold) :
    Sound r.enabler (evaluate r) := by
  simp only [Eval.Satisfied, evaluate] at hs
  air_split hs
  obtain ⟨he, hk, hl⟩ := hs
  rcases bool_of he with h | h
  · exact .inl ⟨h, inert h⟩
  refine .inr ⟨h, _, _, _, _, _, _, performs h, ordered h ht, ?_⟩
  obtain ⟨r0, r1, r2, r3, r4, r5⟩ := ranges h ht
  refine executes_of (.U32StoreLtFpFp r.src0_off r.src1_off r.dst_off)
    ⟨[r.fp + r.src0_off, r.fp + r.src0_off + 1, r.fp + r.src1_off, r.fp + r.src1_off + 1],
      [(r.fp + r.dst_off, 1 - r.borrow_hi)], r.pc + 1, r.fp⟩
    rfl rfl fun mem hm => ?_
  simp only [accs] at hm; air_split hm
  obtain ⟨hi, h0, h1, h2, h3, h4⟩ := hm
  refine ⟨_, stored_one _ hi.2 (Nat.le_of_ble_eq_true rfl) (by air_enc), ?_, ?_⟩
  · dsimp only [sem]
    rw [u32_of h0 h1 r0 r1, u32_of h2 h3 r2 r3, Option.bind_eq_bind, Option.bind_some, Option.bind_some,
      lt_core r0 r1 r2 r3 (bool_of hk) (bool_of hl) r4 r5 rfl rfl, done_of (by simpa using h4.1)]
  · simp [Effect.log, accs, h0.2, h1.2, h2.2, h3.2]

/-- Non-vacuity of `C36_lt_fp_fp`: `0x10005 < 0x20003` is true. -/
example : let r : Row := ⟨1, 3, 100, 9, 4, 0, 2, 4, 5, 1, 5, 5, 3, 2, 5, 5, 77, 5, 1, 0⟩
    (evaluate r).Satisfied ∧ (evaluate r).TablesHold :=
  ⟨satisfied_of_check (by decide +kernel), tablesHold_of_check (by decide +kernel)⟩

end U32StoreLtFpFp

namespace U32StoreLtFpImm

/-- **C36** (order against an immediate): the row stores whether the number is less than the immediate. -/
theorem C36_lt_fp_imm (r : Row) (hs : (evaluate r).Satisfied) (ht : (evaluate r).TablesHold) :
    Sound r.enabler (evaluate r) := by
  simp only [Eval.Satisfied, evaluate] at hs
  air_split hs
  obtain ⟨he, hk, hl⟩ := hs
  rcases bool_of he with h | h
  · exact .inl ⟨h, inert h⟩
  refine .inr ⟨h, _, _, _, _, _, _, performs h, ordered h ht, ?_⟩
  obtain ⟨r0, r1, r2, r3, r4, r5⟩ := ranges h ht
  refine executes_of (.U32StoreLtFpImm r.src_off r.imm_lo r.imm_hi r.dst_off)
    ⟨[r.fp + r.src_off, r.fp + r.src_off + 1],
      [(r.fp + r.dst_off, 1 - r.borrow_hi)], r.pc + 2, r.fp⟩
    (next_two r.pc) rfl fun mem hm => ?_
  simp only [accs] at hm; air_split hm
  obtain ⟨hi, hi', h0, h1, h2⟩ := hm
  refine ⟨_, stored_two _ hi.2 hi'.2 (Nat.le_of_ble_eq_true rfl) (by air_enc), ?_, ?_⟩
  · dsimp only [sem]
    rw [u32_of h0 h1 r0 r1, ofLimbs_of r2 r3, Option.bind_eq_bind, Option.bind_some, Option.bind_some,
      lt_core r0 r1 r2 r3 (bool_of hk) (bool_of hl) r4 r5 rfl rfl, done_of (by simpa using h2.1)]
  · simp [Effect.log, accs, h0.2, h1.2]

/-- Non-vacuity of `C36_lt_fp_imm`: `0x20003 < 0x10005` is false. -/
example : let r : Row := ⟨1, 3, 100, 9, 4, 0, 5, 1, 4, 3, 2, 5, 5, 77, 5, 0, 1⟩
    (evaluate r).Satisfied ∧ (evaluate r).TablesHold :=
  ⟨satisfied_of_check (by decide +kernel), tablesHold_of_check (by decide +kernel)⟩

end U32StoreLtFpImm

namespace U32StoreEqFpImm

/-- **C36** fails for equality with an immediate, first way: the circuit reads the second word of the instruction at `pc`
instead of `pc + 1`, so the accepted row below writes to the cell its own opcode happens to name, whatever the word at
`pc + 1` says. -/
theorem C36_violated_word : ∃ r : Row, r.enabler = 1 ∧ (evaluate r).Satisfied ∧ (evaluate r).TablesHold ∧
    ¬ Sound r.enabler (evaluate r) := by
  let r : Row := ⟨1, 3, 100, 9, 4, 0, 0, 0, 30, 0, 0, 5, 5, 77, 5, 0⟩
  refine ⟨r, rfl, satisfied_of_check (by decide +kernel), tablesHold_of_check (by decide +kernel), ?_⟩
  refine not_sound_of (performs rfl) rfl
    (fun a => if a = 3 then ⟨30, 0, 0, 0⟩ else if a = 4 then ⟨7, 0, 0, 0⟩ else if a = 130 then ⟨77, 0, 0, 0⟩
      else ⟨0, 0, 0, 0⟩) (by decide +kernel) ?_
  intro i hi e he hpc hfp hperm
  rw [stored_unique hi (j := .U32StoreEqFpImm 0 0 0 7) (by decide +kernel)] at he hperm
  have hx := (hperm.mem_iff (a := ⟨4, ⟨7, 0, 0, 0⟩⟩)).2 (by
    apply List.mem_append_left
    decide +kernel)
  revert hx
  decide +kernel

/-- **C36** fails for equality with an immediate, second way: the comparison is made modulo `P`, so the accepted row
below answers that `2^31 - 1` equals `0`. -/
theorem C36_violated_modulus : ∃ r : Row, r.enabler = 1 ∧ (evaluate r).Satisfied ∧ (evaluate r).TablesHold ∧
    r.op0_val_lo.val + 2 ^ 16 * r.op0_val_hi.val ≠ r.imm_lo.val + 2 ^ 16 * r.imm_hi.val ∧
    ⟨.memory, 1, [r.fp + r.dst_off, r.clock, 1]⟩ ∈ (evaluate r).entries := by
  refine ⟨⟨1, 3, 100, 9, 4, 0, 0, 0, 30, 65535, 32767, 5, 5, 77, 5, 0⟩,
    rfl, satisfied_of_check (by decide +kernel), tablesHold_of_check (by decide +kernel), by decide +kernel,
    by decide +kernel⟩

/-- **C36** fails for equality with an immediate, third way: no honest execution can be proved. If a row is enabled and
the values it consumes are those of some memory, then the instruction word is `[30, 0, 0, 0]`: it compares the cell at `fp`
with zero and writes at `fp + 30`. Every other use of the opcode has no row. -/
theorem C36_unprovable (r : Row) (mem : Mem) (hm : ∀ a ∈ accs r, mem a.addr = a.prev) :
    r.src0_off = 0 ∧ r.imm_lo = 0 ∧ r.imm_hi = 0 ∧ r.dst_off = 30 := by
  simp only [accs] at hm; air_split hm
  have h0 := hm.1
  rw [hm.2.1, QM31.mk.injEq] at h0
  exact ⟨h0.2.1.symm, h0.2.2.1.symm, h0.2.2.2.symm, h0.1⟩

/-- **C36** (equality with an immediate), partial: the stored bit says whether the two numbers are equal when both are
below `P`. Missing: larger numbers (`C36_violated_modulus`) and the reading of the second word (`C36_violated_word`). -/
theorem C36_eq_fp_imm_partial (r : Row) (h : r.enabler = 1) (hs : (evaluate r).Satisfied)
    (hx : r.op0_val_lo.val + 2 ^ 16 * r.op0_val_hi.val < P) (hy : r.imm_lo.val + 2 ^ 16 * r.imm_hi.val < P) :
    ⟨.memory, 1, [r.fp + r.dst_off, r.clock,
      bit (r.op0_val_lo.val + 2 ^ 16 * r.op0_val_hi.val = r.imm_lo.val + 2 ^ 16 * r.imm_hi.val)]⟩ ∈
      (evaluate r).entries := by
  simp only [Eval.Satisfied, evaluate] at hs
  air_split hs
  obtain ⟨-, e1, e2⟩ := hs
  have hb : bit (r.op0_val_lo.val + 2 ^ 16 * r.op0_val_hi.val = r.imm_lo.val + 2 ^ 16 * r.imm_hi.val) =
      1 - (r.op0_val_lo + r.op0_val_hi * 65536 - r.imm_lo - r.imm_hi * 65536) * r.diff_inv := by
    have cx : r.op0_val_lo + r.op0_val_hi * 65536 = ((r.op0_val_lo.val + 2 ^ 16 * r.op0_val_hi.val : ℕ) : M31) := by
      push_cast [ZMod.natCast_zmod_val]; ring
    have cy : r.imm_lo + r.imm_hi * 65536 = ((r.imm_lo.val + 2 ^ 16 * r.imm_hi.val : ℕ) : M31) := by
      push_cast [ZMod.natCast_zmod_val]; ring
    rw [bit]
    split
    · rename_i he
      have : r.op0_val_lo + r.op0_val_hi * 65536 - r.imm_lo - r.imm_hi * 65536 = 0 := by
        rw [sub_sub, cx, cy, he, sub_self]
      rw [this]; ring
    · rename_i he
      have hne : r.op0_val_lo + r.op0_val_hi * 65536 - r.imm_lo - r.imm_hi * 65536 ≠ 0 := by
        rw [sub_sub, cx, cy]
        intro h0
        apply he
        have := congrArg ZMod.val (sub_eq_zero.1 h0)
        rwa [val_of_lt hx, val_of_lt hy] at this
      have := (mul_eq_zero.1 e1).resolve_left hne
      linear_combination this
  rw [hb]
  simp [evaluate, h]

/-- Non-vacuity of `C36_eq_fp_imm_partial`: `70000 = 70000`. -/
example : let r : Row := ⟨1, 3, 100, 9, 4, 0, 4464, 1, 4, 4464, 1, 5, 5, 77, 5, 0⟩
    (evaluate r).Satisfied ∧ (evaluate r).TablesHold ∧
      r.op0_val_lo.val + 2 ^ 16 * r.op0_val_hi.val < P ∧ r.imm_lo.val + 2 ^ 16 * r.imm_hi.val < P :=
  ⟨satisfied_of_check (by decide +kernel), tablesHold_of_check (by decide +kernel), by decide +kernel⟩

end U32StoreEqFpImm

/-! ## Bitwise operations -/

namespace U32StoreBitwiseFpFp

/-- **C37** (memory operands): the row stores the bitwise conjunction, disjunction or exclusive or, according to the
opcode of the instruction. -/
theorem C37_bitwise_fp_fp (r : Row) (hs : (evaluate r).Satisfied) (ht : (evaluate r).TablesHold) :
    Sound r.enabler (evaluate r) := by
  simp only [Eval.Satisfied, evaluate] at hs
  air_split hs
  have he := hs
  rcases bool_of (x := r.enabler) (by linear_combination -he) with h | h
  · exact .inl ⟨h, inert h⟩
  refine .inr ⟨h, _, _, _, _, _, _, performs h, ordered h ht, ?_⟩
  obtain ⟨l0, l1, l2, l3⟩ := lookups h ht
  have hb := bitwise_core l0 l1 l2 l3
  have lt : ∀ {o a b c : M31}, InBitwise o a b c → c.val < 2 ^ 8 := by
    intro o a b c hl
    rw [hl.2.2.2]; exact bitwiseOp_lt hl.2.1 hl.2.2.1
  rcases opcode_cases l0.1 with ho | ho | ho
  · rw [ho, (show ((36 : M31) - 36).val = 0 by decide)] at hb
    replace ho : r.opcode_constant = 36 := ho.trans (by norm_num)
    refine executes_of (.U32StoreAndFpFp r.src0_off r.src1_off r.dst_off)
      ⟨[r.fp + r.src0_off, r.fp + r.src0_off + 1, r.fp + r.src1_off, r.fp + r.src1_off + 1],
        [(r.fp + r.dst_off, r.dst_val_0 + r.dst_val_1 * 256), (r.fp + r.dst_off + 1, r.dst_val_2 + r.dst_val_3 * 256)], r.pc + 1, r.fp⟩
      rfl rfl fun mem hm => ?_
    simp only [accs, ho] at hm; air_split hm
    obtain ⟨hi, h0, h1, h2, h3, h4, h5⟩ := hm
    refine ⟨_, stored_one _ hi.2 (Nat.le_of_ble_eq_true rfl) (by air_enc), ?_, ?_⟩
    · dsimp only [sem]
      exact bin32_of h0 h1 h2 h3 h4.1 h5.1 (byte_pair_lt l0.2.1 l1.2.1) (byte_pair_lt l2.2.1 l3.2.1) (byte_pair_lt l0.2.2.1 l1.2.2.1)
        (byte_pair_lt l2.2.2.1 l3.2.2.1) (byte_pair_lt (lt l0) (lt l1))
        (hb)
    · simp [Effect.log, accs, ho, h0.2, h1.2, h2.2, h3.2]
  · rw [ho, (show ((36 + 1 : M31) - 36).val = 1 by decide)] at hb
    replace ho : r.opcode_constant = 37 := ho.trans (by norm_num)
    refine executes_of (.U32StoreOrFpFp r.src0_off r.src1_off r.dst_off)
      ⟨[r.fp + r.src0_off, r.fp + r.src0_off + 1, r.fp + r.src1_off, r.fp + r.src1_off + 1],
        [(r.fp + r.dst_off, r.dst_val_0 + r.dst_val_1 * 256), (r.fp + r.dst_off + 1, r.dst_val_2 + r.dst_val_3 * 256)], r.pc + 1, r.fp⟩
      rfl rfl fun mem hm => ?_
    simp only [accs, ho] at hm; air_split hm
    obtain ⟨hi, h0, h1, h2, h3, h4, h5⟩ := hm
    refine ⟨_, stored_one _ hi.2 (Nat.le_of_ble_eq_true rfl) (by air_enc), ?_, ?_⟩
    · dsimp only [sem]
      exact bin32_of h0 h1 h2 h3 h4.1 h5.1 (byte_pair_lt l0.2.1 l1.2.1) (byte_pair_lt l2.2.1 l3.2.1) (byte_pair_lt l0.2.2.1 l1.2.2.1)
        (byte_pair_lt l2.2.2.1 l3.2.2.1) (byte_pair_lt (lt l0) (lt l1))
        (hb)
    · simp [Effect.log, accs, ho, h0.2, h1.2, h2.2, h3.2]
  · rw [ho, (show ((36 + 2 : M31) - 36).val = 2 by decide)] at hb
    replace ho : r.opcode_constant = 38 := ho.trans (by norm_num)
    refine executes_of (.U32StoreXorFpFp r.src0_off r.src1_off r.dst_off)
      ⟨[r.fp + r.src0_off, r.fp + r.src0_off + 1, r.fp + r.src1_off, r.fp + r.src1_off + 1],
        [(r.fp + r.dst_off, r.dst_val_0 + r.dst_val_1 * 256), (r.fp + r.dst_off + 1, r.dst_val_2 + r.dst_val_3 * 256)], r.pc + 1, r.fp⟩
      rfl rfl fun mem hm => ?_
    simp only [accs, ho] at hm; air_split hm
    obtain ⟨hi, h0, h1, h2, h3, h4, h5⟩ := hm
    refine ⟨_, stored_one _ hi.2 (Nat.le_of_ble_eq_true rfl) (by air_enc), ?_, ?_⟩
    · dsimp only [sem]
      exact bin32_of h0 h1 h2 h3 h4.1 h5.1 (byte_pair_lt l0.2.1 l1.2.1) (byte_pair_lt l2.2.1 l3.2.1) (byte_pair_lt l0.2.2.1 l1.2.2.1)
        (byte_pair_lt l2.2.2.1 l3.2.2.1) (byte_pair_lt (lt l0) (lt l1))
        (hb)
    · simp [Effect.log, accs, ho, h0.2, h1.2, h2.2, h3.2]

/-- Non-vacuity of `C37_bitwise_fp_fp`: `0xdeadbeef xor 0x12345678`. -/
example : let r : Row := ⟨1, 3, 100, 9, 4, 38, 0, 2, 4, 239, 190, 173, 222, 5, 5, 120, 86, 52, 18, 5, 5, 77, 77, 151, 232, 153, 204, 5, 5⟩
    (evaluate r).Satisfied ∧ (evaluate r).TablesHold :=
  ⟨satisfied_of_check (by decide +kernel), tablesHold_of_check (by decide +kernel)⟩

end U32StoreBitwiseFpFp

namespace U32StoreBitwiseFpImm

/-- **C37** (immediate operand): the row stores the bitwise conjunction, disjunction or exclusive or, according to the
opcode of the instruction. -/
theorem C37_bitwise_fp_imm (r : Row) (hs : (evaluate r).Satisfied) (ht : (evaluate r).TablesHold) :
    Sound r.enabler (evaluate r) := by
  simp only [Eval.Satisfied, evaluate] at hs
  air_split hs
  have he := hs
  rcases bool_of (x := r.enabler) (by linear_combination -he) with h | h
  · exact .inl ⟨h, inert h⟩
  refine .inr ⟨h, _, _, _, _, _, _, performs h, ordered h ht, ?_⟩
  obtain ⟨l0, l1, l2, l3⟩ := lookups h ht
  have hb := bitwise_core l0 l1 l2 l3
  have lt : ∀ {o a b c : M31}, InBitwise o a b c → c.val < 2 ^ 8 := by
    intro o a b c hl
    rw [hl.2.2.2]; exact bitwiseOp_lt hl.2.1 hl.2.2.1
  rcases opcode_cases l0.1 with ho | ho | ho
  · rw [ho, (show ((39 : M31) - 39).val = 0 by decide)] at hb
    replace ho : r.opcode_constant = 39 := ho.trans (by norm_num)
    refine executes_of (.U32StoreAndFpImm r.src_off (r.imm_0 + r.imm_1 * 256) (r.imm_2 + r.imm_3 * 256) r.dst_off)
      ⟨[r.fp + r.src_off, r.fp + r.src_off + 1],
        [(r.fp + r.dst_off, r.dst_val_0 + r.dst_val_1 * 256), (r.fp + r.dst_off + 1, r.dst_val_2 + r.dst_val_3 * 256)], r.pc + 2, r.fp⟩
      (next_two r.pc) rfl fun mem hm => ?_
    simp only [accs, ho] at hm; air_split hm
    obtain ⟨hi, hi', h0, h1, h2, h3⟩ := hm
    refine ⟨_, stored_two _ hi.2 hi'.2 (Nat.le_of_ble_eq_true rfl) (by air_enc), ?_, ?_⟩
    · dsimp only [sem]
      exact bin32Imm_of h0 h1 h2.1 h3.1 (byte_pair_lt l0.2.1 l1.2.1) (byte_pair_lt l2.2.1 l3.2.1) (byte_pair_lt l0.2.2.1 l1.2.2.1)
        (byte_pair_lt l2.2.2.1 l3.2.2.1) (byte_pair_lt (lt l0) (lt l1))
        (hb)
    · simp [Effect.log, accs, ho, h0.2, h1.2]
  · rw [ho, (show ((39 + 1 : M31) - 39).val = 1 by decide)] at hb
    replace ho : r.opcode_constant = 40 := ho.trans (by norm_num)
    refine executes_of (.U32StoreOrFpImm r.src_off (r.imm_0 + r.imm_1 * 256) (r.imm_2 + r.imm_3 * 256) r.dst_off)
      ⟨[r.fp + r.src_off, r.fp + r.src_off + 1],
        [(r.fp + r.dst_off, r.dst_val_0 + r.dst_val_1 * 256), (r.fp + r.dst_off + 1, r.dst_val_2 + r.dst_val_3 * 256)], r.pc + 2, r.fp⟩
      (next_two r.pc) rfl fun mem hm => ?_
    simp only [accs, ho] at hm; air_split hm
    obtain ⟨hi, hi', h0, h1, h2, h3⟩ := hm
    refine ⟨_, stored_two _ hi.2 hi'.2 (Nat.le_of_ble_eq_true rfl) (by air_enc), ?_, ?_⟩
    · dsimp only [sem]
      exact bin32Imm_of h0 h1 h2.1 h3.1 (byte_pair_lt l0.2.1 l1.2.1) (byte_pair_lt l2.2.1 l3.2.1) (byte_pair_lt l0.2.2.1 l1.2.2.1)
        (byte_pair_lt l2.2.2.1 l3.2.2.1) (byte_pair_lt (lt l0) (lt l1))
        (hb)
    · simp [Effect.log, accs, ho, h0.2, h1.2]
  · rw [ho, (show ((39 + 2 : M31) - 39).val = 2 by decide)] at hb
    replace ho : r.opcode_constant = 41 := ho.trans (by norm_num)
    refine executes_of (.U32StoreXorFpImm r.src_off (r.imm_0 + r.imm_1 * 256) (r.imm_2 + r.imm_3 * 256) r.dst_off)
      ⟨[r.fp + r.src_off, r.fp + r.src_off + 1],
        [(r.fp + r.dst_off, r.dst_val_0 + r.dst_val_1 * 256), (r.fp + r.dst_off + 1, r.dst_val_2 + r.dst_val_3 * 256)], r.pc + 2, r.fp⟩
      (next_two r.pc) rfl fun mem hm => ?_
    simp only [accs, ho] at hm; air_split hm
    obtain ⟨hi, hi', h0, h1, h2, h3⟩ := hm
    refine ⟨_, stored_two _ hi.2 hi'.2 (Nat.le_of_ble_eq_true rfl) (by air_enc), ?_, ?_⟩
    · dsimp only [sem]
      exact bin32Imm_of h0 h1 h2.1 h3.1 (byte_pair_lt l0.2.1 l1.2.1) (byte_pair_lt l2.2.1 l3.2.1) (byte_pair_lt l0.2.2.1 l1.2.2.1)
        (byte_pair_lt l2.2.2.1 l3.2.2.1) (byte_pair_lt (lt l0) (lt l1))
        (hb)
    · simp [Effect.log, accs, ho, h0.2, h1.2]

/-- Non-vacuity of `C37_bitwise_fp_imm`: `0xdeadbeef xor 0x12345678`. -/
example : let r : Row := ⟨1, 3, 100, 9, 4, 41, 0, 120, 86, 52, 18, 4, 239, 190, 173, 222, 5, 5, 77, 77, 151, 232, 153, 204, 5, 5⟩
    (evaluate r).Satisfied ∧ (evaluate r).TablesHold :=
  ⟨satisfied_of_check (by decide +kernel), tablesHold_of_check (by decide +kernel)⟩

end U32StoreBitwiseFpImm

end Air
end CairoM
