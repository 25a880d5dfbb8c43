import Verif.Instruction

/-! Helper lemmas about the instruction encodings. -/

namespace CairoM
namespace Instruction

theorem val_ofU32_opcode (i : Instruction) : (M31.ofU32 i.opcodeValue).val = i.opcodeValue := by
  apply M31.ofU32_val_of_lt
  cases i <;> norm_num [opcodeValue, P]

theorem decode_encode (i : Instruction) : decode i.encode = .ok i := by
  cases i <;> rfl

theorem length_operands (i : Instruction) : i.operands.length + 1 = i.sizeInM31s := by
  cases i <;> rfl

theorem length_encode (i : Instruction) : i.encode.length = i.sizeInM31s := by
  simp [encode, length_operands]

theorem ofU32_of_val_eq {op : M31} {n : ℕ} (h : op.val = n) : op = M31.ofU32 n := by
  rw [← h, M31.ofU32_of_val]

set_option maxHeartbeats 1000000 in
theorem encode_of_decode {ws : List M31} {i : Instruction} (h : decode ws = .ok i) : ws = i.encode := by
  cases ws with
  | nil => simp [decode] at h
  | cons op rest =>
    simp only [decode] at h
    split at h <;> first
      | (rename_i hop
         split at h
         · simp only [Except.ok.injEq] at h
           subst h
           rw [encode, ofU32_of_val_eq hop]; rfl
         · simp at h)
      | simp at h

end Instruction
end CairoM
