import Verif.Json

/-!
# Properties C01, C02, C04, C05 (tables): instruction encodings
-/

namespace CairoM
namespace Instruction

/-- C01: encoding then decoding is the identity. -/
theorem C01_encode_decode (i : Instruction) : decode i.encode = .ok i := decode_encode i

/-- C01: different instructions never share an encoding. -/
theorem C01_encode_injective {i j : Instruction} (h : i.encode = j.encode) : i = j := by
  have := decode_encode j
  rw [← h, decode_encode i] at this
  exact Except.ok.inj this

example : encode (.U32StoreDivRemFpImm 1 2 3 4 5) = [22, 1, 2, 3, 4, 5] := by decide
example : decode [18, 7, 8, 9, 10] = .ok (.U32StoreDivRemFpFp 7 8 9 10) := by decide

/-- C02: a list of words decodes to an instruction exactly if it is that instruction's encoding. -/
theorem C02_decode_iff (ws : List M31) (i : Instruction) : decode ws = .ok i ↔ ws = i.encode :=
  ⟨encode_of_decode, fun h => h ▸ decode_encode i⟩

/-- C02: the empty list is a size mismatch. -/
theorem C02_decode_empty : decode [] = .error (.sizeMismatch 1 0) := rfl

/-- C02: an unknown opcode is reported as such, whatever follows. -/
theorem C02_decode_unknown (op : M31) (rest : List M31) (h : ∀ i : Instruction, i.opcodeValue ≠ op.val) :
    decode (op :: rest) = .error (.invalidOpcode op) := by
  have H := h
  generalize hn : op.val = n at h
  simp only [decode, hn]
  split
  all_goals first
    | rfl
    | (exfalso
       first
       | exact h (.StoreAddFpFp 0 0 0) rfl
       | exact h (.StoreSubFpFp 0 0 0) rfl
       | exact h (.StoreMulFpFp 0 0 0) rfl
       | exact h (.StoreDivFpFp 0 0 0) rfl
       | exact h (.StoreAddFpImm 0 0 0) rfl
       | exact h (.StoreMulFpImm 0 0 0) rfl
       | exact h (.StoreDoubleDerefFp 0 0 0) rfl
       | exact h (.StoreImm 0 0) rfl
       | exact h (.CallAbsImm 0 0) rfl
       | exact h .Ret rfl
       | exact h (.JmpAbsImm 0) rfl
       | exact h (.JmpRelImm 0) rfl
       | exact h (.JnzFpImm 0 0) rfl
       | exact h (.U32StoreAddFpFp 0 0 0) rfl
       | exact h (.U32StoreSubFpFp 0 0 0) rfl
       | exact h (.U32StoreMulFpFp 0 0 0) rfl
       | exact h (.U32StoreDivRemFpFp 0 0 0 0) rfl
       | exact h (.U32StoreAddFpImm 0 0 0 0) rfl
       | exact h (.U32StoreMulFpImm 0 0 0 0) rfl
       | exact h (.U32StoreDivRemFpImm 0 0 0 0 0) rfl
       | exact h (.U32StoreImm 0 0 0) rfl
       | exact h (.U32StoreEqFpFp 0 0 0) rfl
       | exact h (.U32StoreLtFpFp 0 0 0) rfl
       | exact h (.U32StoreEqFpImm 0 0 0 0) rfl
       | exact h (.U32StoreLtFpImm 0 0 0 0) rfl
       | exact h (.U32StoreAndFpFp 0 0 0) rfl
       | exact h (.U32StoreOrFpFp 0 0 0) rfl
       | exact h (.U32StoreXorFpFp 0 0 0) rfl
       | exact h (.U32StoreAndFpImm 0 0 0 0) rfl
       | exact h (.U32StoreOrFpImm 0 0 0 0) rfl
       | exact h (.U32StoreXorFpImm 0 0 0 0) rfl
       | exact h (.StoreDoubleDerefFpFp 0 0 0) rfl
       | exact h (.StoreFramePointer 0 0) rfl
       | exact h (.StoreToDoubleDerefFpImm 0 0 0) rfl
       | exact h (.StoreToDoubleDerefFpFp 0 0 0) rfl
       | exact h (.PrintM31 0) rfl
       | exact h (.PrintU32 0) rfl
       | exact h (.StoreLeFpImm 0 0 0) rfl
       | exact h (.AssertEqFpImm 0 0) rfl)

/-- C02: a known opcode with the wrong number of operands is a size mismatch reporting both counts. -/
theorem C02_decode_wrong_count (i : Instruction) (rest : List M31)
    (h : rest.length ≠ i.operands.length) :
    decode (M31.ofU32 i.opcodeValue :: rest) = .error (.sizeMismatch i.operands.length rest.length) := by
  have hv := val_ofU32_opcode i
  cases i <;> simp only [opcodeValue, operands, List.length_cons, List.length_nil] at hv h ⊢ <;>
    simp only [decode, hv] <;> split <;> first | rfl | simp at h

/-- Opcode 5 is unassigned, so the hypothesis of `C02_decode_unknown` is satisfiable. -/
example : ∀ i : Instruction, i.opcodeValue ≠ (5 : M31).val := by
  intro i; have : (5 : M31).val = 5 := by decide
  rw [this]; cases i <;> simp [opcodeValue]
example : decode [4, 1, 2] = .error (.sizeMismatch 3 2) := by decide
example : decode [5, 1, 2] = .error (.invalidOpcode 5) := by decide

/-- C05: the per-opcode size function and the size table give the length of the encoding. -/
theorem C05_size_table (i : Instruction) :
    sizeInM31sForOpcode i.opcodeValue = some i.encode.length ∧
    opcodeSizeTable[i.opcodeValue]? = some (some i.encode.length) ∧
    i.sizeInM31s = i.encode.length := by
  rw [length_encode]
  cases i <;> exact ⟨rfl, rfl, rfl⟩

/-- C05: the size table has no entry for an unassigned opcode. -/
theorem C05_size_table_unassigned (op : ℕ) (h : ∀ i : Instruction, i.opcodeValue ≠ op) :
    sizeInM31sForOpcode op = none ∧ (opcodeSizeTable[op]?).join = none := by
  have h1 : sizeInM31sForOpcode op = none := by
    have hd : ∀ n ≤ 50, (sizeInM31sForOpcode n).isSome = true →
        n ∈ [0,1,2,3,4,6,8,9,10,11,12,13,14,15,16,17,18,19,21,22,23,24,28,30,34,36,37,38,39,40,41,42,43,
          44,45,46,47,48,50] := by decide
    by_contra hne
    have hs : (sizeInM31sForOpcode op).isSome = true := Option.isSome_iff_ne_none.2 hne
    have hle : op ≤ 50 := by
      by_contra hgt
      apply hne
      unfold sizeInM31sForOpcode
      split <;> first | omega | rfl
    have := hd op hle hs
    simp only [List.mem_cons, List.not_mem_nil, or_false] at this
    rcases this with e|e|e|e|e|e|e|e|e|e|e|e|e|e|e|e|e|e|e|e|e|e|e|e|e|e|e|e|e|e|e|e|e|e|e|e|e|e|e
    · exact h (.StoreAddFpFp 0 0 0) e.symm
    · exact h (.StoreSubFpFp 0 0 0) e.symm
    · exact h (.StoreMulFpFp 0 0 0) e.symm
    · exact h (.StoreDivFpFp 0 0 0) e.symm
    · exact h (.StoreAddFpImm 0 0 0) e.symm
    · exact h (.StoreMulFpImm 0 0 0) e.symm
    · exact h (.StoreDoubleDerefFp 0 0 0) e.symm
    · exact h (.StoreImm 0 0) e.symm
    · exact h (.CallAbsImm 0 0) e.symm
    · exact h .Ret e.symm
    · exact h (.JmpAbsImm 0) e.symm
    · exact h (.JmpRelImm 0) e.symm
    · exact h (.JnzFpImm 0 0) e.symm
    · exact h (.U32StoreAddFpFp 0 0 0) e.symm
    · exact h (.U32StoreSubFpFp 0 0 0) e.symm
    · exact h (.U32StoreMulFpFp 0 0 0) e.symm
    · exact h (.U32StoreDivRemFpFp 0 0 0 0) e.symm
    · exact h (.U32StoreAddFpImm 0 0 0 0) e.symm
    · exact h (.U32StoreMulFpImm 0 0 0 0) e.symm
    · exact h (.U32StoreDivRemFpImm 0 0 0 0 0) e.symm
    · exact h (.U32StoreImm 0 0 0) e.symm
    · exact h (.U32StoreEqFpFp 0 0 0) e.symm
    · exact h (.U32StoreLtFpFp 0 0 0) e.symm
    · exact h (.U32StoreEqFpImm 0 0 0 0) e.symm
    · exact h (.U32StoreLtFpImm 0 0 0 0) e.symm
    · exact h (.U32StoreAndFpFp 0 0 0) e.symm
    · exact h (.U32StoreOrFpFp 0 0 0) e.symm
    · exact h (.U32StoreXorFpFp 0 0 0) e.symm
    · exact h (.U32StoreAndFpImm 0 0 0 0) e.symm
    · exact h (.U32StoreOrFpImm 0 0 0 0) e.symm
    · exact h (.U32StoreXorFpImm 0 0 0 0) e.symm
    · exact h (.StoreDoubleDerefFpFp 0 0 0) e.symm
    · exact h (.StoreFramePointer 0 0) e.symm
    · exact h (.StoreToDoubleDerefFpImm 0 0 0) e.symm
    · exact h (.StoreToDoubleDerefFpFp 0 0 0) e.symm
    · exact h (.PrintM31 0) e.symm
    · exact h (.PrintU32 0) e.symm
    · exact h (.StoreLeFpImm 0 0 0) e.symm
    · exact h (.AssertEqFpImm 0 0) e.symm
  refine ⟨h1, ?_⟩
  unfold opcodeSizeTable
  rw [List.getElem?_map]
  by_cases hle : op < maxOpcode + 1
  · rw [List.getElem?_range hle]; simpa using h1
  · rw [List.getElem?_eq_none (by simpa using hle)]; rfl

/-- C05: the size in memory words is the size divided by four, rounded up, and is the number of words the
instruction is stored in; the words hold the encoding padded with zeros. -/
theorem C05_words (i : Instruction) :
    i.sizeInQM31s = (i.encode.length + 3) / 4 ∧ i.toQM31s.length = i.sizeInQM31s ∧
    ∃ pad, i.toQM31s.flatMap QM31.limbs = i.encode ++ List.replicate pad 0 ∧ pad < 4 := by
  rw [length_encode]
  refine ⟨rfl, ?_, 4 * i.sizeInQM31s - i.sizeInM31s, ?_, ?_⟩
  · cases i <;> simp [toQM31s, packQM31s, encode, operands, sizeInQM31s, divCeil4, sizeInM31s]
  · cases i <;> simp [toQM31s, packQM31s, encode, operands, sizeInQM31s, divCeil4, sizeInM31s, QM31.limbs,
      List.replicate]
  · cases i <;> simp [sizeInQM31s, divCeil4, sizeInM31s]

/-- C05: no encoding is longer than `INSTRUCTION_MAX_SIZE`, and that bound is attained. -/
theorem C05_max_size : (∀ i : Instruction, i.encode.length ≤ instructionMaxSize) ∧
    ∃ i : Instruction, i.encode.length = instructionMaxSize := by
  refine ⟨fun i => ?_, .U32StoreDivRemFpImm 0 0 0 0 0, rfl⟩
  rw [length_encode]
  cases i <;> simp [sizeInM31s, instructionMaxSize]

/-- C05: opcodes of different variants are different. -/
theorem C05_opcodes_distinct (i j : Instruction) (h : i.opcodeValue = j.opcodeValue) :
    i.ctorIdx = j.ctorIdx := by
  have key : ∀ k : Instruction, [0,1,2,3,4,6,48,50,8,42,9,43,10,11,12,13,14,15,16,17,18,19,21,22,23,24,28,
      30,34,36,37,38,39,40,41,44,45,46,47].idxOf k.opcodeValue = k.ctorIdx := by
    intro k; cases k <;> rfl
  rw [← key i, ← key j, h]

/-- C05: all opcodes are at most `MAX_OPCODE`. -/
theorem C05_opcode_le (i : Instruction) : i.opcodeValue ≤ maxOpcode := by
  cases i <;> simp [opcodeValue, maxOpcode]

end Instruction

namespace Json

/-- C04: the JSON form of an instruction reads back as the same instruction. -/
theorem C04_json_round_trip (i : Instruction) : deserialize (serialize i) = some i := deserialize_serialize i

/-- C04: the hex text of a field element parses back to that element. -/
theorem C04_hex_round_trip (m : M31) : parseElement (hexString m) = some m := parseElement_hexString m

/-- C04: the text is the usual hexadecimal notation: reading its digits in base 16 gives the number. -/
theorem C04_hex_is_base16 (m : M31) :
    ∃ ds : List ℕ, hexString m = '0' :: 'x' :: ds.map hexDigit ∧ (∀ d ∈ ds, d < 16) ∧
      ds.foldl (fun acc d => acc * 16 + d) 0 = m.val := by
  have H : ∀ n : ℕ, ∃ ds : List ℕ, hex n = ds.map hexDigit ∧ (∀ d ∈ ds, d < 16) ∧
      ds.foldl (fun acc d => acc * 16 + d) 0 = n := by
    intro n
    induction n using Nat.strong_induction_on with
    | _ n ih =>
      rw [hex]
      split
      · rename_i h; exact ⟨[n], by simp, by simpa using h, by simp⟩
      · obtain ⟨ds, h1, h2, h3⟩ := ih (n / 16) (by omega)
        refine ⟨ds ++ [n % 16], by simp [h1], ?_, ?_⟩
        · intro d hd
          rcases List.mem_append.1 hd with hd | hd
          · exact h2 d hd
          · simp only [List.mem_singleton] at hd; omega
        · simp [h3]; omega
  obtain ⟨ds, h1, h2, h3⟩ := H m.val
  exact ⟨ds, by rw [hexString, h1], h2, h3⟩

example : serialize (.StoreImm 255 4096) = ["0x9".toList, "0xff".toList, "0x1000".toList] := by
  simp only [serialize, Instruction.encode, Instruction.operands, Instruction.opcodeValue, List.map]
  have h1 : (M31.ofU32 9).val = 9 := by decide
  have h2 : (255 : M31).val = 255 := by decide
  have h3 : (4096 : M31).val = 4096 := by decide
  simp only [hexString, h1, h2, h3]
  simp [hex, hexDigit]
example : deserialize ["0x9".toList, "0xff".toList, "0x1000".toList] = some (.StoreImm 255 4096) := by decide
example : deserialize ["0x5".toList, "0xff".toList] = none := by decide

end Json
end CairoM
