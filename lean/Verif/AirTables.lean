import Verif.AirTrace

/-!
# Preprocessed tables: property C58
-/

namespace CairoM
namespace Air

theorem getElem?_flatMap_range {α : Type} (n m : ℕ) (f : ℕ → ℕ → α) (i : ℕ) (h : i < n * m) :
    ((List.range n).flatMap fun a => (List.range m).map (f a))[i]? = some (f (i / m) (i % m)) := by
  have hlen : ∀ n, ((List.range n).flatMap fun a => (List.range m).map (f a)).length = n * m := by
    intro n; simp [List.length_flatMap]
  induction n with
  | zero => omega
  | succ n ih =>
    have hm : 0 < m := by
      rcases Nat.eq_zero_or_pos m with rfl | h0
      · omega
      · exact h0
    rw [List.range_succ, List.flatMap_append]
    by_cases hi : i < n * m
    · rw [List.getElem?_append_left (by rw [hlen]; exact hi), ih hi]
    · rw [List.getElem?_append_right (by rw [hlen]; omega), hlen]
      have hd : i / m = n := by
        refine Nat.div_eq_of_lt_le (by omega) ?_
        rw [Nat.succ_mul] at h ⊢; omega
      have hr : i % m = i - n * m := by
        have := Nat.div_add_mod i m
        rw [hd, Nat.mul_comm] at this; omega
      rw [Nat.succ_mul] at h
      simp only [List.flatMap_cons, List.flatMap_nil, List.append_nil]
      rw [List.getElem?_map, List.getElem?_range (by omega), hd, hr]
      rfl

theorem bitwiseColumn_getD (col i : ℕ) (h : i < 2 ^ 18) :
    (bitwiseColumn 8 (2 ^ 18) col).getD i 0 =
      if i < 196608 then
        match col with
        | 0 => ((i / 65536 : ℕ) : M31)
        | 1 => ((i % 65536 / 256 : ℕ) : M31)
        | 2 => ((i % 65536 % 256 : ℕ) : M31)
        | _ => (bitwiseOp (i / 65536) (i % 65536 / 256) (i % 65536 % 256) : M31)
      else 0 := by
  rw [bitwiseColumn]
  dsimp only
  by_cases hi : i < 196608
  · rw [if_pos hi, List.getD_eq_getElem?_getD, List.getElem?_append_left (by simp [List.length_flatMap]; omega),
      getElem?_flatMap_range _ _ _ _ (by omega), Option.getD_some,
      show 2 ^ (8 * 2) = 65536 from rfl, show 2 ^ 8 - 1 = 255 from rfl, Nat.shiftRight_eq_div_pow,
      show 255 = 2 ^ 8 - 1 from rfl, Nat.and_two_pow_sub_one_eq_mod]
    match col with
    | 0 => rfl
    | 1 => rfl
    | 2 => rfl
    | (_ + 3) =>
      have h3 : i / 65536 < 3 := by omega
      generalize i / 65536 = op at h3 ⊢
      match op, h3 with
      | 0, _ => simp [bitwiseOp]
      | 1, _ => simp [bitwiseOp]
      | 2, _ => simp [bitwiseOp]
  · rw [if_neg hi, List.getD_eq_getElem?_getD, List.getElem?_append_right (by simp [List.length_flatMap]; omega)]
    have hz : ∀ (p : Prop) [Decidable p], (if p then some (0 : M31) else none).getD 0 = 0 := by
      intro p _; split <;> rfl
    rw [List.getElem?_replicate]
    exact hz _

/-- C58: the rows of the bitwise table are exactly the tuples (operation, a, b, result) with byte operands, where the
operation is 0 (and), 1 (or), 2 (xor). -/
theorem C58_bitwise_table (tuple : List M31) :
    (∃ i < 2 ^ 18, bitwiseRow i = tuple) ↔
      ∃ op a b : ℕ, op < 3 ∧ a < 2 ^ 8 ∧ b < 2 ^ 8 ∧
        tuple = [(op : M31), (a : M31), (b : M31),
          ((if op = 0 then a &&& b else if op = 1 then a ||| b else a ^^^ b : ℕ) : M31)] := by
  have row : ∀ i < 2 ^ 18, bitwiseRow i = if i < 196608 then
      [((i / 65536 : ℕ) : M31), ((i % 65536 / 256 : ℕ) : M31), ((i % 65536 % 256 : ℕ) : M31),
        (bitwiseOp (i / 65536) (i % 65536 / 256) (i % 65536 % 256) : M31)] else [0, 0, 0, 0] := by
    intro i hi
    simp only [bitwiseRow, List.map_cons, List.map_nil]
    rw [bitwiseColumn_getD _ _ hi, bitwiseColumn_getD _ _ hi, bitwiseColumn_getD _ _ hi, bitwiseColumn_getD _ _ hi]
    split <;> rfl
  constructor
  · rintro ⟨i, hi, rfl⟩
    rw [row i hi]
    by_cases h : i < 196608
    · rw [if_pos h]
      exact ⟨i / 65536, i % 65536 / 256, i % 65536 % 256, by omega, by omega, by omega, rfl⟩
    · rw [if_neg h]
      exact ⟨0, 0, 0, by omega, by omega, by omega, by simp⟩
  · rintro ⟨op, a, b, ho, ha, hb, rfl⟩
    refine ⟨op * 65536 + a * 256 + b, by omega, ?_⟩
    rw [row _ (by omega), if_pos (by omega), show (op * 65536 + a * 256 + b) / 65536 = op by omega,
      show (op * 65536 + a * 256 + b) % 65536 / 256 = a by omega,
      show (op * 65536 + a * 256 + b) % 65536 % 256 = b by omega]
    rfl

/-- C58: the range tables contain exactly the field elements below `2^N`. -/
theorem C58_range_table (bits : ℕ) (h : bits ≤ 30) (v : M31) : v ∈ rangeColumn bits ↔ v.val < 2 ^ bits := by
  have hb : 2 ^ bits ≤ 2 ^ 30 := Nat.pow_le_pow_right (by norm_num) h
  have hP : P = 2147483647 := rfl
  rw [rangeColumn, List.mem_map]
  constructor
  · rintro ⟨i, hi, rfl⟩
    rw [List.mem_range] at hi
    rwa [ZMod.val_natCast_of_lt (by omega)]
  · intro hv
    exact ⟨v.val, List.mem_range.2 hv, ZMod.natCast_zmod_val v⟩

/-- C58: the row at which the prover counts a lookup of `(op, a, b, _)` (`crates/prover/src/preprocessed/bitwise.rs:98-101`)
is the row of that operation and those operands. -/
theorem C58_bitwise_index (op a b : ℕ) (ho : op < 3) (ha : a < 2 ^ 8) (hb : b < 2 ^ 8) :
    bitwiseRow (op * 2 ^ 16 + a * 2 ^ 8 + b) = [(op : M31), (a : M31), (b : M31),
      ((if op = 0 then a &&& b else if op = 1 then a ||| b else a ^^^ b : ℕ) : M31)] := by
  simp only [bitwiseRow, List.map_cons, List.map_nil]
  have hi : op * 2 ^ 16 + a * 2 ^ 8 + b < 2 ^ 18 := by omega
  rw [bitwiseColumn_getD _ _ hi, bitwiseColumn_getD _ _ hi, bitwiseColumn_getD _ _ hi, bitwiseColumn_getD _ _ hi,
    if_pos (by omega), if_pos (by omega), if_pos (by omega), if_pos (by omega)]
  rw [show (op * 2 ^ 16 + a * 2 ^ 8 + b) / 65536 = op by omega,
    show (op * 2 ^ 16 + a * 2 ^ 8 + b) % 65536 / 256 = a by omega,
    show (op * 2 ^ 16 + a * 2 ^ 8 + b) % 65536 % 256 = b by omega]
  rfl

/-- Non-vacuity: `0xf0 xor 0x3c = 0xcc` is in the table. -/
example : ∃ i < 2 ^ 18, bitwiseRow i = [2, 0xf0, 0x3c, 0xcc] :=
  (C58_bitwise_table _).2 ⟨2, 0xf0, 0x3c, by norm_num, by norm_num, by norm_num, by decide⟩

/-- Non-vacuity: `65535` is in the 16-bit table and `65536` is not. -/
example : ((65535 : ℕ) : M31) ∈ rangeColumn 16 ∧ ((65536 : ℕ) : M31) ∉ rangeColumn 16 := by
  rw [C58_range_table 16 (by norm_num), C58_range_table 16 (by norm_num), ZMod.val_natCast_of_lt (by decide),
    ZMod.val_natCast_of_lt (by decide)]
  norm_num

end Air
end CairoM
