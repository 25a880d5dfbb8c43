import Verif.InstructionLemmas

/-!
# JSON representation of instructions

Model of the `Serialize`/`Deserialize` implementations of `Instruction`
(`crates/common/src/instruction.rs:610-655`). A JSON string is a list of characters; the JSON array syntax
itself (serde_json) is not modelled.
-/

namespace CairoM
namespace Json

/-- One lower-case hexadecimal digit, as printed by `{:x}`. -/
def hexDigit (d : ℕ) : Char := Char.ofNat (if d < 10 then 48 + d else 87 + d)

/-- `format!("{:x}", n)`: hexadecimal digits without leading zeros. -/
def hex (n : ℕ) : List Char :=
  if n < 16 then [hexDigit n] else hex (n / 16) ++ [hexDigit (n % 16)]
termination_by n
decreasing_by omega

/-- `format!("0x{:x}", val.0)` (`crates/common/src/instruction.rs:621`). -/
def hexString (m : M31) : List Char := '0' :: 'x' :: hex m.val

/-- `Serialize for Instruction` (`crates/common/src/instruction.rs:610-625`). -/
def serialize (i : Instruction) : List (List Char) := i.encode.map hexString

/-- `str::trim_start_matches("0x")`: removes the prefix as often as it occurs. -/
def trim0x : List Char → List Char
  | '0' :: 'x' :: t => trim0x t
  | l => l

/-- `char::to_digit(16)`. -/
def digitValue (c : Char) : Option ℕ :=
  let n := c.toNat
  if 48 ≤ n ∧ n ≤ 57 then some (n - 48)
  else if 97 ≤ n ∧ n ≤ 102 then some (n - 87)
  else if 65 ≤ n ∧ n ≤ 70 then some (n - 55)
  else none

/-- The accumulation loop of `u32::from_str_radix(_, 16)` with its overflow checks. -/
def parseDigits : ℕ → List Char → Option ℕ
  | acc, [] => some acc
  | acc, c :: cs =>
    match digitValue c with
    | none => none
    | some d => if acc * 16 + d < 2 ^ 32 then parseDigits (acc * 16 + d) cs else none

/-- `u32::from_str_radix(s, 16)`: empty input is an error, one leading `+` is allowed (but not alone). -/
def fromStrRadix16 : List Char → Option ℕ
  | [] => none
  | ['+'] => none
  | '+' :: cs => parseDigits 0 cs
  | cs => parseDigits 0 cs

/-- Parsing one array element (`crates/common/src/instruction.rs:641-643`). -/
def parseElement (s : List Char) : Option M31 := (fromStrRadix16 (trim0x s)).map M31.ofU32

/-- `Deserialize for Instruction` (`crates/common/src/instruction.rs:627-655`); every error is `none`. -/
def deserialize (ss : List (List Char)) : Option Instruction :=
  if ss.length = 0 ∨ ss.length > Instruction.instructionMaxSize then none
  else match ss.mapM parseElement with
    | none => none
    | some ms => match Instruction.decode ms with
      | .ok i => some i
      | .error _ => none

/-! ### Lemmas -/

theorem digitValue_hexDigit {d : ℕ} (h : d < 16) : digitValue (hexDigit d) = some d := by
  interval_cases d <;> decide

theorem hexDigit_ne_x {d : ℕ} (h : d < 16) : hexDigit d ≠ 'x' := by
  interval_cases d <;> decide

theorem hexDigit_ne_plus {d : ℕ} (h : d < 16) : hexDigit d ≠ '+' := by
  interval_cases d <;> decide

theorem mem_hex {n : ℕ} {c : Char} (h : c ∈ hex n) : ∃ d, d < 16 ∧ c = hexDigit d := by
  induction n using Nat.strong_induction_on with
  | _ n ih =>
    rw [hex] at h
    split at h
    · simp only [List.mem_singleton] at h; exact ⟨n, by assumption, h⟩
    · rcases List.mem_append.1 h with h | h
      · exact ih _ (by omega) h
      · simp only [List.mem_singleton] at h; exact ⟨n % 16, Nat.mod_lt _ (by decide), h⟩

theorem hex_ne_nil (n : ℕ) : hex n ≠ [] := by
  rw [hex]; split <;> simp

theorem parseDigits_append (acc : ℕ) (xs ys : List Char) :
    parseDigits acc (xs ++ ys) = (parseDigits acc xs).bind fun a => parseDigits a ys := by
  induction xs generalizing acc with
  | nil => simp [parseDigits]
  | cons x xs ih =>
    simp only [List.cons_append, parseDigits]
    split
    · simp
    · split
      · exact ih _
      · simp

theorem parseDigits_hex (n : ℕ) (h : n < 2 ^ 32) : parseDigits 0 (hex n) = some n := by
  induction n using Nat.strong_induction_on with
  | _ n ih =>
    rw [hex]
    split
    · rename_i hn
      simp [parseDigits, digitValue_hexDigit hn]
      omega
    · rw [parseDigits_append, ih _ (by omega) (by omega)]
      have hm : n % 16 < 16 := Nat.mod_lt _ (by decide)
      have he : n / 16 * 16 + n % 16 = n := by omega
      simp [parseDigits, digitValue_hexDigit hm, he]
      omega

theorem trim0x_hex (n : ℕ) : trim0x (hex n) = hex n := by
  have hx : ∀ c ∈ hex n, c ≠ 'x' := by
    intro c hc
    obtain ⟨d, hd, rfl⟩ := mem_hex hc
    exact hexDigit_ne_x hd
  generalize hex n = l at hx
  unfold trim0x
  split
  · rename_i t
    exact absurd rfl (hx 'x' (by simp))
  · rfl

theorem fromStrRadix16_hex (n : ℕ) (h : n < 2 ^ 32) : fromStrRadix16 (hex n) = some n := by
  have hp : ∀ c ∈ hex n, c ≠ '+' := by
    intro c hc
    obtain ⟨d, hd, rfl⟩ := mem_hex hc
    exact hexDigit_ne_plus hd
  have := parseDigits_hex n h
  have hne := hex_ne_nil n
  generalize hex n = l at hp this hne
  unfold fromStrRadix16
  split
  · exact absurd rfl hne
  · exact absurd rfl (hp '+' (by simp))
  · exact absurd rfl (hp '+' (by simp))
  · exact this

theorem parseElement_hexString (m : M31) : parseElement (hexString m) = some m := by
  have hm := M31.val_lt m
  simp only [parseElement, hexString, trim0x, trim0x_hex]
  rw [fromStrRadix16_hex _ (by unfold P at hm; omega)]
  simp [M31.ofU32_of_val]

theorem mapM_parse (l : List M31) : (l.map hexString).mapM parseElement = some l := by
  induction l with
  | nil => rfl
  | cons a l ih => simp [parseElement_hexString, ih]

theorem deserialize_serialize (i : Instruction) : deserialize (serialize i) = some i := by
  have hlen : i.encode.length = i.sizeInM31s := Instruction.length_encode i
  have h1 : 0 < i.sizeInM31s ∧ i.sizeInM31s ≤ Instruction.instructionMaxSize := by
    cases i <;> simp [Instruction.sizeInM31s, Instruction.instructionMaxSize]
  unfold deserialize serialize
  rw [if_neg (by simp only [List.length_map, hlen]; omega), mapM_parse]
  simp [Instruction.decode_encode]

end Json
end CairoM
