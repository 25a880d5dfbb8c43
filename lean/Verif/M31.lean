import Mathlib.NumberTheory.LucasLehmer
import Mathlib.Data.ZMod.Basic
import Mathlib.Algebra.Field.ZMod

/-!
# The M31 field and QM31 words

Models stwo's `M31` (external crate `stwo_prover::core::fields::m31`, used everywhere in `/repo`),
the prime field of order `2^31 - 1`, and the four-limb representation of `QM31` used as VM memory words.
-/

namespace CairoM

/-- stwo `m31::P = 2^31 - 1` (imported e.g. by `crates/common/src/abi_codec.rs:5`). -/
abbrev P : ℕ := 2147483647

/-- stwo `M31`: integers mod `2^31-1`. `m.0` (canonical representative) is `m.val`. -/
abbrev M31 := ZMod P

theorem P_prime : Nat.Prime P := by
  have h : LucasLehmer.LucasLehmerTest 31 := by norm_num
  have := lucas_lehmer_sufficiency 31 (by norm_num) h
  simpa [mersenne] using this

instance factPrimeP : Fact (Nat.Prime P) := ⟨P_prime⟩

instance neZeroP : NeZero P := ⟨by decide⟩

/-- `M31::from(u32)` / `M31::from_u32_unchecked` on reduced input: reduction mod `P`. -/
def M31.ofU32 (n : ℕ) : M31 := (n : M31)

/-- `M31::from(i32)` (stwo): negative numbers are mapped to their residue. -/
def M31.ofInt (n : ℤ) : M31 := (n : M31)

/-- A memory word, `QM31` as its four `M31` limbs (`QM31::from_m31_array` / `to_m31_array`). -/
structure QM31 where
  l0 : M31
  l1 : M31
  l2 : M31
  l3 : M31
deriving DecidableEq, Repr

namespace QM31

/-- `QM31::zero()`. -/
def zero : QM31 := ⟨0, 0, 0, 0⟩

instance : Inhabited QM31 := ⟨zero⟩

/-- `QM31::from(m: M31)`: embed in the first limb. -/
def ofM31 (m : M31) : QM31 := ⟨m, 0, 0, 0⟩

/-- `QM31::to_m31_array`. -/
def limbs (q : QM31) : List M31 := [q.l0, q.l1, q.l2, q.l3]

/-- `QM31::from_m31_array` on a list of at most four limbs, zero padded. -/
def ofList (l : List M31) : QM31 := ⟨l.getD 0 0, l.getD 1 0, l.getD 2 0, l.getD 3 0⟩

/-- The word lies in the base field: limbs 1..3 are zero. -/
def isBase (q : QM31) : Prop := q.l1 = 0 ∧ q.l2 = 0 ∧ q.l3 = 0

instance (q : QM31) : Decidable q.isBase := by unfold isBase; infer_instance

end QM31

theorem M31.val_lt (x : M31) : x.val < P := ZMod.val_lt x

theorem M31.ofU32_val (n : ℕ) : (M31.ofU32 n).val = n % P := ZMod.val_natCast P n

theorem M31.ofU32_val_of_lt {n : ℕ} (h : n < P) : (M31.ofU32 n).val = n := ZMod.val_cast_of_lt h

theorem M31.ofU32_of_val (x : M31) : M31.ofU32 x.val = x := ZMod.natCast_zmod_val x

example : (5 : M31) - 7 = 2147483645 := by decide +kernel
example : (3 : M31) * (3 : M31)⁻¹ = 1 := by decide +kernel

end CairoM
