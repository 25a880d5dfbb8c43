import Verif.AirWriteSpec
import Verif.AirLemmas
import Verif.AirArith
import Mathlib.Tactic.LinearCombination
import Mathlib.Tactic.Ring

/-!
# Arithmetic of the u32 trace writers
-/

namespace CairoM
namespace Air

open Isa

theorem val_cast {n : ℕ} (h : n < P) : ((n : ℕ) : M31).val = n := ZMod.val_natCast_of_lt h

theorem rc16_cast {n : ℕ} (h : n < 2 ^ 16) : ((n : ℕ) : M31).val < 2 ^ 16 := by
  have hP : P = 2147483647 := rfl
  rwa [val_cast (by omega)]

theorem rc8_cast {n : ℕ} (h : n < 2 ^ 8) : ((n : ℕ) : M31).val < 2 ^ 8 := by
  have hP : P = 2147483647 := rfl
  rwa [val_cast (by omega)]

theorem bit_cast {n : ℕ} (h : n < 2) : ((n : ℕ) : M31) * (1 - (n : M31)) = 0 := by
  obtain rfl | rfl : n = 0 ∨ n = 1 := by omega
  · simp
  · simp

theorem over_of {x : M31} {s k w : ℕ} (hx : x = (s : M31)) (h : s = w + 65536 * k) (hw : w < 65536) (hk : k < 2) :
    over16 x = (k : M31) ∧ x - (k : M31) * 65536 = (w : M31) := by
  have hP : P = 2147483647 := rfl
  constructor
  · rw [over16, hx, val_cast (by omega)]
    obtain rfl | rfl : k = 0 ∨ k = 1 := by omega
    · rw [if_neg (by omega)]; simp
    · rw [if_pos (by omega)]; simp
  · rw [hx, h]; push_cast; ring

theorem shr_of {x : M31} {s c p : ℕ} (hx : x = (s : M31)) (h : s = p + 256 * c) (hp : p < 256) (hs : s < P) :
    shr8 x = (c : M31) ∧ x - (c : M31) * 256 = (p : M31) := by
  constructor
  · rw [shr8, hx, val_cast hs, Nat.shiftRight_eq_div_pow]; congr 1; omega
  · rw [hx, h]; push_cast; ring

theorem low_of {s l h : ℕ} (e : s = l + 256 * h) (hl : l < 256) (hh : h < 256) :
    low8 (s : M31) = (l : M31) ∧ mid8 (s : M31) = (h : M31) ∧ shr8 (s : M31) = (h : M31) := by
  have hP : P = 2147483647 := rfl
  have e1 : s % 2 ^ 8 = l := by omega
  have e2 : s / 2 ^ 8 = h := by omega
  have e3 : h % 2 ^ 8 = h := by omega
  refine ⟨?_, ?_, ?_⟩
  · rw [low8, val_cast (by omega), show (0xFF : ℕ) = 2 ^ 8 - 1 from rfl, Nat.and_two_pow_sub_one_eq_mod, e1]
  · rw [mid8, val_cast (by omega), show (0xFF : ℕ) = 2 ^ 8 - 1 from rfl, Nat.and_two_pow_sub_one_eq_mod,
      Nat.shiftRight_eq_div_pow, e2, e3]
  · rw [shr8, val_cast (by omega), Nat.shiftRight_eq_div_pow, e2]

theorem bytes_of {s : ℕ} (hs : s < 2 ^ 16) : ∃ l h : ℕ, l < 256 ∧ h < 256 ∧ s = l + 256 * h :=
  ⟨s % 256, s / 256, by omega, by omega, by omega⟩

theorem byte_sum {l h s : ℕ} (e : s = l + 256 * h) : (l : M31) + (h : M31) * 256 = (s : M31) := by
  rw [e]; push_cast; ring

theorem rc_sub {m : M31} {n c : ℕ} (hm : m = ((n : ℕ) : M31)) (hc : c ≤ n) (hn : n < 2 ^ 16) :
    (m - (c : M31)).val < 2 ^ 16 := by
  rw [hm, ← Nat.cast_sub hc]; exact rc16_cast (by omega)

theorem mul_le {x y : ℕ} (hx : x < 256) (hy : y < 256) : x * y ≤ 65025 :=
  (Nat.mul_le_mul (by omega : x ≤ 255) (by omega : y ≤ 255)).trans (by norm_num)

/-- The columns of the addition. -/
theorem add_write {x0 x1 y0 y1 w0 w1 : ℕ} (hx0 : x0 < 2 ^ 16) (hx1 : x1 < 2 ^ 16) (hy0 : y0 < 2 ^ 16)
    (hy1 : y1 < 2 ^ 16) (hw0 : (x0 + 2 ^ 16 * x1 + (y0 + 2 ^ 16 * y1)) % 2 ^ 32 % 2 ^ 16 = w0)
    (hw1 : (x0 + 2 ^ 16 * x1 + (y0 + 2 ^ 16 * y1)) % 2 ^ 32 / 2 ^ 16 = w1) :
    ∃ k0 k1 : ℕ, k0 < 2 ∧ k1 < 2 ∧ w0 < 2 ^ 16 ∧ w1 < 2 ^ 16 ∧
      over16 ((x0 : M31) + (y0 : M31)) = (k0 : M31) ∧ over16 ((x1 : M31) + (y1 : M31) + (k0 : M31)) = (k1 : M31) ∧
      (x0 : M31) + (y0 : M31) - (k0 : M31) * 65536 = (w0 : M31) ∧
      (x1 : M31) + (y1 : M31) + (k0 : M31) - (k1 : M31) * 65536 = (w1 : M31) := by
  obtain ⟨k0, hk0⟩ : ∃ k0, k0 = (x0 + y0) / 65536 := ⟨_, rfl⟩
  obtain ⟨k1, hk1⟩ : ∃ k1, k1 = (x1 + y1 + k0) / 65536 := ⟨_, rfl⟩
  obtain ⟨a1, a2⟩ := over_of (x := (x0 : M31) + (y0 : M31)) (s := x0 + y0) (k := k0) (w := w0) (by push_cast; ring)
    (by omega) (by omega) (by omega)
  obtain ⟨b1, b2⟩ := over_of (x := (x1 : M31) + (y1 : M31) + (k0 : M31)) (s := x1 + y1 + k0) (k := k1) (w := w1)
    (by push_cast; ring) (by omega) (by omega) (by omega)
  exact ⟨k0, k1, by omega, by omega, by omega, by omega, a1, b1, a2, b2⟩

/-- The columns of the subtraction. -/
theorem sub_write {x0 x1 y0 y1 w0 w1 : ℕ} (hx0 : x0 < 2 ^ 16) (hx1 : x1 < 2 ^ 16) (hy0 : y0 < 2 ^ 16)
    (hy1 : y1 < 2 ^ 16) (hw0 : (x0 + 2 ^ 16 * x1 + 2 ^ 32 - (y0 + 2 ^ 16 * y1)) % 2 ^ 32 % 2 ^ 16 = w0)
    (hw1 : (x0 + 2 ^ 16 * x1 + 2 ^ 32 - (y0 + 2 ^ 16 * y1)) % 2 ^ 32 / 2 ^ 16 = w1) :
    ∃ k0 k1 : ℕ, k0 < 2 ∧ k1 < 2 ∧ w0 < 2 ^ 16 ∧ w1 < 2 ^ 16 ∧
      below (x0 : M31) (y0 : M31) = (k0 : M31) ∧ below (x1 : M31) ((y1 : M31) + (k0 : M31)) = (k1 : M31) ∧
      (x0 : M31) + (k0 : M31) * 65536 - (y0 : M31) = (w0 : M31) ∧
      (x1 : M31) - (k0 : M31) + (k1 : M31) * 65536 - (y1 : M31) = (w1 : M31) := by
  have hP : P = 2147483647 := rfl
  obtain ⟨k0, hk0⟩ : ∃ k0, k0 = if x0 < y0 then 1 else 0 := ⟨_, rfl⟩
  obtain ⟨k1, hk1⟩ : ∃ k1, k1 = if x1 < y1 + k0 then 1 else 0 := ⟨_, rfl⟩
  have e0 : x0 + k0 * 65536 = w0 + y0 := by split at hk0 <;> omega
  have e1 : x1 + k1 * 65536 = w1 + y1 + k0 := by split at hk0 <;> split at hk1 <;> omega
  refine ⟨k0, k1, by split at hk0 <;> omega, by split at hk1 <;> omega, by omega, by omega, ?_, ?_, ?_, ?_⟩
  · rw [below, val_cast (by omega), val_cast (by omega), hk0]; split <;> simp
  · rw [below, ← Nat.cast_add, val_cast (by omega), val_cast (by split at hk0 <;> omega), hk1]; split <;> simp
  · have := congrArg (Nat.cast (R := M31)) e0
    push_cast at this
    linear_combination this
  · have := congrArg (Nat.cast (R := M31)) e1
    push_cast at this
    linear_combination this

/-- The columns of the comparison `x < y`. -/
theorem lt_write {x0 x1 y0 y1 : ℕ} (hx0 : x0 < 2 ^ 16) (hx1 : x1 < 2 ^ 16) (hy0 : y0 < 2 ^ 16) (hy1 : y1 < 2 ^ 16) :
    ∃ k0 k1 : ℕ, k0 < 2 ∧ k1 < 2 ∧
      belowSum (y0 : M31) (x0 : M31) 1 = (k0 : M31) ∧ belowSum (y1 : M31) (x1 : M31) (k0 : M31) = (k1 : M31) ∧
      ((y0 : M31) - 1 + (k0 : M31) * 65536 - (x0 : M31)).val < 2 ^ 16 ∧
      ((y1 : M31) - (k0 : M31) + (k1 : M31) * 65536 - (x1 : M31)).val < 2 ^ 16 ∧
      1 - (k1 : M31) = bit (x0 + 2 ^ 16 * x1 < y0 + 2 ^ 16 * y1) := by
  have hP : P = 2147483647 := rfl
  obtain ⟨k0, hk0⟩ : ∃ k0, k0 = if y0 < x0 + 1 then 1 else 0 := ⟨_, rfl⟩
  obtain ⟨k1, hk1⟩ : ∃ k1, k1 = if y1 < x1 + k0 then 1 else 0 := ⟨_, rfl⟩
  obtain ⟨t0, ht0⟩ : ∃ t0, y0 + k0 * 65536 = t0 + x0 + 1 := ⟨y0 + k0 * 65536 - (x0 + 1), by split at hk0 <;> omega⟩
  obtain ⟨t1, ht1⟩ : ∃ t1, y1 + k1 * 65536 = t1 + x1 + k0 :=
    ⟨y1 + k1 * 65536 - (x1 + k0), by split at hk0 <;> split at hk1 <;> omega⟩
  refine ⟨k0, k1, by split at hk0 <;> omega, by split at hk1 <;> omega, ?_, ?_, ?_, ?_, ?_⟩
  · rw [belowSum, val_cast (by omega), val_cast (by omega), show (1 : M31).val = 1 from rfl, hk0]; split <;> simp
  · rw [belowSum, val_cast (by omega), val_cast (by omega), val_cast (by split at hk0 <;> omega), hk1]; split <;> simp
  · have := congrArg (Nat.cast (R := M31)) ht0
    push_cast at this
    rw [show (y0 : M31) - 1 + (k0 : M31) * 65536 - (x0 : M31) = (t0 : M31) by linear_combination this]
    exact rc16_cast (by split at hk0 <;> omega)
  · have := congrArg (Nat.cast (R := M31)) ht1
    push_cast at this
    rw [show (y1 : M31) - (k0 : M31) + (k1 : M31) * 65536 - (x1 : M31) = (t1 : M31) by linear_combination this]
    exact rc16_cast (by split at hk0 <;> split at hk1 <;> omega)
  · by_cases h : x0 + 2 ^ 16 * x1 < y0 + 2 ^ 16 * y1
    · rw [bit, if_pos h, hk1, if_neg (by split at hk0 <;> omega)]; simp
    · rw [bit, if_neg h, hk1, if_pos (by split at hk0 <;> omega)]; simp

/-- The columns of the multiplication. -/
theorem mul_write {x0 x1 x2 x3 y0 y1 y2 y3 : ℕ} (hx0 : x0 < 256) (hx1 : x1 < 256) (hx2 : x2 < 256) (hx3 : x3 < 256)
    (hy0 : y0 < 256) (hy1 : y1 < 256) (hy2 : y2 < 256) (hy3 : y3 < 256) :
    ∃ r0 r1 r2 r3 c0 c1 c2 c3 : ℕ, r0 < 256 ∧ r1 < 256 ∧ r2 < 256 ∧ r3 < 256 ∧ c0 ≤ 254 ∧ c1 ≤ 509 ∧ c2 ≤ 764 ∧
      c3 ≤ 1019 ∧
      shr8 ((x0 : M31) * (y0 : M31)) = (c0 : M31) ∧
      shr8 ((x0 : M31) * (y1 : M31) + (x1 : M31) * (y0 : M31) + (c0 : M31)) = (c1 : M31) ∧
      shr8 ((x0 : M31) * (y2 : M31) + (x1 : M31) * (y1 : M31) + (x2 : M31) * (y0 : M31) + (c1 : M31)) = (c2 : M31) ∧
      shr8 ((x0 : M31) * (y3 : M31) + (x1 : M31) * (y2 : M31) + (x2 : M31) * (y1 : M31) + (x3 : M31) * (y0 : M31) +
        (c2 : M31)) = (c3 : M31) ∧
      (x0 : M31) * (y0 : M31) - (c0 : M31) * 256 = (r0 : M31) ∧
      (x0 : M31) * (y1 : M31) + (x1 : M31) * (y0 : M31) + (c0 : M31) - (c1 : M31) * 256 = (r1 : M31) ∧
      (x0 : M31) * (y2 : M31) + (x1 : M31) * (y1 : M31) + (x2 : M31) * (y0 : M31) + (c1 : M31) - (c2 : M31) * 256 =
        (r2 : M31) ∧
      (x0 : M31) * (y3 : M31) + (x1 : M31) * (y2 : M31) + (x2 : M31) * (y1 : M31) + (x3 : M31) * (y0 : M31) +
        (c2 : M31) - (c3 : M31) * 256 = (r3 : M31) ∧
      (x0 + 256 * x1 + 2 ^ 16 * (x2 + 256 * x3)) * (y0 + 256 * y1 + 2 ^ 16 * (y2 + 256 * y3)) % 2 ^ 32 =
        r0 + 256 * r1 + 2 ^ 16 * (r2 + 256 * r3) := by
  have hP : P = 2147483647 := rfl
  have m00 := mul_le hx0 hy0
  have m01 := mul_le hx0 hy1
  have m02 := mul_le hx0 hy2
  have m03 := mul_le hx0 hy3
  have m10 := mul_le hx1 hy0
  have m11 := mul_le hx1 hy1
  have m12 := mul_le hx1 hy2
  have m20 := mul_le hx2 hy0
  have m21 := mul_le hx2 hy1
  have m30 := mul_le hx3 hy0
  obtain ⟨r0, c0, hr0, e0⟩ : ∃ r c, r < 256 ∧ x0 * y0 = r + 256 * c := 
    ⟨_ % 256, _ / 256, Nat.mod_lt _ (by omega), (Nat.mod_add_div _ _).symm⟩
  obtain ⟨r1, c1, hr1, e1⟩ : ∃ r c, r < 256 ∧ x0 * y1 + x1 * y0 + c0 = r + 256 * c :=
    ⟨_ % 256, _ / 256, Nat.mod_lt _ (by omega), (Nat.mod_add_div _ _).symm⟩
  obtain ⟨r2, c2, hr2, e2⟩ : ∃ r c, r < 256 ∧ x0 * y2 + x1 * y1 + x2 * y0 + c1 = r + 256 * c :=
    ⟨_ % 256, _ / 256, Nat.mod_lt _ (by omega), (Nat.mod_add_div _ _).symm⟩
  obtain ⟨r3, c3, hr3, e3⟩ : ∃ r c, r < 256 ∧ x0 * y3 + x1 * y2 + x2 * y1 + x3 * y0 + c2 = r + 256 * c :=
    ⟨_ % 256, _ / 256, Nat.mod_lt _ (by omega), (Nat.mod_add_div _ _).symm⟩
  have b0 : c0 ≤ 254 := by omega
  have b1 : c1 ≤ 509 := by omega
  have b2 : c2 ≤ 764 := by omega
  have b3 : c3 ≤ 1019 := by omega
  obtain ⟨f0, g0⟩ := shr_of (x := (x0 : M31) * (y0 : M31)) (by push_cast; ring) e0 hr0 (by omega)
  obtain ⟨f1, g1⟩ := shr_of (x := (x0 : M31) * (y1 : M31) + (x1 : M31) * (y0 : M31) + (c0 : M31)) (by push_cast; ring)
    e1 hr1 (by omega)
  obtain ⟨f2, g2⟩ := shr_of (x := (x0 : M31) * (y2 : M31) + (x1 : M31) * (y1 : M31) + (x2 : M31) * (y0 : M31) +
    (c1 : M31)) (by push_cast; ring) e2 hr2 (by omega)
  obtain ⟨f3, g3⟩ := shr_of (x := (x0 : M31) * (y3 : M31) + (x1 : M31) * (y2 : M31) + (x2 : M31) * (y1 : M31) +
    (x3 : M31) * (y0 : M31) + (c2 : M31)) (by push_cast; ring) e3 hr3 (by omega)
  refine ⟨r0, r1, r2, r3, c0, c1, c2, c3, hr0, hr1, hr2, hr3, b0, b1, b2, b3, f0, f1, f2, f3, g0, g1, g2, g3, ?_⟩
  rw [show (x0 + 256 * x1 + 2 ^ 16 * (x2 + 256 * x3)) * (y0 + 256 * y1 + 2 ^ 16 * (y2 + 256 * y3)) =
    (r0 + 256 * r1 + 2 ^ 16 * (r2 + 256 * r3)) + 2 ^ 32 * (c3 + (x1 * y3 + x2 * y2 + x3 * y1) +
      256 * (x2 * y3 + x3 * y2) + 65536 * (x3 * y3)) by
    linear_combination e0 + 256 * e1 + 65536 * e2 + 16777216 * e3, Nat.add_mul_mod_self_left, Nat.mod_eq_of_lt]
  omega

theorem joined_cast {lo hi : ℕ} (hl : lo < 2 ^ 16) (hh : hi < 2 ^ 16) :
    joined (lo : M31) (hi : M31) = lo + 2 ^ 16 * hi := by
  have hP : P = 2147483647 := rfl
  rw [joined, val_cast (by omega), val_cast (by omega), Nat.mod_eq_of_lt (by rw [Nat.shiftLeft_eq]; omega), Nat.or_comm,
    ← Nat.shiftLeft_add_eq_or_of_lt hl, Nat.shiftLeft_eq]
  omega

theorem borrow_cast {d0 d1 r b : ℕ} (h0 : d0 < 256) (h1 : d1 < 256) (hr : r < 2 ^ 16) (hb : b < 2) :
    borrowByte (d0 : M31) (d1 : M31) (r : M31) (b : M31) = ((if d0 + 256 * d1 < r + b then 1 else 0 : ℕ) : M31) := by
  have hP : P = 2147483647 := rfl
  rw [borrowByte, val_cast (by omega), val_cast (by omega), val_cast (by omega), val_cast (by omega), Nat.or_comm,
    ← Nat.shiftLeft_add_eq_or_of_lt (show d0 < 2 ^ 8 from h0), Nat.shiftLeft_eq,
    show d1 * 2 ^ 8 + d0 = d0 + 256 * d1 by omega]
  split <;> simp

/-- The columns of the division, for a quotient and remainder given by bytes and limbs. -/
theorem div_write {d0 d1 d2 d3 q0 q1 q2 q3 n0 n1 s0 s1 : ℕ} (hd0 : d0 < 256) (hd1 : d1 < 256) (hd2 : d2 < 256)
    (hd3 : d3 < 256) (hq0 : q0 < 256) (hq1 : q1 < 256) (hq2 : q2 < 256) (hq3 : q3 < 256) (hn0 : n0 < 2 ^ 16)
    (hn1 : n1 < 2 ^ 16) (hs0 : s0 < 2 ^ 16) (hs1 : s1 < 2 ^ 16)
    (hn : n0 + 2 ^ 16 * n1 = (q0 + 256 * q1 + 2 ^ 16 * (q2 + 256 * q3)) * (d0 + 256 * d1 + 2 ^ 16 * (d2 + 256 * d3)) +
      (s0 + 2 ^ 16 * s1))
    (hs : s0 + 2 ^ 16 * s1 < d0 + 256 * d1 + 2 ^ 16 * (d2 + 256 * d3)) :
    ∃ p0 p1 p2 p3 c0 c1 c2 a0 b0 : ℕ, p0 < 256 ∧ p1 < 256 ∧ p2 < 256 ∧ p3 < 256 ∧ c0 ≤ 254 ∧ c1 ≤ 509 ∧ c2 ≤ 764 ∧
      a0 < 2 ∧ b0 < 2 ∧
      shr8 ((q0 : M31) * (d0 : M31)) = (c0 : M31) ∧
      shr8 ((q0 : M31) * (d1 : M31) + (q1 : M31) * (d0 : M31) + (c0 : M31)) = (c1 : M31) ∧
      shr8 ((q0 : M31) * (d2 : M31) + (q2 : M31) * (d0 : M31) + (q1 : M31) * (d1 : M31) + (c1 : M31)) = (c2 : M31) ∧
      shr8 ((q0 : M31) * (d3 : M31) + (q3 : M31) * (d0 : M31) + (q1 : M31) * (d2 : M31) + (q2 : M31) * (d1 : M31) +
        (c2 : M31)) = 0 ∧
      (q0 : M31) * (d0 : M31) - (c0 : M31) * 256 = (p0 : M31) ∧
      (q0 : M31) * (d1 : M31) + (q1 : M31) * (d0 : M31) + (c0 : M31) - (c1 : M31) * 256 = (p1 : M31) ∧
      (q0 : M31) * (d2 : M31) + (q2 : M31) * (d0 : M31) + (q1 : M31) * (d1 : M31) + (c1 : M31) - (c2 : M31) * 256 =
        (p2 : M31) ∧
      (q0 : M31) * (d3 : M31) + (q3 : M31) * (d0 : M31) + (q1 : M31) * (d2 : M31) + (q2 : M31) * (d1 : M31) +
        (c2 : M31) = (p3 : M31) ∧
      (q1 : M31) * (d3 : M31) + (q3 : M31) * (d1 : M31) + (q2 : M31) * (d2 : M31) = 0 ∧
      (q2 : M31) * (d3 : M31) + (q3 : M31) * (d2 : M31) = 0 ∧
      (q3 : M31) * (d3 : M31) = 0 ∧
      over16 ((p0 : M31) + (p1 : M31) * 256 + (s0 : M31)) = (a0 : M31) ∧
      over16 ((p2 : M31) + (p3 : M31) * 256 + (s1 : M31) + (a0 : M31)) = 0 ∧
      (n0 : M31) = (p0 : M31) + (p1 : M31) * 256 + (s0 : M31) - (a0 : M31) * 65536 ∧
      (n1 : M31) = (p2 : M31) + (p3 : M31) * 256 + (s1 : M31) + (a0 : M31) ∧
      borrowByte (d0 : M31) (d1 : M31) (s0 : M31) 1 = (b0 : M31) ∧
      borrowByte (d2 : M31) (d3 : M31) (s1 : M31) (b0 : M31) = 0 ∧
      ((d0 : M31) + (d1 : M31) * 256 + (b0 : M31) * 65536 - (s0 : M31) - 1).val < 2 ^ 16 ∧
      ((d2 : M31) + (d3 : M31) * 256 - (s1 : M31) - (b0 : M31)).val < 2 ^ 16 := by
  have hP : P = 2147483647 := rfl
  have m00 := mul_le hq0 hd0
  have m01 := mul_le hq0 hd1
  have m02 := mul_le hq0 hd2
  have m03 := mul_le hq0 hd3
  have m10 := mul_le hq1 hd0
  have m11 := mul_le hq1 hd1
  have m12 := mul_le hq1 hd2
  have m20 := mul_le hq2 hd0
  have m21 := mul_le hq2 hd1
  have m30 := mul_le hq3 hd0
  obtain ⟨p0, c0, hp0, e0⟩ : ∃ r c, r < 256 ∧ q0 * d0 = r + 256 * c := 
    ⟨_ % 256, _ / 256, Nat.mod_lt _ (by omega), (Nat.mod_add_div _ _).symm⟩
  obtain ⟨p1, c1, hp1, e1⟩ : ∃ r c, r < 256 ∧ q0 * d1 + q1 * d0 + c0 = r + 256 * c :=
    ⟨_ % 256, _ / 256, Nat.mod_lt _ (by omega), (Nat.mod_add_div _ _).symm⟩
  obtain ⟨p2, c2, hp2, e2⟩ : ∃ r c, r < 256 ∧ q0 * d2 + q2 * d0 + q1 * d1 + c1 = r + 256 * c :=
    ⟨_ % 256, _ / 256, Nat.mod_lt _ (by omega), (Nat.mod_add_div _ _).symm⟩
  obtain ⟨p3, c3, hp3, e3⟩ : ∃ r c, r < 256 ∧ q0 * d3 + q3 * d0 + q1 * d2 + q2 * d1 + c2 = r + 256 * c :=
    ⟨_ % 256, _ / 256, Nat.mod_lt _ (by omega), (Nat.mod_add_div _ _).symm⟩
  have hmul : (q0 + 256 * q1 + 2 ^ 16 * (q2 + 256 * q3)) * (d0 + 256 * d1 + 2 ^ 16 * (d2 + 256 * d3)) =
      (p0 + 256 * p1 + 2 ^ 16 * (p2 + 256 * p3)) + 2 ^ 32 * (c3 + (q1 * d3 + q3 * d1 + q2 * d2) +
        256 * (q2 * d3 + q3 * d2) + 65536 * (q3 * d3)) := by
    linear_combination e0 + 256 * e1 + 65536 * e2 + 16777216 * e3
  rw [hmul] at hn
  have z4 : q1 * d3 + q3 * d1 + q2 * d2 = 0 := by omega
  have z5 : q2 * d3 + q3 * d2 = 0 := by omega
  have z6 : q3 * d3 = 0 := by omega
  obtain rfl : c3 = 0 := by omega
  clear hmul
  rw [z4, z5, z6] at hn
  have b0 : c0 ≤ 254 := by omega
  have b1 : c1 ≤ 509 := by omega
  have b2 : c2 ≤ 764 := by omega
  obtain ⟨f0, g0⟩ := shr_of (x := (q0 : M31) * (d0 : M31)) (by push_cast; ring) e0 hp0 (by omega)
  obtain ⟨f1, g1⟩ := shr_of (x := (q0 : M31) * (d1 : M31) + (q1 : M31) * (d0 : M31) + (c0 : M31)) (by push_cast; ring)
    e1 hp1 (by omega)
  obtain ⟨f2, g2⟩ := shr_of (x := (q0 : M31) * (d2 : M31) + (q2 : M31) * (d0 : M31) + (q1 : M31) * (d1 : M31) +
    (c1 : M31)) (by push_cast; ring) e2 hp2 (by omega)
  obtain ⟨f3, g3⟩ := shr_of (x := (q0 : M31) * (d3 : M31) + (q3 : M31) * (d0 : M31) + (q1 : M31) * (d2 : M31) +
    (q2 : M31) * (d1 : M31) + (c2 : M31)) (by push_cast; ring) e3 hp3 (by omega)
  obtain ⟨a0, ha0⟩ : ∃ a0, a0 = (p0 + 256 * p1 + s0) / 65536 := ⟨_, rfl⟩
  obtain ⟨u0, v0⟩ := over_of (x := (p0 : M31) + (p1 : M31) * 256 + (s0 : M31)) (s := p0 + 256 * p1 + s0) (k := a0)
    (w := n0) (by push_cast; ring) (by omega) (by omega) (by omega)
  obtain ⟨u1, v1⟩ := over_of (x := (p2 : M31) + (p3 : M31) * 256 + (s1 : M31) + (a0 : M31)) (s := p2 + 256 * p3 + s1 + a0)
    (k := 0) (w := n1) (by push_cast; ring) (by omega) (by omega) (by omega)
  obtain ⟨k, hk⟩ : ∃ k : ℕ, k = if d0 + 256 * d1 < s0 + 1 then 1 else 0 := ⟨_, rfl⟩
  have hk2 : k < 2 := by split at hk <;> omega
  have w0 := borrow_cast (b := 1) hd0 hd1 hs0 (by omega)
  have w1 := borrow_cast (b := k) hd2 hd3 hs1 hk2
  rw [if_neg (by split at hk <;> omega)] at w1
  rw [← hk] at w0
  obtain ⟨t0, ht0⟩ : ∃ t0, d0 + 256 * d1 + k * 65536 = t0 + s0 + 1 :=
    ⟨d0 + 256 * d1 + k * 65536 - (s0 + 1), by split at hk <;> omega⟩
  obtain ⟨t1, ht1⟩ : ∃ t1, d2 + 256 * d3 = t1 + s1 + k := ⟨d2 + 256 * d3 - (s1 + k), by split at hk <;> omega⟩
  simp only [Nat.cast_zero, Nat.cast_one, zero_mul, sub_zero] at f3 g3 u1 v1 w0 w1
  refine ⟨p0, p1, p2, p3, c0, c1, c2, a0, k, hp0, hp1, hp2, hp3, b0, b1, b2, by omega, hk2, f0, f1, f2, f3, g0, g1, g2, g3,
    by exact_mod_cast congrArg (Nat.cast (R := M31)) z4, by exact_mod_cast congrArg (Nat.cast (R := M31)) z5,
    by exact_mod_cast congrArg (Nat.cast (R := M31)) z6, u0, u1, v0.symm, v1.symm, w0, w1, ?_, ?_⟩
  · have := congrArg (Nat.cast (R := M31)) ht0
    push_cast at this
    rw [show (d0 : M31) + (d1 : M31) * 256 + (k : M31) * 65536 - (s0 : M31) - 1 = (t0 : M31) by
      linear_combination this]
    exact rc16_cast (by split at hk <;> omega)
  · have := congrArg (Nat.cast (R := M31)) ht1
    push_cast at this
    rw [show (d2 : M31) + (d3 : M31) * 256 - (s1 : M31) - (k : M31) = (t1 : M31) by linear_combination this]
    exact rc16_cast (by split at hk <;> omega)

/-- The columns of the bitwise operations. -/
theorem bitwise_write {o u0 u1 u2 u3 v0 v1 v2 v3 w0 w1 : ℕ} (hu0 : u0 < 256) (hu1 : u1 < 256) (hu2 : u2 < 256)
    (hu3 : u3 < 256) (hv0 : v0 < 256) (hv1 : v1 < 256) (hv2 : v2 < 256) (hv3 : v3 < 256)
    (hw0 : bitwiseOp o (u0 + 256 * u1 + 2 ^ 16 * (u2 + 256 * u3)) (v0 + 256 * v1 + 2 ^ 16 * (v2 + 256 * v3)) % 2 ^ 16 = w0)
    (hw1 : bitwiseOp o (u0 + 256 * u1 + 2 ^ 16 * (u2 + 256 * u3)) (v0 + 256 * v1 + 2 ^ 16 * (v2 + 256 * v3)) / 2 ^ 16 =
      w1) :
    ∃ t0 t1 t2 t3 : ℕ, t0 < 256 ∧ t1 < 256 ∧ t2 < 256 ∧ t3 < 256 ∧ t0 = bitwiseOp o u0 v0 ∧ t1 = bitwiseOp o u1 v1 ∧
      t2 = bitwiseOp o u2 v2 ∧ t3 = bitwiseOp o u3 v3 ∧ w0 = t0 + 256 * t1 ∧ w1 = t2 + 256 * t3 := by
  have l0 := bitwiseOp_lt (op := o) (a := u0) (b := v0) hu0 hv0
  have l1 := bitwiseOp_lt (op := o) (a := u1) (b := v1) hu1 hv1
  have l2 := bitwiseOp_lt (op := o) (a := u2) (b := v2) hu2 hv2
  have l3 := bitwiseOp_lt (op := o) (a := u3) (b := v3) hu3 hv3
  rw [show (256 : ℕ) = 2 ^ 8 from rfl, bitwiseOp_cat (by omega) (by omega), bitwiseOp_cat hu0 hv0, bitwiseOp_cat hu2 hv2]
    at hw0 hw1
  exact ⟨_, _, _, _, l0, l1, l2, l3, rfl, rfl, rfl, rfl, by omega, by omega⟩

theorem holds_bitwise {op : M31} {o a b c : ℕ} (ho : op = (o : M31)) (h3 : o < 3) (ha : a < 256) (hb : b < 256)
    (hc : c = bitwiseOp o a b) : Entry.TableHolds ⟨.bitwise, -1, [op, (a : M31), (b : M31), (c : M31)]⟩ := fun _ =>
  ⟨o, a, b, h3, ha, hb, by rw [ho, hc]; rfl⟩

/-- The columns of the equality test. -/
theorem eq_write {x0 x1 y0 y1 : ℕ} (hx0 : x0 < 2 ^ 16) (hx1 : x1 < 2 ^ 16) (hy0 : y0 < 2 ^ 16) (hy1 : y1 < 2 ^ 16) :
    ((y0 : M31) - (x0 : M31)) * (invOrZero ((y0 : M31) - (x0 : M31)) * ((y0 : M31) - (x0 : M31)) - 1) = 0 ∧
    ((y1 : M31) - (x1 : M31)) * (invOrZero ((y1 : M31) - (x1 : M31)) * ((y1 : M31) - (x1 : M31)) - 1) = 0 ∧
    (1 - ((y0 : M31) - (x0 : M31)) * invOrZero ((y0 : M31) - (x0 : M31))) *
      (1 - ((y1 : M31) - (x1 : M31)) * invOrZero ((y1 : M31) - (x1 : M31))) =
      bit (x0 + 2 ^ 16 * x1 = y0 + 2 ^ 16 * y1) := by
  have hP : P = 2147483647 := rfl
  have key : ∀ {a b : ℕ}, a < 2 ^ 16 → b < 2 ^ 16 → ((b : M31) - (a : M31) = 0 ↔ a = b) := by
    intro a b ha hb
    constructor
    · intro h
      have := congrArg ZMod.val (sub_eq_zero.1 h)
      rw [val_cast (by omega), val_cast (by omega)] at this
      exact this.symm
    · rintro rfl; exact sub_self _
  have inv : ∀ z : M31, z ≠ 0 → z * invOrZero z = 1 := fun z hz => by rw [invOrZero, if_neg hz, mul_inv_cancel₀ hz]
  refine ⟨?_, ?_, ?_⟩
  · by_cases h : (y0 : M31) - (x0 : M31) = 0
    · rw [h, zero_mul]
    · rw [mul_comm (invOrZero _), inv _ h, sub_self, mul_zero]
  · by_cases h : (y1 : M31) - (x1 : M31) = 0
    · rw [h, zero_mul]
    · rw [mul_comm (invOrZero _), inv _ h, sub_self, mul_zero]
  · by_cases h0 : (y0 : M31) - (x0 : M31) = 0
    · by_cases h1 : (y1 : M31) - (x1 : M31) = 0
      · have e0 := (key hx0 hy0).1 h0
        have e1 := (key hx1 hy1).1 h1
        rw [h0, h1, bit, if_pos (by rw [e0, e1])]; simp
      · have e1 := mt (key hx1 hy1).2 h1
        rw [inv _ h1, sub_self, mul_zero, bit, if_neg (by omega)]
    · have e0 := mt (key hx0 hy0).2 h0
      rw [inv _ h0, sub_self, zero_mul, bit, if_neg (by omega)]

end Air
end CairoM
