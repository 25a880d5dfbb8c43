import Verif.AirLemmas
import Mathlib.Tactic.Ring
import Mathlib.Tactic.LinearCombination

/-!
# Integer arithmetic behind the 32-bit circuits

Constraints hold modulo `P`; range checks make them hold over the integers.
-/

set_option linter.unusedSimpArgs false
set_option linter.unusedVariables false

namespace CairoM
namespace Air

open Isa

theorem int_zero {z : ℤ} (h : ((z : ℤ) : M31) = 0) (h1 : -2147483647 < z) (h2 : z < 2147483647) : z = 0 := by
  have hd : (P : ℤ) ∣ z := (ZMod.intCast_zmod_eq_zero_iff_dvd z P).1 h
  have hp : (P : ℤ) = 2147483647 := rfl
  rw [hp] at hd
  omega

theorem val_bit {x : M31} (h : x = 0 ∨ x = 1) : x.val = 0 ∨ x.val = 1 := by
  rcases h with rfl | rfl
  · left; rfl
  · right; rfl

theorem cast_val (x : M31) : ((x.val : ℤ) : M31) = x := by
  rw [Int.cast_natCast, ZMod.natCast_zmod_val]

theorem val_le (x : M31) : x.val < 2147483647 := ZMod.val_lt x

/-- `(a, b) + (c, d)` with carries. -/
theorem add_core {a b c d k l x y : M31} (ha : a.val < 2 ^ 16) (hb : b.val < 2 ^ 16) (hc : c.val < 2 ^ 16)
    (hd : d.val < 2 ^ 16) (hk : k = 0 ∨ k = 1) (hl : l = 0 ∨ l = 1) (hx : x.val < 2 ^ 16) (hy : y.val < 2 ^ 16)
    (ex : x = a + c - k * 65536) (ey : y = b + d + k - l * 65536) :
    (a.val + 2 ^ 16 * b.val + (c.val + 2 ^ 16 * d.val)) % 2 ^ 32 = x.val + 2 ^ 16 * y.val := by
  have hk := val_bit hk
  have hl := val_bit hl
  have e1 : (a.val + c.val - k.val * 65536 - x.val : ℤ) = 0 := by
    apply int_zero
    · simp only [Int.cast_add, Int.cast_sub, Int.cast_mul, Int.cast_natCast, ZMod.natCast_zmod_val, Int.cast_ofNat, Int.cast_one, Int.cast_zero]; rw [ex]; ring
    · omega
    · omega
  have e2 : (b.val + d.val + k.val - l.val * 65536 - y.val : ℤ) = 0 := by
    apply int_zero
    · simp only [Int.cast_add, Int.cast_sub, Int.cast_mul, Int.cast_natCast, ZMod.natCast_zmod_val, Int.cast_ofNat, Int.cast_one, Int.cast_zero]; rw [ey]; ring
    · omega
    · omega
  omega

/-- `(a, b) - (c, d)` with borrows. -/
theorem sub_core {a b c d k l x y : M31} (ha : a.val < 2 ^ 16) (hb : b.val < 2 ^ 16) (hc : c.val < 2 ^ 16)
    (hd : d.val < 2 ^ 16) (hk : k = 0 ∨ k = 1) (hl : l = 0 ∨ l = 1) (hx : x.val < 2 ^ 16) (hy : y.val < 2 ^ 16)
    (ex : x = a + k * 65536 - c) (ey : y = b - k + l * 65536 - d) :
    (a.val + 2 ^ 16 * b.val + 2 ^ 32 - (c.val + 2 ^ 16 * d.val)) % 2 ^ 32 = x.val + 2 ^ 16 * y.val := by
  have hk := val_bit hk
  have hl := val_bit hl
  have e1 : (a.val + k.val * 65536 - c.val - x.val : ℤ) = 0 := by
    apply int_zero
    · simp only [Int.cast_add, Int.cast_sub, Int.cast_mul, Int.cast_natCast, ZMod.natCast_zmod_val, Int.cast_ofNat, Int.cast_one, Int.cast_zero]; rw [ex]; ring
    · omega
    · omega
  have e2 : (b.val - k.val + l.val * 65536 - d.val - y.val : ℤ) = 0 := by
    apply int_zero
    · simp only [Int.cast_add, Int.cast_sub, Int.cast_mul, Int.cast_natCast, ZMod.natCast_zmod_val, Int.cast_ofNat, Int.cast_one, Int.cast_zero]; rw [ey]; ring
    · omega
    · omega
  omega

/-- `(a, b) < (c, d)` by the borrow of `(c, d) - 1 - (a, b)`. -/
theorem lt_core {a b c d k l x y : M31} (ha : a.val < 2 ^ 16) (hb : b.val < 2 ^ 16) (hc : c.val < 2 ^ 16)
    (hd : d.val < 2 ^ 16) (hk : k = 0 ∨ k = 1) (hl : l = 0 ∨ l = 1) (hx : x.val < 2 ^ 16) (hy : y.val < 2 ^ 16)
    (ex : x = c - 1 + k * 65536 - a) (ey : y = d - k + l * 65536 - b) :
    bit (a.val + 2 ^ 16 * b.val < c.val + 2 ^ 16 * d.val) = 1 - l := by
  have hk := val_bit hk
  have e1 : (c.val - 1 + k.val * 65536 - a.val - x.val : ℤ) = 0 := by
    apply int_zero
    · simp only [Int.cast_add, Int.cast_sub, Int.cast_mul, Int.cast_natCast, ZMod.natCast_zmod_val, Int.cast_ofNat, Int.cast_one, Int.cast_zero]; rw [ex]; ring
    · omega
    · omega
  have e2 : (d.val - k.val + l.val * 65536 - b.val - y.val : ℤ) = 0 := by
    have hl := val_bit hl
    apply int_zero
    · simp only [Int.cast_add, Int.cast_sub, Int.cast_mul, Int.cast_natCast, ZMod.natCast_zmod_val, Int.cast_ofNat, Int.cast_one, Int.cast_zero]; rw [ey]; ring
    · omega
    · omega
  rcases hl with rfl | rfl
  · have h0 : (0 : M31).val = 0 := rfl
    rw [h0] at e2
    rw [bit, if_pos (by omega), sub_zero]
  · have h0 : (1 : M31).val = 1 := rfl
    rw [h0] at e2
    rw [bit, if_neg (by omega), sub_self]

/-- The equality test by inverses. -/
theorem eq_core {a b c d u v p q : M31} (ha : a.val < 2 ^ 16) (hb : b.val < 2 ^ 16) (hc : c.val < 2 ^ 16)
    (hd : d.val < 2 ^ 16) (e1 : (c - a) * (u * (c - a) - 1) = 0) (e2 : (d - b) * (v * (d - b) - 1) = 0)
    (e3 : p - (1 - (c - a) * u) = 0) (e4 : q - p * (1 - (d - b) * v) = 0) :
    bit (a.val + 2 ^ 16 * b.val = c.val + 2 ^ 16 * d.val) = q := by
  rw [sub_eq_zero.1 e4, sub_eq_zero.1 e3]
  by_cases hca : c = a
  · subst hca
    by_cases hdb : d = b
    · subst hdb
      rw [bit, if_pos rfl]; ring
    · have h := (mul_eq_zero.1 e2).resolve_left (sub_ne_zero.2 hdb)
      have hne : d.val ≠ b.val := fun he => hdb (ZMod.val_injective P he)
      rw [bit, if_neg (by omega)]
      linear_combination h
  · have h := (mul_eq_zero.1 e1).resolve_left (sub_ne_zero.2 hca)
    have hne : c.val ≠ a.val := fun he => hca (ZMod.val_injective P he)
    rw [bit, if_neg (by omega)]
    linear_combination (1 - (d - b) * v) * h

/-- Two bytes make a 16-bit limb. -/
theorem byte_pair {x y : M31} (hx : x.val < 2 ^ 8) (hy : y.val < 2 ^ 8) : (x + y * 256).val = x.val + 256 * y.val := by
  have : x + y * 256 = ((x.val + 256 * y.val : ℕ) : M31) := by
    push_cast [ZMod.natCast_zmod_val]; ring
  rw [this, val_of_lt]
  have : P = 2147483647 := rfl
  omega

theorem byte_mul {x y : M31} (hx : x.val < 2 ^ 8) (hy : y.val < 2 ^ 8) :
    (0 : ℤ) ≤ (x.val : ℤ) * (y.val : ℤ) ∧ (x.val : ℤ) * (y.val : ℤ) ≤ 65025 := by
  have h1 : x.val * y.val ≤ 255 * 255 := Nat.mul_le_mul (by omega) (by omega)
  constructor
  · positivity
  · exact_mod_cast h1

/-- The carry hidden behind a range check `m - c < 2^16`. -/
theorem carry_of {m c : M31} {n : ℤ} (hm : ((n : ℤ) : M31) = m) : ((n - (m - c).val : ℤ) : M31) = c := by
  simp only [Int.cast_add, Int.cast_sub, Int.cast_mul, Int.cast_natCast, ZMod.natCast_zmod_val, Int.cast_ofNat, Int.cast_one, Int.cast_zero, hm]; ring

theorem mod_of_int {x r : ℕ} {k : ℤ} (hr : r < 2 ^ 32) (h : (x : ℤ) = r + 2 ^ 32 * k) : x % 2 ^ 32 = r := by
  omega

/-- Schoolbook multiplication of four bytes by four bytes, low half. -/
theorem mul_core {x0 x1 x2 x3 y0 y1 y2 y3 r0 r1 r2 r3 c0 c1 c2 c3 : M31}
    (hx0 : x0.val < 2 ^ 8) (hx1 : x1.val < 2 ^ 8) (hx2 : x2.val < 2 ^ 8) (hx3 : x3.val < 2 ^ 8)
    (hy0 : y0.val < 2 ^ 8) (hy1 : y1.val < 2 ^ 8) (hy2 : y2.val < 2 ^ 8) (hy3 : y3.val < 2 ^ 8)
    (hr0 : r0.val < 2 ^ 8) (hr1 : r1.val < 2 ^ 8) (hr2 : r2.val < 2 ^ 8) (hr3 : r3.val < 2 ^ 8)
    (hc0 : (254 - c0).val < 2 ^ 16) (hc1 : (509 - c1).val < 2 ^ 16) (hc2 : (764 - c2).val < 2 ^ 16)
    (hc3 : (1019 - c3).val < 2 ^ 16)
    (e0 : r0 - (x0 * y0 - c0 * 256) = 0)
    (e1 : r1 - (x0 * y1 + x1 * y0 + c0 - c1 * 256) = 0)
    (e2 : r2 - (x0 * y2 + x1 * y1 + x2 * y0 + c1 - c2 * 256) = 0)
    (e3 : r3 - (x0 * y3 + x1 * y2 + x2 * y1 + x3 * y0 + c2 - c3 * 256) = 0) :
    ((x0 + x1 * 256).val + 2 ^ 16 * (x2 + x3 * 256).val) * ((y0 + y1 * 256).val + 2 ^ 16 * (y2 + y3 * 256).val) %
      2 ^ 32 = (r0 + r1 * 256).val + 2 ^ 16 * (r2 + r3 * 256).val := by
  rw [byte_pair hx0 hx1, byte_pair hx2 hx3, byte_pair hy0 hy1, byte_pair hy2 hy3, byte_pair hr0 hr1,
    byte_pair hr2 hr3]
  have k0 : (((254 - (254 - c0).val : ℤ)) : M31) = c0 := carry_of (by norm_num)
  have k1 : (((509 - (509 - c1).val : ℤ)) : M31) = c1 := carry_of (by norm_num)
  have k2 : (((764 - (764 - c2).val : ℤ)) : M31) = c2 := carry_of (by norm_num)
  have k3 : (((1019 - (1019 - c3).val : ℤ)) : M31) = c3 := carry_of (by norm_num)
  generalize (254 - c0).val = t0 at hc0 k0
  generalize (509 - c1).val = t1 at hc1 k1
  generalize (764 - c2).val = t2 at hc2 k2
  generalize (1019 - c3).val = t3 at hc3 k3
  obtain ⟨C0, hC0⟩ : ∃ C0 : ℤ, C0 = 254 - t0 := ⟨_, rfl⟩
  obtain ⟨C1, hC1⟩ : ∃ C1 : ℤ, C1 = 509 - t1 := ⟨_, rfl⟩
  obtain ⟨C2, hC2⟩ : ∃ C2 : ℤ, C2 = 764 - t2 := ⟨_, rfl⟩
  obtain ⟨C3, hC3⟩ : ∃ C3 : ℤ, C3 = 1019 - t3 := ⟨_, rfl⟩
  rw [← hC0] at k0; rw [← hC1] at k1; rw [← hC2] at k2; rw [← hC3] at k3
  have m00 := byte_mul hx0 hy0
  have m01 := byte_mul hx0 hy1
  have m02 := byte_mul hx0 hy2
  have m03 := byte_mul hx0 hy3
  have m10 := byte_mul hx1 hy0
  have m11 := byte_mul hx1 hy1
  have m12 := byte_mul hx1 hy2
  have m20 := byte_mul hx2 hy0
  have m21 := byte_mul hx2 hy1
  have m30 := byte_mul hx3 hy0
  have i0 : (r0.val - (x0.val * y0.val - C0 * 256) : ℤ) = 0 := by
    apply int_zero
    · simp only [Int.cast_add, Int.cast_sub, Int.cast_mul, Int.cast_natCast, ZMod.natCast_zmod_val, Int.cast_ofNat, Int.cast_one, Int.cast_zero, k0]; exact e0
    · omega
    · omega
  have i1 : (r1.val - (x0.val * y1.val + x1.val * y0.val + C0 - C1 * 256) : ℤ) = 0 := by
    apply int_zero
    · simp only [Int.cast_add, Int.cast_sub, Int.cast_mul, Int.cast_natCast, ZMod.natCast_zmod_val, Int.cast_ofNat, Int.cast_one, Int.cast_zero, k0, k1]; exact e1
    · omega
    · omega
  have i2 : (r2.val - (x0.val * y2.val + x1.val * y1.val + x2.val * y0.val + C1 - C2 * 256) : ℤ) = 0 := by
    apply int_zero
    · simp only [Int.cast_add, Int.cast_sub, Int.cast_mul, Int.cast_natCast, ZMod.natCast_zmod_val, Int.cast_ofNat, Int.cast_one, Int.cast_zero, k1, k2]; exact e2
    · omega
    · omega
  have i3 : (r3.val - (x0.val * y3.val + x1.val * y2.val + x2.val * y1.val + x3.val * y0.val + C2 - C3 * 256) : ℤ) =
      0 := by
    apply int_zero
    · simp only [Int.cast_add, Int.cast_sub, Int.cast_mul, Int.cast_natCast, ZMod.natCast_zmod_val, Int.cast_ofNat, Int.cast_one, Int.cast_zero, k2, k3]; exact e3
    · omega
    · omega
  apply mod_of_int (k := C3 + (x1.val * y3.val + x2.val * y2.val + x3.val * y1.val) +
    256 * (x2.val * y3.val + x3.val * y2.val) + 65536 * (x3.val * y3.val))
  · omega
  · push_cast
    linear_combination -i0 - 256 * i1 - 65536 * i2 - 16777216 * i3

/-- Long multiplication of four bytes by four bytes plus a remainder, full width, and the comparison `r < d`. -/
theorem div_core {d0 d1 d2 d3 q0 q1 q2 q3 p0 p1 p2 p3 p4 p5 p6 p7 c0 c1 c2 c3 c4 c5 c6 a0 a1 a2 a3 b0 b1 n0 n1 s0 s1 :
      M31}
    (hd0 : d0.val < 2 ^ 8) (hd1 : d1.val < 2 ^ 8) (hd2 : d2.val < 2 ^ 8) (hd3 : d3.val < 2 ^ 8)
    (hq0 : q0.val < 2 ^ 8) (hq1 : q1.val < 2 ^ 8) (hq2 : q2.val < 2 ^ 8) (hq3 : q3.val < 2 ^ 8)
    (hp0 : p0.val < 2 ^ 8) (hp1 : p1.val < 2 ^ 8) (hp2 : p2.val < 2 ^ 8) (hp3 : p3.val < 2 ^ 8)
    (hp4 : p4.val < 2 ^ 8) (hp5 : p5.val < 2 ^ 8) (hp6 : p6.val < 2 ^ 8) (hp7 : p7.val < 2 ^ 8)
    (hn0 : n0.val < 2 ^ 16) (hn1 : n1.val < 2 ^ 16) (hs0 : s0.val < 2 ^ 16) (hs1 : s1.val < 2 ^ 16)
    (hc0 : (254 - c0).val < 2 ^ 16) (hc1 : (509 - c1).val < 2 ^ 16) (hc2 : (764 - c2).val < 2 ^ 16)
    (hc3 : (1019 - c3).val < 2 ^ 16) (hc4 : (765 - c4).val < 2 ^ 16) (hc5 : (510 - c5).val < 2 ^ 16)
    (hb0 : (d0 + d1 * 256 + b0 * 65536 - s0 - 1).val < 2 ^ 16)
    (hb1 : (d2 + d3 * 256 + b1 * 65536 - s1 - b0).val < 2 ^ 16)
    (ea0 : a0 * (1 - a0) = 0) (ea1 : a1 * (1 - a1) = 0) (ea2 : a2 * (1 - a2) = 0) (eb0 : b0 * (1 - b0) = 0)
    (e0 : q0 * d0 - c0 * 256 - p0 = 0)
    (e1 : q0 * d1 + q1 * d0 + c0 - c1 * 256 - p1 = 0)
    (e2 : q0 * d2 + q2 * d0 + q1 * d1 + c1 - c2 * 256 - p2 = 0)
    (e3 : q0 * d3 + q3 * d0 + q1 * d2 + q2 * d1 + c2 - c3 * 256 - p3 = 0)
    (e4 : q1 * d3 + q3 * d1 + q2 * d2 + c3 - c4 * 256 - p4 = 0)
    (e5 : q2 * d3 + q3 * d2 + c4 - c5 * 256 - p5 = 0)
    (e6 : q3 * d3 + c5 - c6 * 256 - p6 = 0)
    (e7 : c6 - p7 = 0)
    (f0 : n0 - (p0 + p1 * 256 + s0 - a0 * 65536) = 0)
    (f1 : n1 - (p2 + p3 * 256 + s1 + a0 - a1 * 65536) = 0)
    (f2 : p4 + p5 * 256 + a1 - a2 * 65536 = 0)
    (f3 : p6 + p7 * 256 + a2 - a3 * 65536 = 0)
    (f4 : a3 = 0) (f5 : b1 = 0) :
    n0.val + 2 ^ 16 * n1.val = ((q0 + q1 * 256).val + 2 ^ 16 * (q2 + q3 * 256).val) *
        ((d0 + d1 * 256).val + 2 ^ 16 * (d2 + d3 * 256).val) + (s0.val + 2 ^ 16 * s1.val) ∧
      s0.val + 2 ^ 16 * s1.val < (d0 + d1 * 256).val + 2 ^ 16 * (d2 + d3 * 256).val := by
  rw [byte_pair hd0 hd1, byte_pair hd2 hd3, byte_pair hq0 hq1, byte_pair hq2 hq3]
  have ha0 := val_bit (bool_of ea0)
  have ha1 := val_bit (bool_of ea1)
  have ha2 := val_bit (bool_of ea2)
  have hb := val_bit (bool_of eb0)
  subst f4 f5
  rw [sub_eq_zero.1 e7] at e6
  have k0 : (((254 - (254 - c0).val : ℤ)) : M31) = c0 := carry_of (by norm_num)
  have k1 : (((509 - (509 - c1).val : ℤ)) : M31) = c1 := carry_of (by norm_num)
  have k2 : (((764 - (764 - c2).val : ℤ)) : M31) = c2 := carry_of (by norm_num)
  have k3 : (((1019 - (1019 - c3).val : ℤ)) : M31) = c3 := carry_of (by norm_num)
  have k4 : (((765 - (765 - c4).val : ℤ)) : M31) = c4 := carry_of (by norm_num)
  have k5 : (((510 - (510 - c5).val : ℤ)) : M31) = c5 := carry_of (by norm_num)
  generalize (254 - c0).val = t0 at hc0 k0
  generalize (509 - c1).val = t1 at hc1 k1
  generalize (764 - c2).val = t2 at hc2 k2
  generalize (1019 - c3).val = t3 at hc3 k3
  generalize (765 - c4).val = t4 at hc4 k4
  generalize (510 - c5).val = t5 at hc5 k5
  obtain ⟨C0, hC0⟩ : ∃ C : ℤ, C = 254 - t0 := ⟨_, rfl⟩
  obtain ⟨C1, hC1⟩ : ∃ C : ℤ, C = 509 - t1 := ⟨_, rfl⟩
  obtain ⟨C2, hC2⟩ : ∃ C : ℤ, C = 764 - t2 := ⟨_, rfl⟩
  obtain ⟨C3, hC3⟩ : ∃ C : ℤ, C = 1019 - t3 := ⟨_, rfl⟩
  obtain ⟨C4, hC4⟩ : ∃ C : ℤ, C = 765 - t4 := ⟨_, rfl⟩
  obtain ⟨C5, hC5⟩ : ∃ C : ℤ, C = 510 - t5 := ⟨_, rfl⟩
  rw [← hC0] at k0; rw [← hC1] at k1; rw [← hC2] at k2; rw [← hC3] at k3; rw [← hC4] at k4; rw [← hC5] at k5
  have m00 := byte_mul hq0 hd0
  have m01 := byte_mul hq0 hd1
  have m02 := byte_mul hq0 hd2
  have m03 := byte_mul hq0 hd3
  have m10 := byte_mul hq1 hd0
  have m11 := byte_mul hq1 hd1
  have m12 := byte_mul hq1 hd2
  have m13 := byte_mul hq1 hd3
  have m20 := byte_mul hq2 hd0
  have m21 := byte_mul hq2 hd1
  have m22 := byte_mul hq2 hd2
  have m23 := byte_mul hq2 hd3
  have m30 := byte_mul hq3 hd0
  have m31 := byte_mul hq3 hd1
  have m32 := byte_mul hq3 hd2
  have m33 := byte_mul hq3 hd3
  have i0 : (q0.val * d0.val - C0 * 256 - p0.val : ℤ) = 0 := by
    apply int_zero
    · simp only [Int.cast_add, Int.cast_sub, Int.cast_mul, Int.cast_natCast, ZMod.natCast_zmod_val, Int.cast_ofNat, Int.cast_one, Int.cast_zero, k0]; exact e0
    · omega
    · omega
  have i1 : (q0.val * d1.val + q1.val * d0.val + C0 - C1 * 256 - p1.val : ℤ) = 0 := by
    apply int_zero
    · simp only [Int.cast_add, Int.cast_sub, Int.cast_mul, Int.cast_natCast, ZMod.natCast_zmod_val, Int.cast_ofNat, Int.cast_one, Int.cast_zero, k0, k1]; exact e1
    · omega
    · omega
  have i2 : (q0.val * d2.val + q2.val * d0.val + q1.val * d1.val + C1 - C2 * 256 - p2.val : ℤ) = 0 := by
    apply int_zero
    · simp only [Int.cast_add, Int.cast_sub, Int.cast_mul, Int.cast_natCast, ZMod.natCast_zmod_val, Int.cast_ofNat, Int.cast_one, Int.cast_zero, k1, k2]; exact e2
    · omega
    · omega
  have i3 : (q0.val * d3.val + q3.val * d0.val + q1.val * d2.val + q2.val * d1.val + C2 - C3 * 256 - p3.val : ℤ) =
      0 := by
    apply int_zero
    · simp only [Int.cast_add, Int.cast_sub, Int.cast_mul, Int.cast_natCast, ZMod.natCast_zmod_val, Int.cast_ofNat, Int.cast_one, Int.cast_zero, k2, k3]; exact e3
    · omega
    · omega
  have i4 : (q1.val * d3.val + q3.val * d1.val + q2.val * d2.val + C3 - C4 * 256 - p4.val : ℤ) = 0 := by
    apply int_zero
    · simp only [Int.cast_add, Int.cast_sub, Int.cast_mul, Int.cast_natCast, ZMod.natCast_zmod_val, Int.cast_ofNat, Int.cast_one, Int.cast_zero, k3, k4]; exact e4
    · omega
    · omega
  have i5 : (q2.val * d3.val + q3.val * d2.val + C4 - C5 * 256 - p5.val : ℤ) = 0 := by
    apply int_zero
    · simp only [Int.cast_add, Int.cast_sub, Int.cast_mul, Int.cast_natCast, ZMod.natCast_zmod_val, Int.cast_ofNat, Int.cast_one, Int.cast_zero, k4, k5]; exact e5
    · omega
    · omega
  have i6 : (q3.val * d3.val + C5 - p7.val * 256 - p6.val : ℤ) = 0 := by
    apply int_zero
    · simp only [Int.cast_add, Int.cast_sub, Int.cast_mul, Int.cast_natCast, ZMod.natCast_zmod_val, Int.cast_ofNat, Int.cast_one, Int.cast_zero, k5]; exact e6
    · omega
    · omega
  have j0 : (n0.val - (p0.val + p1.val * 256 + s0.val - a0.val * 65536) : ℤ) = 0 := by
    apply int_zero
    · simp only [Int.cast_add, Int.cast_sub, Int.cast_mul, Int.cast_natCast, ZMod.natCast_zmod_val, Int.cast_ofNat, Int.cast_one, Int.cast_zero]; exact f0
    · omega
    · omega
  have j1 : (n1.val - (p2.val + p3.val * 256 + s1.val + a0.val - a1.val * 65536) : ℤ) = 0 := by
    apply int_zero
    · simp only [Int.cast_add, Int.cast_sub, Int.cast_mul, Int.cast_natCast, ZMod.natCast_zmod_val, Int.cast_ofNat, Int.cast_one, Int.cast_zero]; exact f1
    · omega
    · omega
  have j2 : (p4.val + p5.val * 256 + a1.val - a2.val * 65536 : ℤ) = 0 := by
    apply int_zero
    · simp only [Int.cast_add, Int.cast_sub, Int.cast_mul, Int.cast_natCast, ZMod.natCast_zmod_val, Int.cast_ofNat, Int.cast_one, Int.cast_zero]; exact f2
    · omega
    · omega
  have j3 : (p6.val + p7.val * 256 + a2.val : ℤ) = 0 := by
    apply int_zero
    · simp only [Int.cast_add, Int.cast_sub, Int.cast_mul, Int.cast_natCast, ZMod.natCast_zmod_val, Int.cast_ofNat, Int.cast_one, Int.cast_zero]; linear_combination f3
    · omega
    · omega
  have g0 : (d0.val + d1.val * 256 + b0.val * 65536 - s0.val - 1 -
      (d0 + d1 * 256 + b0 * 65536 - s0 - 1 : M31).val : ℤ) = 0 := by
    apply int_zero
    · simp only [Int.cast_add, Int.cast_sub, Int.cast_mul, Int.cast_natCast, ZMod.natCast_zmod_val, Int.cast_ofNat, Int.cast_one, Int.cast_zero]; ring
    · omega
    · omega
  have g1 : (d2.val + d3.val * 256 - s1.val - b0.val - (d2 + d3 * 256 + 0 * 65536 - s1 - b0 : M31).val : ℤ) = 0 := by
    apply int_zero
    · simp only [Int.cast_add, Int.cast_sub, Int.cast_mul, Int.cast_natCast, ZMod.natCast_zmod_val, Int.cast_ofNat, Int.cast_one, Int.cast_zero]; ring
    · omega
    · omega
  constructor
  · zify
    linear_combination j0 + 65536 * j1 - 4294967296 * j2 - 281474976710656 * j3 - i0 - 256 * i1 - 65536 * i2 -
      16777216 * i3 - 4294967296 * i4 - 1099511627776 * i5 - 281474976710656 * i6
  · omega

/-! ## Bitwise operations by bytes -/

theorem testBit_cat (op : ℕ → ℕ → ℕ) (f : Bool → Bool → Bool) (hf : f false false = false)
    (hop : ∀ x y j, (op x y).testBit j = f (x.testBit j) (y.testBit j)) {k a b c d : ℕ} (ha : a < 2 ^ k)
    (hc : c < 2 ^ k) : op (a + 2 ^ k * b) (c + 2 ^ k * d) = op a c + 2 ^ k * op b d := by
  have hlt : op a c < 2 ^ k := by
    apply Nat.lt_pow_two_of_testBit
    intro i hi
    rw [hop, Nat.testBit_lt_two_pow (lt_of_lt_of_le ha (Nat.pow_le_pow_right (by decide) hi)),
      Nat.testBit_lt_two_pow (lt_of_lt_of_le hc (Nat.pow_le_pow_right (by decide) hi)), hf]
  apply Nat.eq_of_testBit_eq
  intro j
  rw [hop, add_comm a, add_comm c, add_comm (op a c), Nat.testBit_two_pow_mul_add _ ha, Nat.testBit_two_pow_mul_add _ hc,
    Nat.testBit_two_pow_mul_add _ hlt]
  split
  · rw [hop]
  · rw [hop]

theorem bitwiseOp_cat {o k a b c d : ℕ} (ha : a < 2 ^ k) (hc : c < 2 ^ k) :
    bitwiseOp o (a + 2 ^ k * b) (c + 2 ^ k * d) = bitwiseOp o a c + 2 ^ k * bitwiseOp o b d := by
  unfold bitwiseOp
  split
  · exact testBit_cat _ and rfl (fun x y j => Nat.testBit_and x y j) ha hc
  · split
    · exact testBit_cat _ or rfl (fun x y j => Nat.testBit_or x y j) ha hc
    · exact testBit_cat _ xor rfl (fun x y j => Nat.testBit_xor x y j) ha hc

theorem bitwise_core {o x0 x1 x2 x3 y0 y1 y2 y3 r0 r1 r2 r3 : M31} (h0 : InBitwise o x0 y0 r0)
    (h1 : InBitwise o x1 y1 r1) (h2 : InBitwise o x2 y2 r2) (h3 : InBitwise o x3 y3 r3) :
    bitwiseOp o.val ((x0 + x1 * 256).val + 2 ^ 16 * (x2 + x3 * 256).val)
      ((y0 + y1 * 256).val + 2 ^ 16 * (y2 + y3 * 256).val) = (r0 + r1 * 256).val + 2 ^ 16 * (r2 + r3 * 256).val := by
  obtain ⟨-, hx0, hy0, hr0⟩ := h0
  obtain ⟨-, hx1, hy1, hr1⟩ := h1
  obtain ⟨-, hx2, hy2, hr2⟩ := h2
  obtain ⟨-, hx3, hy3, hr3⟩ := h3
  have lr0 : r0.val < 2 ^ 8 := by rw [hr0]; exact bitwiseOp_lt hx0 hy0
  have lr1 : r1.val < 2 ^ 8 := by rw [hr1]; exact bitwiseOp_lt hx1 hy1
  have lr2 : r2.val < 2 ^ 8 := by rw [hr2]; exact bitwiseOp_lt hx2 hy2
  have lr3 : r3.val < 2 ^ 8 := by rw [hr3]; exact bitwiseOp_lt hx3 hy3
  rw [byte_pair hx0 hx1, byte_pair hx2 hx3, byte_pair hy0 hy1, byte_pair hy2 hy3, byte_pair lr0 lr1,
    byte_pair lr2 lr3, show (256 : ℕ) = 2 ^ 8 from rfl, bitwiseOp_cat (by omega) (by omega), bitwiseOp_cat hx0 hy0,
    bitwiseOp_cat hx2 hy2, hr0, hr1, hr2, hr3]

end Air
end CairoM
