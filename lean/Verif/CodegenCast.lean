import Verif.CodegenU32

/-!
# Code emitted for the u32-to-felt cast: helper lemmas
-/

namespace CairoM
namespace Codegen

open Mir Lang Relation

section

variable {code : List IB} {tgt : Name → Option ℕ} {fp : M31} {m : Isa.Mem}

theorem limbs_of_u32 {a : M31} {n : ℕ} (h : Isa.u32 m a = some n) :
    ∃ x y : M31, Isa.felt m a = some x ∧ Isa.felt m (a + 1) = some y ∧ x.val < 2 ^ 16 ∧ y.val < 2 ^ 16 ∧
      n = x.val + 2 ^ 16 * y.val := by
  unfold Isa.u32 at h
  cases h0 : Isa.felt m a with
  | none => rw [h0] at h; cases h
  | some x =>
    cases h1 : Isa.felt m (a + 1) with
    | none => rw [h0, h1] at h; cases h
    | some y =>
      rw [h0, h1] at h
      simp only [Option.bind_eq_bind, Option.bind_some, Isa.ofLimbs] at h
      split at h
      · rename_i hh
        exact ⟨x, y, rfl, rfl, hh.1, hh.2, (Option.some.inj h).symm⟩
      · cases h

theorem val_ofI32 {c : ℤ} (h0 : 0 ≤ c) (h1 : c < P) : ((ofI32 c).val : ℤ) = c := by
  obtain ⟨k, rfl⟩ := Int.eq_ofNat_of_zero_le h0
  have : ofI32 (k : ℤ) = ((k : ℕ) : M31) := by rw [ofI32_eq, Int.cast_natCast]
  rw [this, ZMod.val_natCast, Nat.mod_eq_of_lt (by omega)]

theorem runs_leImm {b : Builder} {s d : ℤ} {c : ℕ} {x : M31} (hc : c < P)
    (hx : Isa.felt m (adr fp s) = some x) (hd : Isa.InRange (adr fp d)) (hfit : Fits code tgt (b.feltLeImm s c d)) :
    Runs code tgt fp (b.instrs.length, m)
      ((b.feltLeImm s c d).instrs.length, put m (adr fp d) (if x.val ≤ c then 1 else 0)) := by
  have h := runs_push' hfit rfl (sem_leImm (adr_ofI32 _ _) (adr_ofI32 _ _) hx hd)
  have hv : Isa.bit (x.val ≤ (ofI32 (c : ℤ)).val) = if x.val ≤ c then 1 else 0 := by
    have := val_ofI32 (c := (c : ℤ)) (by omega) (by exact_mod_cast hc)
    have e : (ofI32 (c : ℤ)).val = c := by exact_mod_cast this
    rw [e, Isa.bit]
  rw [hv] at h
  exact h

theorem ext_castSeq {b : Builder} {d s : ℤ} :
    Ext b (b.castSeq d s) ∧ (b.castSeq d s).layout.frame = b.layout.frame + 6 := by
  refine ⟨?_, rfl⟩
  exact Ext.reserve.trans <| Ext.push.trans <| (Ext.newLabel (l := Builder.sCastOk)).trans <| Ext.pushL.trans <| Ext.reserve.trans <|
    Ext.push.trans <| Ext.reserve.trans <| Ext.push.trans <| Ext.reserve.trans <| Ext.push.trans <|
    Ext.reserve.trans <| Ext.push.trans <| Ext.push.trans <| Ext.addLabel.trans <| Ext.reserve.trans <|
    Ext.push.trans Ext.push

/-- The check of the cast: the labelled tail is reached with the operand unchanged iff the number is below `P`. -/
theorem runs_castSeq {b : Builder} {d s lo hi : ℤ} {n : ℕ} (w : Window fp lo hi) (hs1 : lo ≤ s)
    (hs2 : s + 2 ≤ b.layout.frame) (hv : Isa.u32 m (adr fp s) = some n) (hd : lo ≤ d)
    (hd' : d + 1 ≤ b.layout.frame) (hhi : (b.layout.frame : ℤ) + 6 ≤ hi) (hfit : Fits code tgt (b.castSeq d s)) :
    (n < P → Computes code tgt fp b (b.castSeq d s) m d (.felt (n : M31))) ∧
      (P ≤ n → Traps code tgt fp (b.instrs.length, m)) := by
  obtain ⟨x, y, hx, hy, lx, ly, rfl⟩ := limbs_of_u32 hv
  have hP : P = 2147483647 := rfl
  set f : ℤ := (b.layout.frame : ℤ) with hf
  rw [← adr_succ] at hy
  let c1 := (b.reserve 1).2.feltLeImm (s + 1) 32766 f
  let L := (c1.newLabel Builder.sCastOk).1
  let c2 := (c1.newLabel Builder.sCastOk).2.jnzOffset f L
  let c3 := (c2.reserve 1).2.feltLeImm (s + 1) 32767 (c2.reserve 1).1
  let c4 := (c3.reserve 1).2.push (.StoreSubFpFp (ofI32 (c2.reserve 1).1) (ofI32 f) (ofI32 (c3.reserve 1).1))
  let c5 := (c4.reserve 1).2.feltLeImm s 65534 (c4.reserve 1).1
  let c6 := (c5.reserve 1).2.push
    (.StoreMulFpFp (ofI32 (c3.reserve 1).1) (ofI32 (c4.reserve 1).1) (ofI32 (c5.reserve 1).1))
  let c7 := c6.assertEqImm (c5.reserve 1).1 1
  let c8 := c7.addLabel L
  let c9 := (c8.reserve 1).2.feltMulImm (s + 1) 65536 (c8.reserve 1).1
  let c10 := c9.push (.StoreAddFpFp (ofI32 s) (ofI32 (c8.reserve 1).1) (ofI32 d))
  have hc : b.castSeq d s = c10 := rfl
  have t2 : (c2.reserve 1).1 = f + 1 := by show ((b.layout.frame + 1 : ℕ) : ℤ) = f + 1; push_cast; rfl
  have t3 : (c3.reserve 1).1 = f + 2 := by show ((b.layout.frame + 1 + 1 : ℕ) : ℤ) = f + 2; push_cast; omega
  have t4 : (c4.reserve 1).1 = f + 3 := by show ((b.layout.frame + 1 + 1 + 1 : ℕ) : ℤ) = f + 3; push_cast; omega
  have t5 : (c5.reserve 1).1 = f + 4 := by
    show ((b.layout.frame + 1 + 1 + 1 + 1 : ℕ) : ℤ) = f + 4; push_cast; omega
  have t6 : (c8.reserve 1).1 = f + 5 := by
    show ((b.layout.frame + 1 + 1 + 1 + 1 + 1 : ℕ) : ℤ) = f + 5; push_cast; omega
  have e9 : Ext c9 c10 := Ext.push
  have e8 : Ext c8 c10 := (Ext.reserve.trans Ext.push).trans e9
  have e7 : Ext c7 c10 := Ext.addLabel.trans e8
  have e6 : Ext c6 c10 := Ext.push.trans e7
  have e5 : Ext c5 c10 := (Ext.reserve.trans Ext.push).trans e6
  have e4 : Ext c4 c10 := (Ext.reserve.trans Ext.push).trans e5
  have e3 : Ext c3 c10 := (Ext.reserve.trans Ext.push).trans e4
  have e2 : Ext c2 c10 := (Ext.reserve.trans Ext.push).trans e3
  have e1 : Ext c1 c10 := (Ext.newLabel.trans Ext.pushL).trans e2
  rw [hc] at hfit ⊢
  have hL : tgt L = some c7.instrs.length := fits_addLabel (e8.fits hfit)
  have inr : ∀ o : ℤ, lo ≤ o → o < f + 6 → Isa.InRange (adr fp o) := fun o h1 h2 => w.inRange h1 (by omega)
  have ne : ∀ o o' : ℤ, lo ≤ o → o < f + 6 → lo ≤ o' → o' < f + 6 → o ≠ o' → adr fp o ≠ adr fp o' :=
    fun o o' h1 h2 h3 h4 h5 q => h5 (w.inj h1 (by omega) h3 (by omega) q)
  have cval : ∀ k : ℕ, k < P → (ofI32 (k : ℤ)).val = k := fun k hk => by
    have := val_ofI32 (c := (k : ℤ)) (by omega) (by exact_mod_cast hk)
    exact_mod_cast this
  -- first comparison
  have r1 := runs_leImm (b := (b.reserve 1).2) (c := 32766) (by omega) hy (inr f (by omega) (by omega)) (e1.fits hfit)
  set v1 : M31 := if y.val ≤ 32766 then 1 else 0 with hv1
  set m1 := put m (adr fp f) v1 with hm1
  have g1 : ∀ o : ℤ, lo ≤ o → o < f + 6 → o ≠ f → Isa.felt m1 (adr fp o) = Isa.felt m (adr fp o) :=
    fun o h1 h2 h3 => felt_put_ne (ne o f h1 h2 (by omega) (by omega) h3)
  have g1' : Isa.felt m1 (adr fp f) = some v1 := felt_put_same (inr f (by omega) (by omega))
  have r2 := runs_jnz (e2.fits hfit) g1' hL
  -- the tail
  have tail : ∀ m', Isa.felt m' (adr fp s) = some x → Isa.felt m' (adr fp (s + 1)) = some y →
      SameExcept fp (fun o => (d ≤ o ∧ o < d + 1) ∨ ((f ≤ o ∧ o < f + 6))) m m' →
      Runs code tgt fp (b.instrs.length, m) (c7.instrs.length, m') →
      Computes code tgt fp b c10 m d (.felt ((x.val + 2 ^ 16 * y.val : ℕ) : M31)) := by
    intro m' hx' hy' hs' hr'
    have hm6 := runs_push' (e9.fits hfit) rfl (sem_mulImm (imm := ofI32 65536) (adr_ofI32 fp (s + 1))
      (adr_ofI32 fp (c8.reserve 1).1) hy' (by rw [t6]; exact inr _ (by omega) (by omega)))
    have h5 := ne s (f + 5) (by omega) (by omega) (by omega) (by omega) (by omega)
    have hadd := runs_push (m := put m' (adr fp (f + 5)) (y * ofI32 65536)) hfit rfl
      (sem_add (adr_ofI32 fp s) (adr_ofI32 fp (c8.reserve 1).1) (adr_ofI32 fp d)
        (x := x) (y := y * ofI32 65536) (by rw [felt_put_ne h5]; exact hx')
        (by rw [t6]; exact felt_put_same (inr _ (by omega) (by omega))) (inr d (by omega) (by omega)))
    have val : x + y * ofI32 65536 = ((x.val + 2 ^ 16 * y.val : ℕ) : M31) := by
      have h65 : ofI32 65536 = ((2 ^ 16 : ℕ) : M31) := by rw [ofI32_eq]; norm_cast
      rw [h65, Nat.cast_add, Nat.cast_mul, ZMod.natCast_zmod_val, ZMod.natCast_zmod_val, mul_comm]
    rw [val] at hadd
    rw [t6] at hm6
    refine ⟨_, hr'.trans (Runs.trans hm6 hadd), ?_, ?_⟩
    · simp only [Holds]
      rw [felt_put_same (inr d (by omega) (by omega))]
    · have hs'' := hs'.trans ((SameExcept.put (o := f + 5) (v := y * ofI32 65536) (Or.inr ⟨by omega, by omega⟩)).trans
        (SameExcept.put (o := d) (v := ((x.val + 2 ^ 16 * y.val : ℕ) : M31)) (Or.inl ⟨le_rfl, by omega⟩)))
      have hfr : (c10.layout.frame : ℤ) = f + 6 := by
        show ((b.layout.frame + 6 : ℕ) : ℤ) = f + 6; push_cast; rfl
      simpa only [width, hfr, Nat.cast_one] using hs''
  by_cases hy1 : y.val ≤ 32766
  · -- skipped check
    have hv : v1 = 1 := if_pos hy1
    rw [hv, if_neg one_ne_zero] at r2
    refine ⟨fun _ => ?_, fun h => by omega⟩
    refine tail m1 ?_ ?_ ?_ (Runs.trans r1 r2)
    · rw [g1 s (by omega) (by omega) (by omega)]; exact hx
    · rw [g1 (s + 1) (by omega) (by omega) (by omega)]; exact hy
    · exact SameExcept.put (Or.inr ⟨le_rfl, by omega⟩)
  · have hv : v1 = 0 := if_neg hy1
    rw [hv, if_pos rfl] at r2
    -- second comparison
    have r3 := runs_leImm (m := m1) (fp := fp) (b := (c2.reserve 1).2) (s := s + 1) (d := (c2.reserve 1).1) (c := 32767)
      (x := y) (by omega) (by rw [g1 (s + 1) (by omega) (by omega) (by omega)]; exact hy)
      (by rw [t2]; exact inr _ (by omega) (by omega)) (e3.fits hfit)
    rw [t2] at r3
    set v2 : M31 := if y.val ≤ 32767 then 1 else 0 with hv2
    set m2 := put m1 (adr fp (f + 1)) v2 with hm2
    have g2 : ∀ o : ℤ, lo ≤ o → o < f + 6 → o ≠ f + 1 → Isa.felt m2 (adr fp o) = Isa.felt m1 (adr fp o) :=
      fun o h1 h2 h3 => felt_put_ne (ne o (f + 1) h1 h2 (by omega) (by omega) h3)
    have g2' : Isa.felt m2 (adr fp (f + 1)) = some v2 := felt_put_same (inr _ (by omega) (by omega))
    -- difference
    have r4 := runs_push (m := m2) (fp := fp) (e4.fits hfit) rfl
      (sem_sub (adr_ofI32 fp (c2.reserve 1).1) (adr_ofI32 fp f) (adr_ofI32 fp (c3.reserve 1).1) (x := v2) (y := 0)
        (by rw [t2]; exact g2') (by rw [g2 f (by omega) (by omega) (by omega), g1', hv])
        (by rw [t3]; exact inr _ (by omega) (by omega)))
    rw [t3, sub_zero] at r4
    set m3 := put m2 (adr fp (f + 2)) v2 with hm3
    have g3 : ∀ o : ℤ, lo ≤ o → o < f + 6 → o ≠ f + 2 → Isa.felt m3 (adr fp o) = Isa.felt m2 (adr fp o) :=
      fun o h1 h2 h3 => felt_put_ne (ne o (f + 2) h1 h2 (by omega) (by omega) h3)
    have g3' : Isa.felt m3 (adr fp (f + 2)) = some v2 := felt_put_same (inr _ (by omega) (by omega))
    have x3 : Isa.felt m3 (adr fp s) = some x := by
      rw [g3 s (by omega) (by omega) (by omega), g2 s (by omega) (by omega) (by omega),
        g1 s (by omega) (by omega) (by omega)]; exact hx
    have y3 : Isa.felt m3 (adr fp (s + 1)) = some y := by
      rw [g3 (s + 1) (by omega) (by omega) (by omega), g2 (s + 1) (by omega) (by omega) (by omega),
        g1 (s + 1) (by omega) (by omega) (by omega)]; exact hy
    -- low limb
    have r5 := runs_leImm (m := m3) (fp := fp) (b := (c4.reserve 1).2) (s := s) (d := (c4.reserve 1).1) (c := 65534)
      (x := x) (by omega) x3 (by rw [t4]; exact inr _ (by omega) (by omega)) (e5.fits hfit)
    rw [t4] at r5
    set v4 : M31 := if x.val ≤ 65534 then 1 else 0 with hv4
    set m4 := put m3 (adr fp (f + 3)) v4 with hm4
    have g4 : ∀ o : ℤ, lo ≤ o → o < f + 6 → o ≠ f + 3 → Isa.felt m4 (adr fp o) = Isa.felt m3 (adr fp o) :=
      fun o h1 h2 h3 => felt_put_ne (ne o (f + 3) h1 h2 (by omega) (by omega) h3)
    have g4' : Isa.felt m4 (adr fp (f + 3)) = some v4 := felt_put_same (inr _ (by omega) (by omega))
    -- product
    have r6 := runs_push (m := m4) (fp := fp) (e6.fits hfit) rfl
      (sem_mul (adr_ofI32 fp (c3.reserve 1).1) (adr_ofI32 fp (c4.reserve 1).1) (adr_ofI32 fp (c5.reserve 1).1)
        (x := v2) (y := v4) (by rw [t3, g4 (f + 2) (by omega) (by omega) (by omega)]; exact g3')
        (by rw [t4]; exact g4') (by rw [t5]; exact inr _ (by omega) (by omega)))
    rw [t5] at r6
    set m5 := put m4 (adr fp (f + 4)) (v2 * v4) with hm5
    have g5 : ∀ o : ℤ, lo ≤ o → o < f + 6 → o ≠ f + 4 → Isa.felt m5 (adr fp o) = Isa.felt m4 (adr fp o) :=
      fun o h1 h2 h3 => felt_put_ne (ne o (f + 4) h1 h2 (by omega) (by omega) h3)
    have g5' : Isa.felt m5 (adr fp (f + 4)) = some (v2 * v4) := felt_put_same (inr _ (by omega) (by omega))
    have pre : Runs code tgt fp (b.instrs.length, m) (c6.instrs.length, m5) :=
      Runs.trans r1 (Runs.trans r2 (Runs.trans r3 (Runs.trans r4 (Runs.trans r5 r6))))
    have sm : SameExcept fp (fun o => (d ≤ o ∧ o < d + 1) ∨ ((f ≤ o ∧ o < f + 6))) m m5 :=
      (SameExcept.put (Or.inr ⟨le_rfl, by omega⟩)).trans <|
      (SameExcept.put (Or.inr ⟨by omega, by omega⟩)).trans <| (SameExcept.put (Or.inr ⟨by omega, by omega⟩)).trans <|
      (SameExcept.put (Or.inr ⟨by omega, by omega⟩)).trans (SameExcept.put (Or.inr ⟨by omega, by omega⟩))
    have one : ofI32 1 = (1 : M31) := by rw [ofI32_eq]; norm_cast
    have hfetch : code[c6.instrs.length]? = some ⟨.AssertEqFpImm (ofI32 (c5.reserve 1).1) (ofI32 1), none⟩ :=
      fetch_push (e7.fits hfit)
    have ha : Isa.felt m5 (fp + ofI32 (c5.reserve 1).1) = some (v2 * v4) := by rw [adr_ofI32, t5]; exact g5'
    constructor
    · intro hn
      have h2 : v2 = 1 := if_pos (by omega)
      have h4 : v4 = 1 := if_pos (by omega)
      rw [h2, h4, mul_one] at ha
      have r7 := runs_plain (tgt := tgt) hfetch rfl (sem_assert (pc := 0) rfl (by rw [one]; exact ha))
      rw [show c6.instrs.length + 1 = c7.instrs.length from length_push.symm] at r7
      refine tail m5 ?_ ?_ sm (pre.trans r7)
      · rw [g5 s (by omega) (by omega) (by omega), g4 s (by omega) (by omega) (by omega)]; exact x3
      · rw [g5 (s + 1) (by omega) (by omega) (by omega), g4 (s + 1) (by omega) (by omega) (by omega)]; exact y3
    · intro hn
      have h0 : v2 * v4 = 0 := by
        by_cases hyy : y.val ≤ 32767
        · have h4 : v4 = 0 := if_neg (by omega)
          rw [h4, mul_zero]
        · have h2 : v2 = 0 := if_neg hyy
          rw [h2, zero_mul]
      refine ⟨_, _, _, pre, hfetch, rfl, ?_⟩
      rw [h0] at ha
      dsimp only [Isa.sem]
      rw [felt_bind ha, one, if_neg zero_ne_one]

end

end Codegen
end CairoM
