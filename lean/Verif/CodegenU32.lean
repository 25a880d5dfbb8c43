import Verif.CodegenBool

/-!
# Code emitted for u32 operations: helper lemmas
-/

namespace CairoM
namespace Codegen

open Mir Lang Relation

theorem ofLimbs_lit (v : BitVec 32) : Isa.ofLimbs (splitLo v) (splitHi v) = some v.toNat := by
  have := ofLimbs_split v.isLt
  simpa [splitLo, splitHi] using this

theorem u32_lt {m : Isa.Mem} {a : M31} {n : ℕ} (h : Isa.u32 m a = some n) : n < 2 ^ 32 := by
  unfold Isa.u32 at h
  cases h0 : Isa.felt m a with
  | none => rw [h0] at h; cases h
  | some x =>
    cases h1 : Isa.felt m (a + 1) with
    | none => rw [h0, h1] at h; cases h
    | some y =>
      rw [h0, h1] at h
      simp only [Option.bind_eq_bind, Option.bind_some, Isa.ofLimbs] at h
      split at h
      · rename_i hh
        have := Option.some.inj h
        omega
      · cases h

/-- A value read as a u32. -/
def HasU32 (l : Layout) (m : Isa.Mem) (fp : M31) (lo : ℤ) (v : Value) (n : ℕ) : Prop :=
  match v with
  | .Literal (.Integer imm) => imm.toNat = n
  | .Operand id => ∃ s, l.values id = some s ∧ lo ≤ s.off ∧ s.off + 2 ≤ l.frame ∧ Isa.u32 m (adr fp s.off) = some n
  | _ => False

theorem HasU32.of_has {l : Layout} {m : Isa.Mem} {fp : M31} {lo : ℤ} {v : Value} {n : ℕ}
    (h : Has l m fp lo .u32 v (.u32 n)) : HasU32 l m fp lo v n := by
  cases v with
  | Error => cases h
  | Literal lit =>
    cases lit <;> simp only [Has, denote, reduceCtorEq, Option.some.injEq, Val.u32.injEq] at h
    exact h
  | Operand id =>
    obtain ⟨-, s, hs, h1, h2, hx⟩ := h
    exact ⟨s, hs, h1, h2, hx⟩

theorem write_append (m : Isa.Mem) (xs ys : List (M31 × M31)) :
    Isa.write m (xs ++ ys) = Isa.write (Isa.write m xs) ys := by
  induction xs generalizing m with
  | nil => rfl
  | cons x xs ih => exact ih _

section

variable {code : List IB} {tgt : Name → Option ℕ} {fp : M31} {m : Isa.Mem}

theorem runs_push' {b : Builder} {i : Instruction} {e : Isa.Effect}
    (hfit : Fits code tgt (b.push i)) (hp : plain i = true) (he : Isa.sem i 0 fp m = some e) :
    Runs code tgt fp (b.instrs.length, m) ((b.push i).instrs.length, e.memory m) := by
  rw [length_push]
  exact runs_plain (fetch_push hfit) hp he

theorem computes_split {b b' : Builder} {d lo hi : ℤ} {n : ℕ} (w : Window fp lo hi) (hd : lo ≤ d) (hd' : d + 2 ≤ hi)
    (hn : n < 2 ^ 32)
    (h : Runs code tgt fp (b.instrs.length, m) (b'.instrs.length, Isa.write m (Isa.split (adr fp d) n))) :
    Computes code tgt fp b b' m d (.u32 n) := by
  refine ⟨_, h, holds_split w hd hd' hn, same_split ?_ ?_⟩
  · exact Or.inl ⟨le_rfl, by simp [width]⟩
  · exact Or.inl ⟨by omega, by simp [width]⟩

theorem computes_bool {b b' : Builder} {d : ℤ} {p : Bool} {x : M31} (hd : Isa.InRange (adr fp d))
    (hx : x = if p then 1 else 0)
    (h : Runs code tgt fp (b.instrs.length, m) (b'.instrs.length, put m (adr fp d) x)) :
    Computes code tgt fp b b' m d (.bool p) := by
  refine ⟨_, h, ?_, SameExcept.put ?_⟩
  · simp only [Holds]; rw [felt_put_same hd, hx]
  · exact Or.inl ⟨le_rfl, by simp [width]⟩

theorem bit_decide (p : Prop) [Decidable p] : Isa.bit p = if decide p = true then 1 else 0 := by
  unfold Isa.bit
  by_cases h : p <;> simp [h]

theorem land_lt {n k : ℕ} (hn : n < 2 ^ 32) : Nat.land n k < 2 ^ 32 := Nat.lt_of_le_of_lt Nat.and_le_left hn
theorem lor_lt {n k : ℕ} (hn : n < 2 ^ 32) (hk : k < 2 ^ 32) : Nat.lor n k < 2 ^ 32 := Nat.or_lt_two_pow hn hk
theorem xor_lt {n k : ℕ} (hn : n < 2 ^ 32) (hk : k < 2 ^ 32) : Nat.xor n k < 2 ^ 32 := Nat.xor_lt_two_pow hn hk

/-- Quotient into `d`, remainder into a fresh pair of slots at `t`, or the other way round. -/
theorem computes_div {b b' : Builder} {d lo hi : ℤ} {q r : ℕ} (w : Window fp lo hi) (hd : lo ≤ d)
    (hd' : d + 2 ≤ b.layout.frame) (hf : b'.layout.frame = b.layout.frame + 2) (hhi : (b'.layout.frame : ℤ) ≤ hi)
    (hq : q < 2 ^ 32) (h : Runs code tgt fp (b.instrs.length, m) (b'.instrs.length,
      Isa.write m (Isa.split (adr fp d) q ++ Isa.split (adr fp b.layout.frame) r))) :
    Computes code tgt fp b b' m d (.u32 q) := by
  rw [write_append] at h
  have hs : SameExcept fp (fun o => (b.layout.frame : ℤ) ≤ o ∧ o < b'.layout.frame)
      (Isa.write m (Isa.split (adr fp d) q))
      (Isa.write (Isa.write m (Isa.split (adr fp d) q)) (Isa.split (adr fp b.layout.frame) r)) :=
    same_split ⟨le_rfl, by omega⟩ ⟨by omega, by omega⟩
  refine ⟨_, h, ?_, ?_⟩
  · refine hs.holds w hd (by simp only [width]; omega) (fun t ht => ⟨by omega, by omega⟩) ?_
      (holds_split w hd (by omega) hq)
    intro o h1 h2 h3
    simp only [width] at h2
    omega
  · refine (same_split (Or.inl ⟨le_rfl, by simp [width]⟩) (Or.inl ⟨by omega, by simp [width]⟩)).trans
      (hs.mono fun o ho => Or.inr ho)

theorem computes_rem {b b' : Builder} {d lo hi : ℤ} {q r : ℕ} (w : Window fp lo hi) (hd : lo ≤ d)
    (hd' : d + 2 ≤ b.layout.frame) (hf : b'.layout.frame = b.layout.frame + 2) (hhi : (b'.layout.frame : ℤ) ≤ hi)
    (hr : r < 2 ^ 32) (h : Runs code tgt fp (b.instrs.length, m) (b'.instrs.length,
      Isa.write m (Isa.split (adr fp b.layout.frame) q ++ Isa.split (adr fp d) r))) :
    Computes code tgt fp b b' m d (.u32 r) := by
  rw [write_append] at h
  refine ⟨_, h, holds_split w hd (by omega) hr, ?_⟩
  exact (same_split (Or.inr ⟨le_rfl, by omega⟩) (Or.inr ⟨by omega, by omega⟩)).trans
    (same_split (Or.inl ⟨le_rfl, by simp [width]⟩) (Or.inl ⟨by omega, by simp [width]⟩))

theorem ext_u32FpFp {b b' : Builder} {op : BinaryOp} {s0 s1 d : ℤ} (h : b.u32FpFp op s0 s1 d = .ok b') : Ext b b' := by
  cases op <;> simp only [Builder.u32FpFp, reduceCtorEq, Except.ok.injEq] at h <;> subst h <;>
    first | exact Ext.push | exact Ext.reserve.trans Ext.push

theorem ext_u32FpImm {b b' : Builder} {op : BinaryOp} {s d : ℤ} {imm : BitVec 32}
    (h : b.u32FpImm op s imm d = .ok b') : Ext b b' := by
  cases op <;> simp only [Builder.u32FpImm, reduceCtorEq, Except.ok.injEq] at h <;> subst h <;>
    first | exact Ext.push | exact Ext.reserve.trans Ext.push

theorem runs_u32FpFp {b b' : Builder} {op : BinaryOp} {s0 s1 d lo hi : ℤ} {n k : ℕ} {z : Val} (w : Window fp lo hi)
    (h : b.u32FpFp op s0 s1 d = .ok b') (hop : binary op (.u32 n) (.u32 k) = some z)
    (h0 : Isa.u32 m (adr fp s0) = some n) (h1 : Isa.u32 m (adr fp s1) = some k) (hd : lo ≤ d)
    (hd' : d + width z ≤ b.layout.frame) (hhi : (b'.layout.frame : ℤ) ≤ hi) (hfit : Fits code tgt b') :
    Computes code tgt fp b b' m d z := by
  have hn := u32_lt h0
  have hk := u32_lt h1
  have hf := (ext_u32FpFp h).frame
  have r0 : 1 ≤ width z → Isa.InRange (adr fp d) := fun hw => w.inRange hd (by omega)
  have r1 : 2 ≤ width z → Isa.InRange (adr fp d + 1) := fun hw => by
    rw [← adr_succ]; exact w.inRange (by omega) (by omega)
  have t0 : b'.layout.frame = b.layout.frame + 2 → Isa.InRange (adr fp b.layout.frame) := fun hw =>
    w.inRange (by omega) (by omega)
  have t1 : b'.layout.frame = b.layout.frame + 2 → Isa.InRange (adr fp b.layout.frame + 1) := fun hw => by
    rw [← adr_succ]; exact w.inRange (by omega) (by omega)
  cases op <;> simp only [Builder.u32FpFp, reduceCtorEq, Except.ok.injEq] at h <;> subst h <;>
    simp only [binary, Option.some.injEq] at hop
  case U32Add =>
    subst hop
    exact computes_split w hd (by simp only [width] at hd'; omega) (Nat.mod_lt _ (by norm_num)) (runs_push' hfit rfl
      (sem_u32Add (adr_ofI32 _ _) (adr_ofI32 _ _) (adr_ofI32 _ _) h0 h1 (r0 (by simp [width])) (r1 (by simp [width]))))
  case U32Sub =>
    subst hop
    exact computes_split w hd (by simp only [width] at hd'; omega) (Nat.mod_lt _ (by norm_num)) (runs_push' hfit rfl
      (sem_u32Sub (adr_ofI32 _ _) (adr_ofI32 _ _) (adr_ofI32 _ _) h0 h1 (r0 (by simp [width])) (r1 (by simp [width]))))
  case U32Mul =>
    subst hop
    exact computes_split w hd (by simp only [width] at hd'; omega) (Nat.mod_lt _ (by norm_num)) (runs_push' hfit rfl
      (sem_u32Mul (adr_ofI32 _ _) (adr_ofI32 _ _) (adr_ofI32 _ _) h0 h1 (r0 (by simp [width])) (r1 (by simp [width]))))
  case U32BitwiseAnd =>
    subst hop
    exact computes_split w hd (by simp only [width] at hd'; omega) (land_lt hn) (runs_push' hfit rfl
      (sem_u32And (adr_ofI32 _ _) (adr_ofI32 _ _) (adr_ofI32 _ _) h0 h1 (r0 (by simp [width])) (r1 (by simp [width]))))
  case U32BitwiseOr =>
    subst hop
    exact computes_split w hd (by simp only [width] at hd'; omega) (lor_lt hn hk) (runs_push' hfit rfl
      (sem_u32Or (adr_ofI32 _ _) (adr_ofI32 _ _) (adr_ofI32 _ _) h0 h1 (r0 (by simp [width])) (r1 (by simp [width]))))
  case U32BitwiseXor =>
    subst hop
    exact computes_split w hd (by simp only [width] at hd'; omega) (xor_lt hn hk) (runs_push' hfit rfl
      (sem_u32Xor (adr_ofI32 _ _) (adr_ofI32 _ _) (adr_ofI32 _ _) h0 h1 (r0 (by simp [width])) (r1 (by simp [width]))))
  case U32Eq =>
    subst hop
    exact computes_bool (r0 (by simp [width])) (bit_decide _) (runs_push' hfit rfl
      (sem_u32Eq (adr_ofI32 _ _) (adr_ofI32 _ _) (adr_ofI32 _ _) h0 h1 (r0 (by simp [width]))))
  case U32Less =>
    subst hop
    exact computes_bool (r0 (by simp [width])) (bit_decide _) (runs_push' hfit rfl
      (sem_u32Lt (adr_ofI32 _ _) (adr_ofI32 _ _) (adr_ofI32 _ _) h0 h1 (r0 (by simp [width]))))
  case U32Div =>
    split at hop
    · cases hop
    · rename_i hk0
      cases hop
      exact computes_div w hd (by simpa [width] using hd') rfl hhi (Nat.lt_of_le_of_lt (Nat.div_le_self _ _) hn)
        (runs_push' (b := (b.reserve 2).2) hfit rfl (sem_u32DivRem (adr_ofI32 _ _) (adr_ofI32 _ _) (adr_ofI32 _ _) (adr_ofI32 _ _) h0 h1 hk0
          (r0 (by simp [width])) (r1 (by simp [width])) (t0 rfl) (t1 rfl)))
  case U32Rem =>
    split at hop
    · cases hop
    · rename_i hk0
      cases hop
      exact computes_rem w hd (by simpa [width] using hd') rfl hhi (Nat.lt_of_le_of_lt (Nat.mod_le _ _) hn)
        (runs_push' (b := (b.reserve 2).2) hfit rfl (sem_u32DivRem (adr_ofI32 _ _) (adr_ofI32 _ _) (adr_ofI32 _ _) (adr_ofI32 _ _) h0 h1 hk0
          (t0 rfl) (t1 rfl) (r0 (by simp [width])) (r1 (by simp [width]))))

theorem sub_as_add {n : ℕ} {imm : BitVec 32} (_hn : n < 2 ^ 32) :
    (n + 2 ^ 32 - imm.toNat) % 2 ^ 32 = (n + (Builder.twosComplement imm).toNat) % 2 ^ 32 := by
  have h := imm.isLt
  have e : (Builder.twosComplement imm).toNat = (2 ^ 32 - imm.toNat) % 2 ^ 32 := by
    have h1 : Builder.twosComplement imm = -imm := by
      rw [Builder.twosComplement, BitVec.neg_eq_not_add]; rfl
    rw [h1, BitVec.toNat_neg]
  rw [e]
  omega

theorem runs_u32FpImm {b b' : Builder} {op : BinaryOp} {s d lo hi : ℤ} {n : ℕ} {imm : BitVec 32} {z : Val}
    (w : Window fp lo hi) (h : b.u32FpImm op s imm d = .ok b') (hop : binary op (.u32 n) (.u32 imm.toNat) = some z)
    (h0 : Isa.u32 m (adr fp s) = some n) (hd : lo ≤ d)
    (hd' : d + width z ≤ b.layout.frame) (hhi : (b'.layout.frame : ℤ) ≤ hi) (hfit : Fits code tgt b') :
    Computes code tgt fp b b' m d z := by
  have hn := u32_lt h0
  have hk := imm.isLt
  have hf := (ext_u32FpImm h).frame
  have r0 : 1 ≤ width z → Isa.InRange (adr fp d) := fun hw => w.inRange hd (by omega)
  have r1 : 2 ≤ width z → Isa.InRange (adr fp d + 1) := fun hw => by
    rw [← adr_succ]; exact w.inRange (by omega) (by omega)
  have t0 : b'.layout.frame = b.layout.frame + 2 → Isa.InRange (adr fp b.layout.frame) := fun hw =>
    w.inRange (by omega) (by omega)
  have t1 : b'.layout.frame = b.layout.frame + 2 → Isa.InRange (adr fp b.layout.frame + 1) := fun hw => by
    rw [← adr_succ]; exact w.inRange (by omega) (by omega)
  cases op <;> simp only [Builder.u32FpImm, reduceCtorEq, Except.ok.injEq] at h <;> subst h <;>
    simp only [binary, Option.some.injEq] at hop
  case U32Add =>
    subst hop
    exact computes_split w hd (by simp only [width] at hd'; omega) (Nat.mod_lt _ (by norm_num)) (runs_push' hfit rfl
      (sem_u32AddImm (adr_ofI32 _ _) (adr_ofI32 _ _) h0 (ofLimbs_lit _) (r0 (by simp [width])) (r1 (by simp [width]))))
  case U32Sub =>
    subst hop
    rw [sub_as_add hn]
    exact computes_split w hd (by simp only [width] at hd'; omega) (Nat.mod_lt _ (by norm_num)) (runs_push' hfit rfl
      (sem_u32AddImm (adr_ofI32 _ _) (adr_ofI32 _ _) h0 (ofLimbs_lit _) (r0 (by simp [width])) (r1 (by simp [width]))))
  case U32Mul =>
    subst hop
    exact computes_split w hd (by simp only [width] at hd'; omega) (Nat.mod_lt _ (by norm_num)) (runs_push' hfit rfl
      (sem_u32MulImm (adr_ofI32 _ _) (adr_ofI32 _ _) h0 (ofLimbs_lit _) (r0 (by simp [width])) (r1 (by simp [width]))))
  case U32BitwiseAnd =>
    subst hop
    exact computes_split w hd (by simp only [width] at hd'; omega) (land_lt hn) (runs_push' hfit rfl
      (sem_u32AndImm (adr_ofI32 _ _) (adr_ofI32 _ _) h0 (ofLimbs_lit _) (r0 (by simp [width])) (r1 (by simp [width]))))
  case U32BitwiseOr =>
    subst hop
    exact computes_split w hd (by simp only [width] at hd'; omega) (lor_lt hn hk) (runs_push' hfit rfl
      (sem_u32OrImm (adr_ofI32 _ _) (adr_ofI32 _ _) h0 (ofLimbs_lit _) (r0 (by simp [width])) (r1 (by simp [width]))))
  case U32BitwiseXor =>
    subst hop
    exact computes_split w hd (by simp only [width] at hd'; omega) (xor_lt hn hk) (runs_push' hfit rfl
      (sem_u32XorImm (adr_ofI32 _ _) (adr_ofI32 _ _) h0 (ofLimbs_lit _) (r0 (by simp [width])) (r1 (by simp [width]))))
  case U32Eq =>
    subst hop
    exact computes_bool (r0 (by simp [width])) (bit_decide _) (runs_push' hfit rfl
      (sem_u32EqImm (adr_ofI32 _ _) (adr_ofI32 _ _) h0 (ofLimbs_lit _) (r0 (by simp [width]))))
  case U32Less =>
    subst hop
    exact computes_bool (r0 (by simp [width])) (bit_decide _) (runs_push' hfit rfl
      (sem_u32LtImm (adr_ofI32 _ _) (adr_ofI32 _ _) h0 (ofLimbs_lit _) (r0 (by simp [width]))))
  case U32Div =>
    split at hop
    · cases hop
    · rename_i hk0
      cases hop
      exact computes_div w hd (by simpa [width] using hd') rfl hhi (Nat.lt_of_le_of_lt (Nat.div_le_self _ _) hn)
        (runs_push' (b := (b.reserve 2).2) hfit rfl (sem_u32DivRemImm (adr_ofI32 _ _) (adr_ofI32 _ _) (adr_ofI32 _ _) h0 (ofLimbs_lit _) hk0
          (r0 (by simp [width])) (r1 (by simp [width])) (t0 rfl) (t1 rfl)))
  case U32Rem =>
    split at hop
    · cases hop
    · rename_i hk0
      cases hop
      exact computes_rem w hd (by simpa [width] using hd') rfl hhi (Nat.lt_of_le_of_lt (Nat.mod_le _ _) hn)
        (runs_push' (b := (b.reserve 2).2) hfit rfl (sem_u32DivRemImm (adr_ofI32 _ _) (adr_ofI32 _ _) (adr_ofI32 _ _) h0 (ofLimbs_lit _) hk0
          (t0 rfl) (t1 rfl) (r0 (by simp [width])) (r1 (by simp [width]))))

theorem runs_storeU32Imm {b : Builder} {v : BitVec 32} {d : ℤ} (hfit : Fits code tgt (b.storeU32Imm v d))
    (hd : Isa.InRange (adr fp d)) (hd1 : Isa.InRange (adr fp d + 1)) :
    Runs code tgt fp (b.instrs.length, m)
      ((b.storeU32Imm v d).instrs.length, Isa.write m (Isa.split (adr fp d) v.toNat)) :=
  runs_push' hfit rfl (sem_u32Lit (adr_ofI32 _ _) (ofLimbs_lit _) hd hd1)

theorem ext_u32Const {b b' : Builder} {op : BinaryOp} {d : ℤ} {x y : BitVec 32} (h : b.u32Const op d x y = .ok b') :
    Ext b b' := by
  cases op <;> simp only [Builder.u32Const, reduceCtorEq, Except.ok.injEq] at h
  case U32Div =>
    split at h
    · cases h
    · cases h; exact Ext.push.trans (Ext.reserve.trans Ext.push)
  case U32Rem =>
    split at h
    · cases h
    · cases h; exact Ext.push
  all_goals subst h; exact Ext.push

theorem runs_u32Const {b b' : Builder} {op : BinaryOp} {d lo hi : ℤ} {x y : BitVec 32} {z : Val}
    (w : Window fp lo hi) (h : b.u32Const op d x y = .ok b')
    (hop : binary op (.u32 x.toNat) (.u32 y.toNat) = some z) (hd : lo ≤ d)
    (hd' : d + width z ≤ b.layout.frame) (hhi : (b'.layout.frame : ℤ) ≤ hi) (hfit : Fits code tgt b') :
    Computes code tgt fp b b' m d z := by
  have hf := (ext_u32Const h).frame
  have hx := x.isLt
  have hy := y.isLt
  have r0 : 1 ≤ width z → Isa.InRange (adr fp d) := fun hw => w.inRange hd (by omega)
  have r1 : 2 ≤ width z → Isa.InRange (adr fp d + 1) := fun hw => by
    rw [← adr_succ]; exact w.inRange (by omega) (by omega)
  have lit : ∀ {c : Builder} {v : BitVec 32} {n : ℕ}, z = .u32 n → v.toNat = n → c = b.storeU32Imm v d → c = b' →
      Computes code tgt fp b b' m d z := by
    intro c v n hz hv hc hcb
    subst hz hv hc hcb
    exact computes_split w hd (by simp only [width] at hd'; omega) v.isLt
      (runs_storeU32Imm hfit (r0 (by simp [width])) (r1 (by simp [width])))
  have blit : ∀ {p : Bool}, z = .bool p → b.storeImm (Builder.boolWord p) d = b' →
      Computes code tgt fp b b' m d z := by
    intro p hz hc
    subst hz hc
    exact computes_bool (r0 (by simp [width])) (toM31_boolWord _) (runs_storeImm hfit (r0 (by simp [width])))
  cases op <;> simp only [Builder.u32Const, reduceCtorEq, Except.ok.injEq] at h <;>
    simp only [binary, Option.some.injEq] at hop
  case U32Add => exact lit hop.symm (by rw [BitVec.toNat_add]) rfl h
  case U32Sub => exact lit hop.symm (by rw [BitVec.toNat_sub]; congr 1; omega) rfl h
  case U32Mul => exact lit hop.symm (by rw [BitVec.toNat_mul]) rfl h
  case U32BitwiseAnd => exact lit hop.symm (by rw [BitVec.toNat_and]; rfl) rfl h
  case U32BitwiseOr => exact lit hop.symm (by rw [BitVec.toNat_or]; rfl) rfl h
  case U32BitwiseXor => exact lit hop.symm (by rw [BitVec.toNat_xor]; rfl) rfl h
  case U32Eq =>
    refine blit hop.symm ?_
    rw [← h]
    congr 2
    rw [Bool.eq_iff_iff]
    simp [BitVec.toNat_inj]
  case U32Less =>
    refine blit hop.symm ?_
    rw [← h]
    rfl
  case U32Rem =>
    split at h
    · cases h
    · split at hop
      · cases hop
      · exact lit (Option.some.inj hop).symm (by rw [BitVec.toNat_umod]) rfl (Except.ok.inj h)
  case U32Div =>
    split at h
    · cases h
    · split at hop
      · cases hop
      · cases hop
        have hb := Except.ok.inj h
        subst hb
        set b1 := b.storeU32Imm (x / y) d
        have e1 : Ext b1 ((b1.reserve 2).2.storeU32Imm (x % y) (b1.reserve 2).1) := Ext.reserve.trans Ext.push
        have fitb1 := e1.fits hfit
        have hff : ((b1.reserve 2).2.storeU32Imm (x % y) (b1.reserve 2).1).layout.frame = b.layout.frame + 2 := rfl
        refine computes_div w hd (by simpa [width] using hd') hff hhi
          (Nat.lt_of_le_of_lt (Nat.div_le_self _ _) hx) (r := x.toNat % y.toNat) ?_
        have s1 := runs_storeU32Imm (m := m) (fp := fp) fitb1 (r0 (by simp [width])) (r1 (by simp [width]))
        have s2 := runs_storeU32Imm (m := Isa.write m (Isa.split (adr fp d) (x / y).toNat)) (fp := fp) hfit
          (w.inRange (o := (b.layout.frame : ℤ)) (by omega) (by omega))
          (by rw [← adr_succ]; exact w.inRange (o := (b.layout.frame : ℤ) + 1) (by omega) (by omega))
        have := s1.trans s2
        rw [write_append]
        rw [BitVec.toNat_udiv, BitVec.toNat_umod] at this
        exact this

theorem binary_comm {op : BinaryOp} (h : Builder.commU32 op = true) (n k : ℕ) :
    binary op (.u32 n) (.u32 k) = binary op (.u32 k) (.u32 n) := by
  cases op <;> simp only [Builder.commU32, reduceCtorEq] at h <;> simp only [binary]
  · rw [add_comm]
  · rw [mul_comm]
  · simp only [eq_comm]
  · simp only [ne_eq, eq_comm]
  · rw [show Nat.land n k = Nat.land k n from Nat.and_comm n k]
  · rw [show Nat.lor n k = Nat.lor k n from Nat.or_comm n k]
  · rw [show Nat.xor n k = Nat.xor k n from Nat.xor_comm n k]

theorem canonU32_cases (op : BinaryOp) (l r : Value) :
    Builder.canonU32 op l r = (l, r) ∨ (Builder.commU32 op = true ∧ Builder.canonU32 op l r = (r, l)) := by
  unfold Builder.canonU32
  split
  · rename_i h
    split
    · exact Or.inr ⟨h, rfl⟩
    · exact Or.inl rfl
  · exact Or.inl rfl

/-- The part of `u32Op` after normalisation. -/
def u32Core (b : Builder) (op : BinaryOp) (d : ℤ) (l r : Value) : Except Err Builder :=
  match (l, r) with
  | (.Operand x, .Operand y) => do
    let lo ← b.layout.getOffset x
    let ro ← b.layout.getOffset y
    b.u32FpFp op lo ro d
  | (.Operand x, .Literal (.Integer imm)) => do
    let lo ← b.layout.getOffset x
    if (op = .U32Div ∨ op = .U32Rem) ∧ imm = 0 then .error .invalidMir
    else b.u32FpImm op lo imm d
  | (.Literal (.Integer imm), .Operand y) => do
    let ro ← b.layout.getOffset y
    if Builder.commU32 op then b.u32FpImm op ro imm d
    else if op = .U32Sub ∨ op = .U32Div ∨ op = .U32Rem ∨ op = .U32Less then
      let (tmp, b) := b.reserve 2
      let b := b.storeU32Imm imm tmp
      b.u32FpFp op tmp ro d
    else .error .unsupported
  | (.Literal (.Integer x), .Literal (.Integer y)) => b.u32Const op d x y
  | _ => .error .unsupported

theorem runs_u32Core {b b' : Builder} {op : BinaryOp} {d lo hi : ℤ} {l r : Value} {n k : ℕ} {z : Val}
    (w : Window fp lo hi) (hl : HasU32 b.layout m fp lo l n) (hr : HasU32 b.layout m fp lo r k)
    (hop : binary op (.u32 n) (.u32 k) = some z) (hd : lo ≤ d) (hd' : d + width z ≤ b.layout.frame)
    (h : u32Core b op d l r = .ok b') (hhi : (b'.layout.frame : ℤ) ≤ hi) (hfit : Fits code tgt b') :
    Ext b b' ∧ Computes code tgt fp b b' m d z := by
  unfold u32Core at h
  cases l with
  | Error => cases hl
  | Operand id =>
    obtain ⟨s, hs, hs1, hs2, hsv⟩ := hl
    cases r with
    | Error => cases hr
    | Operand id' =>
      obtain ⟨t, ht, ht1, ht2, htv⟩ := hr
      simp only [getOffset_ok hs, getOffset_ok ht, bind, Except.bind] at h
      exact ⟨ext_u32FpFp h, runs_u32FpFp w h hop hsv htv hd hd' hhi hfit⟩
    | Literal lit =>
      cases lit with
      | Boolean _ => cases hr
      | Unit => cases hr
      | Integer imm =>
        simp only [HasU32] at hr
        subst hr
        simp only [getOffset_ok hs, bind, Except.bind] at h
        split at h
        · cases h
        · exact ⟨ext_u32FpImm h, runs_u32FpImm w h hop hsv hd hd' hhi hfit⟩
  | Literal lit =>
    cases lit with
    | Boolean _ => cases hl
    | Unit => cases hl
    | Integer imm =>
      simp only [HasU32] at hl
      subst hl
      cases r with
      | Error => cases hr
      | Literal lit' =>
        cases lit' with
        | Boolean _ => cases hr
        | Unit => cases hr
        | Integer imm' =>
          simp only [HasU32] at hr
          subst hr
          exact ⟨ext_u32Const h, runs_u32Const w h hop hd hd' hhi hfit⟩
      | Operand id' =>
        obtain ⟨t, ht, ht1, ht2, htv⟩ := hr
        simp only [getOffset_ok ht, bind, Except.bind] at h
        split at h
        · rename_i hc
          rw [binary_comm hc] at hop
          exact ⟨ext_u32FpImm h, runs_u32FpImm w h hop htv hd hd' hhi hfit⟩
        · split at h
          · set b1 := (b.reserve 2).2.storeU32Imm imm (b.reserve 2).1 with hb1
            have e01 : Ext b b1 := Ext.reserve.trans Ext.push
            have e1 := ext_u32FpFp h
            have hfr : b1.layout.frame = b.layout.frame + 2 := rfl
            have hf := e1.frame
            have fit1 := e1.fits hfit
            have r1 := runs_storeU32Imm (m := m) (fp := fp) fit1
              (w.inRange (o := (b.layout.frame : ℤ)) (by omega) (by omega))
              (by rw [← adr_succ]; exact w.inRange (o := (b.layout.frame : ℤ) + 1) (by omega) (by omega))
            have hself : Holds (Isa.write m (Isa.split (adr fp b.layout.frame) imm.toNat)) fp b.layout.frame
                (.u32 imm.toNat) := holds_split w (by omega) (by omega) imm.isLt
            have hsame : SameExcept fp (fun o => (b.layout.frame : ℤ) ≤ o ∧ o < b1.layout.frame) m
                (Isa.write m (Isa.split (adr fp b.layout.frame) imm.toNat)) :=
              same_split ⟨le_rfl, by omega⟩ ⟨by omega, by omega⟩
            have hother : Holds (Isa.write m (Isa.split (adr fp b.layout.frame) imm.toNat)) fp t.off (.u32 k) := by
              refine hsame.holds w ht1 (by simp only [width]; omega) (fun t ht => ⟨by omega, by omega⟩) ?_ htv
              intro o o1 o2 o3
              simp only [width] at o2
              omega
            obtain ⟨m', r2, v2, s2⟩ := runs_u32FpFp w h hop hself hother hd (by omega) hhi hfit
            refine ⟨e01.trans e1, m', r1.trans r2, v2, ?_⟩
            refine (hsame.mono ?_).trans (s2.mono ?_)
            · intro o ho
              exact Or.inr ⟨ho.1, by omega⟩
            · intro o ho
              rcases ho with ho | ho
              · exact Or.inl ho
              · exact Or.inr ⟨by omega, ho.2⟩
          · cases h

theorem runs_u32Op {b b' : Builder} {op : BinaryOp} {d lo hi : ℤ} {l r : Value} {n k : ℕ} {z : Val}
    (w : Window fp lo hi) (hl : HasU32 b.layout m fp lo l n) (hr : HasU32 b.layout m fp lo r k)
    (hop : binary op (.u32 n) (.u32 k) = some z) (hd : lo ≤ d) (hd' : d + width z ≤ b.layout.frame)
    (h : b.u32Op op d l r = .ok b') (hhi : (b'.layout.frame : ℤ) ≤ hi) (hfit : Fits code tgt b') :
    Ext b b' ∧ Computes code tgt fp b b' m d z := by
  unfold Builder.u32Op at h
  split at h
  · cases h
  · have h : u32Core b op d (Builder.canonU32 op l r).1 (Builder.canonU32 op l r).2 = .ok b' := h
    rcases canonU32_cases op l r with e | ⟨ho, e⟩
    · rw [e] at h
      exact runs_u32Core w hl hr hop hd hd' h hhi hfit
    · rw [e] at h
      rw [binary_comm ho] at hop
      exact runs_u32Core w hr hl hop hd hd' h hhi hfit

end

end Codegen
end CairoM
