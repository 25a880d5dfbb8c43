import Verif.CodegenFelt

/-!
# Code emitted for comparisons and boolean connectives: helper lemmas
-/

namespace CairoM
namespace Codegen

open Mir Lang Relation

section

variable {code : List IB} {tgt : Name → Option ℕ} {fp : M31} {m : Isa.Mem}

theorem runs_jump {b : Builder} {l : Name} {j : ℕ} (hfit : Fits code tgt (b.jump l)) (hj : tgt l = some j) :
    Runs code tgt fp (b.instrs.length, m) (j, m) := Runs.single (.jump (fetch_pushL hfit) hj)

theorem runs_jnz {b : Builder} {l : Name} {o : ℤ} {x : M31} {j : ℕ} (hfit : Fits code tgt (b.jnzOffset o l))
    (hx : Isa.felt m (adr fp o) = some x) (hj : tgt l = some j) :
    Runs code tgt fp (b.instrs.length, m) (if x = 0 then (b.jnzOffset o l).instrs.length else j, m) := by
  rw [← adr_ofI32] at hx
  by_cases h0 : x = 0
  · rw [if_pos h0]
    subst h0
    have := Step.fall (tgt := tgt) (fetch_pushL hfit) hx
    rw [← length_pushL (b := b) (i := .JnzFpImm (ofI32 o) 0) (l := l)] at this
    exact Runs.single this
  · rw [if_neg h0]
    exact Runs.single (.branch (fetch_pushL hfit) hx h0 hj)

theorem fits_addLabel {b : Builder} {l : Name} (h : Fits code tgt (b.addLabel l)) :
    tgt l = some b.instrs.length :=
  h.labels _ (List.mem_append_right _ (List.mem_singleton.2 rfl))

theorem Fits.of_newLabel {b : Builder} {l : Name} (h : Fits code tgt (b.newLabel l).2) : Fits code tgt b :=
  ⟨h.code, h.labels⟩

theorem toM31_boolWord (x : Bool) : toM31 (Builder.boolWord x) = if x then 1 else 0 := by
  cases x <;> simp [Builder.boolWord, toM31]

theorem put_put (m : Isa.Mem) (a v w : M31) : put (put m a v) a w = put m a w := by simp [put]

theorem ext_setBool {b : Builder} {d : ℤ} {t : Bool} {nz fin : Name} :
    Ext b (b.setBool d t nz fin) ∧ (b.setBool d t nz fin).layout = b.layout ∧
      (b.setBool d t nz fin).instrs.length = b.instrs.length + 4 := by
  refine ⟨?_, rfl, ?_⟩
  · exact Ext.pushL.trans (Ext.push.trans (Ext.pushL.trans (Ext.addLabel.trans (Ext.push.trans Ext.addLabel))))
  · simp [Builder.setBool, Builder.jnzOffset, Builder.jump, Builder.storeImm, Builder.push, Builder.pushL,
      Builder.addLabel]

theorem runs_setBool {b : Builder} {d : ℤ} {t : Bool} {nz fin : Name} {x : M31}
    (hfit : Fits code tgt (b.setBool d t nz fin)) (hd : Isa.InRange (adr fp d))
    (hx : Isa.felt m (adr fp d) = some x) :
    Runs code tgt fp (b.instrs.length, m)
      ((b.setBool d t nz fin).instrs.length, put m (adr fp d) (if (decide (x = 0) = t) then 1 else 0)) := by
  let b1 := b.jnzOffset d nz
  let b2 := b1.storeImm (Builder.boolWord t) d
  let b3 := b2.jump fin
  let b4 := b3.addLabel nz
  let b5 := b4.storeImm (Builder.boolWord (!t)) d
  have e5 : Ext b5 (b.setBool d t nz fin) := Ext.addLabel
  have e4 : Ext b4 (b.setBool d t nz fin) := Ext.push.trans e5
  have e3 : Ext b3 (b.setBool d t nz fin) := Ext.addLabel.trans e4
  have e2 : Ext b2 (b.setBool d t nz fin) := Ext.pushL.trans e3
  have e1 : Ext b1 (b.setBool d t nz fin) := Ext.push.trans e2
  have hfin : tgt fin = some b5.instrs.length := fits_addLabel hfit
  have hnz : tgt nz = some b3.instrs.length := fits_addLabel (e4.fits hfit)
  have r1 := runs_jnz (e1.fits hfit) hx hnz
  have hlen : (b.setBool d t nz fin).instrs.length = b5.instrs.length := rfl
  rw [hlen]
  by_cases h0 : x = 0
  · rw [if_pos h0] at r1
    have r2 := runs_storeImm (m := m) (fp := fp) (e2.fits hfit) hd
    have r3 := runs_jump (m := put m (adr fp d) (toM31 (Builder.boolWord t))) (fp := fp) (e3.fits hfit) hfin
    have := r1.trans (r2.trans r3)
    have hv : toM31 (Builder.boolWord t) = if decide (x = 0) = t then 1 else 0 := by
      rw [toM31_boolWord]; cases t <;> simp [h0]
    rwa [hv] at this
  · rw [if_neg h0] at r1
    have r2 := runs_storeImm (m := m) (fp := fp) (e5.fits hfit) hd
    have := r1.trans r2
    have hv : toM31 (Builder.boolWord !t) = if decide (x = 0) = t then 1 else 0 := by
      rw [toM31_boolWord]; cases t <;> simp [h0]
    rwa [hv] at this

/-- Equality tests: a subtraction followed by a test for zero. -/
theorem runs_eqTest {b b1 : Builder} {t : Bool} {d lo hi : ℤ} {l r : Value} {x y : M31} {nz fin p q : Name}
    (w : Window fp lo hi) (hl : HasFelt b.layout m fp lo l x) (hr : HasFelt b.layout m fp lo r y)
    (sl : SmallLit l) (sr : SmallLit r) (hd : lo ≤ d) (hd' : d + 1 ≤ b.layout.frame)
    (h : b.feltArith .Sub d l r = .ok b1)
    (hhi : (b1.layout.frame : ℤ) ≤ hi)
    (hfit : Fits code tgt (((b1.newLabel p).2.newLabel q).2.setBool d t nz fin)) :
    Ext b (((b1.newLabel p).2.newLabel q).2.setBool d t nz fin) ∧
      FeltRun code tgt fp b (((b1.newLabel p).2.newLabel q).2.setBool d t nz fin) m d
        (if (decide (x = y) = t) then 1 else 0) := by
  have e1 : Ext b1 (((b1.newLabel p).2.newLabel q).2.setBool d t nz fin) :=
    Ext.newLabel.trans (Ext.newLabel.trans ext_setBool.1)
  obtain ⟨e0, -, m', r0, v0, s0⟩ := runs_feltArith w hl hr sl sr (z := x - y) rfl hd hd' h hhi (e1.fits hfit)
  have hf := e0.frame
  have dr : Isa.InRange (adr fp d) := w.inRange hd (by omega)
  have r1 := runs_setBool hfit dr v0
  refine ⟨e0.trans e1, _, r0.trans r1, ?_, s0.trans (SameExcept.put (Or.inl rfl))⟩
  rw [felt_put_same dr]
  simp only [sub_eq_zero]

theorem runs_feltEq {b b' : Builder} {d lo hi : ℤ} {l r : Value} {x y : M31}
    (w : Window fp lo hi) (hl : HasFelt b.layout m fp lo l x) (hr : HasFelt b.layout m fp lo r y)
    (sl : SmallLit l) (sr : SmallLit r) (hd : lo ≤ d) (hd' : d + 1 ≤ b.layout.frame)
    (h : b.feltEq d l r = .ok b') (hhi : (b'.layout.frame : ℤ) ≤ hi) (hfit : Fits code tgt b') :
    Ext b b' ∧ FeltRun code tgt fp b b' m d (if x = y then 1 else 0) := by
  unfold Builder.feltEq at h
  cases h1 : b.feltArith .Sub d l r with
  | error e => rw [h1] at h; cases h
  | ok b1 =>
    rw [h1] at h
    have hb := Except.ok.inj h
    rw [← hb] at hhi hfit ⊢
    have hv : (if (decide (x = y) = true) then (1 : M31) else 0) = if x = y then 1 else 0 := by
      by_cases e : x = y <;> simp [e]
    rw [← hv]
    exact runs_eqTest (t := true) (p := Builder.sNotZero) (q := Builder.sEnd) w hl hr sl sr hd hd' h1 hhi hfit

theorem runs_feltNeq {b b' : Builder} {d lo hi : ℤ} {l r : Value} {x y : M31}
    (w : Window fp lo hi) (hl : HasFelt b.layout m fp lo l x) (hr : HasFelt b.layout m fp lo r y)
    (sl : SmallLit l) (sr : SmallLit r) (hd : lo ≤ d) (hd' : d + 1 ≤ b.layout.frame)
    (h : b.feltNeq d l r = .ok b') (hhi : (b'.layout.frame : ℤ) ≤ hi) (hfit : Fits code tgt b') :
    Ext b b' ∧ FeltRun code tgt fp b b' m d (if x = y then 0 else 1) := by
  unfold Builder.feltNeq at h
  cases h1 : b.feltArith .Sub d l r with
  | error e => rw [h1] at h; cases h
  | ok b1 =>
    rw [h1] at h
    have hb := Except.ok.inj h
    rw [← hb] at hhi hfit ⊢
    have hv : (if (decide (x = y) = false) then (1 : M31) else 0) = if x = y then 0 else 1 := by
      by_cases e : x = y <;> simp [e]
    rw [← hv]
    exact runs_eqTest (t := false) (p := Builder.sNeqNonZero) (q := Builder.sNeqEnd) w hl hr sl sr hd hd' h1 hhi
      hfit

/-! ### Boolean connectives -/

/-- The operand is not in slot `d`. -/
def NotIn (l : Layout) (d : ℤ) : Value → Prop
  | .Operand id => ∀ s, l.values id = some s → s.off ≠ d
  | _ => True

/-- A conditional jump on a boolean. -/
theorem runs_branchIf {b b' : Builder} {v : Value} {l : Name} {p : Bool} {j : ℕ} {lo : ℤ}
    (hv : Has b.layout m fp lo .bool v (.bool p)) (h : b.branchIfNonzero v l = .ok b')
    (hfit : Fits code tgt b') (hj : tgt l = some j) :
    Ext b b' ∧ b'.layout = b.layout ∧
      Runs code tgt fp (b.instrs.length, m) (if p then j else b'.instrs.length, m) := by
  cases v with
  | Error => cases hv
  | Literal lit =>
    cases lit <;> simp only [Has, denote, reduceCtorEq, Option.some.injEq, Val.bool.injEq] at hv
    subst hv
    simp only [Builder.branchIfNonzero, Builder.constTruth, Except.ok.injEq] at h
    rename_i q
    cases q
    · simp only [Bool.false_eq_true, if_false] at h ⊢
      subst h
      exact ⟨Ext.refl, rfl, Runs.refl⟩
    · simp only [if_true] at h ⊢
      subst h
      exact ⟨Ext.pushL, rfl, runs_jump hfit hj⟩
  | Operand id =>
    obtain ⟨-, s, hs, -, -, hx⟩ := hv
    simp only [Builder.branchIfNonzero, Builder.constTruth, getOffset_ok hs, Except.ok.injEq] at h
    subst h
    refine ⟨Ext.pushL, rfl, ?_⟩
    have := runs_jnz hfit hx hj
    cases p <;> simpa using this

theorem has_put {l l' : Layout} {d lo hi : ℤ} {v : Value} {t : Ty} {x : Val} {c : M31} (w : Window fp lo hi)
    (hw : width x = 1) (hv : Has l m fp lo t v x) (hl : l' = l) (hn : NotIn l d v) (hd : lo ≤ d) (hd' : d < hi)
    (hhi : (l.frame : ℤ) ≤ hi) : Has l' (put m (adr fp d) c) fp lo t v x := by
  subst hl
  cases v with
  | Error => cases hv
  | Literal lit => exact hv
  | Operand id =>
    obtain ⟨ht, s, hs, h1, h2, hx⟩ := hv
    refine ⟨ht, s, hs, h1, h2, holds_congr ?_ hx⟩
    intro o o1 o2
    have : o = s.off := by omega
    subst this
    refine Function.update_of_ne ?_ _ _
    intro e
    exact hn s hs (w.inj h1 (by omega) hd hd' e)

theorem ext_branchIf {b b' : Builder} {v : Value} {l : Name} (h : b.branchIfNonzero v l = .ok b') :
    Ext b b' ∧ b'.layout = b.layout := by
  unfold Builder.branchIfNonzero at h
  split at h
  · split at h <;> cases h
    · exact ⟨Ext.pushL, rfl⟩
    · exact ⟨Ext.refl, rfl⟩
  · split at h
    · split at h <;> cases h
      exact ⟨Ext.pushL, rfl⟩
    · cases h

/-- The common tail of `sc_or` and `sc_and`: a last test, then `1` is stored on the true path. -/
theorem runs_tail {b1 b2 : Builder} {d lo : ℤ} {r : Value} {q : Bool} {T F : Name} {jT jF : ℕ}
    (hd : Isa.InRange (adr fp d)) (hr : Has b1.layout m fp lo .bool r (.bool q))
    (h : b1.branchIfNonzero r T = .ok b2)
    (hT : jT = (b2.jump F).instrs.length)
    (hF : jF = (((b2.jump F).addLabel T).storeImm 1 d).instrs.length)
    (hfit : Fits code tgt ((((b2.jump F).addLabel T).storeImm 1 d).addLabel F)) :
    tgt T = some jT ∧ tgt F = some jF ∧ Fits code tgt b2 ∧
    (∀ m', Runs code tgt fp (jT, m') (jF, put m' (adr fp d) 1)) ∧
    Runs code tgt fp (b1.instrs.length, m) (jF, if q then put m (adr fp d) 1 else m) := by
  let b4 := b2.jump F
  let b5 := b4.addLabel T
  let b6 := b5.storeImm 1 d
  let b7 := b6.addLabel F
  have e6 : Ext b6 b7 := Ext.addLabel
  have e5 : Ext b5 b7 := Ext.push.trans e6
  have e4 : Ext b4 b7 := Ext.addLabel.trans e5
  have e3 : Ext b2 b7 := Ext.pushL.trans e4
  have hFt : tgt F = some jF := by rw [hF]; exact fits_addLabel hfit
  have hTt : tgt T = some jT := by rw [hT]; exact fits_addLabel (e5.fits hfit)
  have tail : ∀ m', Runs code tgt fp (jT, m') (jF, put m' (adr fp d) 1) := by
    intro m'
    have := runs_storeImm (m := m') (fp := fp) (e6.fits hfit) hd
    rw [hT, hF]
    have h1 : toM31 (1 : BitVec 32) = 1 := toM31_boolWord true
    rw [h1] at this
    exact this
  refine ⟨hTt, hFt, e3.fits hfit, tail, ?_⟩
  obtain ⟨-, -, r1⟩ := runs_branchIf hr h (e3.fits hfit) hTt
  cases q
  · exact r1.trans (runs_jump (e4.fits hfit) hFt)
  · exact r1.trans (tail m)

theorem runs_scOr {b b' : Builder} {d lo hi : ℤ} {l r : Value} {p q : Bool} (w : Window fp lo hi)
    (hl : Has b.layout m fp lo .bool l (.bool p)) (hr : Has b.layout m fp lo .bool r (.bool q))
    (nl : NotIn b.layout d l) (nr : NotIn b.layout d r) (hd : lo ≤ d) (hd' : d + 1 ≤ b.layout.frame)
    (h : b.scOr d l r = .ok b') (hhi : (b'.layout.frame : ℤ) ≤ hi) (hfit : Fits code tgt b') :
    Ext b b' ∧ b'.layout = b.layout ∧
      Runs code tgt fp (b.instrs.length, m) (b'.instrs.length, put m (adr fp d) (if p || q then 1 else 0)) := by
  simp only [Builder.scOr] at h
  set b1 := (((b.storeImm 0 d).newLabel Builder.sOrTrue).2.newLabel Builder.sOrEnd).2 with hb1
  have e01 : Ext b b1 := Ext.push.trans (Ext.newLabel.trans Ext.newLabel)
  generalize hT : ((b.storeImm 0 d).newLabel Builder.sOrTrue).1 = T at h
  generalize hF : (((b.storeImm 0 d).newLabel Builder.sOrTrue).2.newLabel Builder.sOrEnd).1 = F at h
  cases h2 : b1.branchIfNonzero l T with
  | error e => rw [h2] at h; cases h
  | ok b2 =>
    rw [h2] at h
    cases h3 : b2.branchIfNonzero r T with
    | error e => simp only [bind, Except.bind, h3] at h; cases h
    | ok b3 =>
      simp only [bind, Except.bind, h3, pure, Except.pure, Except.ok.injEq] at h
      obtain ⟨e12, l12⟩ := ext_branchIf h2
      obtain ⟨e23, l23⟩ := ext_branchIf h3
      have e37 : Ext b3 b' := by
        rw [← h]; exact Ext.pushL.trans (Ext.addLabel.trans (Ext.push.trans Ext.addLabel))
      have lay1 : b1.layout = b.layout := rfl
      have lay7 : b'.layout = b3.layout := by rw [← h]; rfl
      have lay : b'.layout = b.layout := by rw [lay7, l23, l12, lay1]
      rw [lay] at hhi
      have dr : Isa.InRange (adr fp d) := w.inRange hd (by omega)
      have hl1 : Has b1.layout (put m (adr fp d) 0) fp lo .bool l (.bool p) :=
        has_put w rfl hl lay1 nl hd (by omega) hhi
      have hr1 : Has b2.layout (put m (adr fp d) 0) fp lo .bool r (.bool q) :=
        has_put w rfl hr (l12.trans lay1) nr hd (by omega) hhi
      have fit3 := e37.fits hfit
      have fit1 := (e12.trans e23).fits fit3
      have r0 : Runs code tgt fp (b.instrs.length, m) (b1.instrs.length, put m (adr fp d) 0) := by
        have := runs_storeImm (m := m) (fp := fp) ((Ext.newLabel.trans Ext.newLabel).fits fit1) dr
        have h0 : toM31 (0 : BitVec 32) = 0 := toM31_boolWord false
        rw [h0] at this
        exact this
      rw [← h] at hfit
      obtain ⟨hTt, hFt, fit3', tail, r2⟩ := runs_tail dr hr1 h3 rfl rfl hfit
      obtain ⟨-, -, r1⟩ := runs_branchIf hl1 h2 (e23.fits fit3) hTt
      refine ⟨e01.trans (e12.trans (e23.trans e37)), lay, ?_⟩
      rw [← h]
      cases p
      · have := r0.trans (r1.trans r2)
        cases q
        · exact this
        · rw [if_pos rfl, put_put] at this; exact this
      · have := r0.trans (r1.trans (tail _))
        rw [put_put] at this; exact this

theorem runs_scAndRight {b1 b' : Builder} {d lo : ℤ} {r : Value} {q : Bool} {C T F : Name}
    (hd : Isa.InRange (adr fp d)) (hr : Has b1.layout m fp lo .bool r (.bool q))
    (h : b1.scAndRight d r C T F = .ok b') (hfit : Fits code tgt b') :
    Ext b1 b' ∧ b'.layout = b1.layout ∧ tgt C = some b1.instrs.length ∧ tgt F = some b'.instrs.length ∧
    Runs code tgt fp (b1.instrs.length, m) (b'.instrs.length, if q then put m (adr fp d) 1 else m) := by
  simp only [Builder.scAndRight] at h
  cases h3 : (b1.addLabel C).branchIfNonzero r T with
  | error e => rw [h3] at h; cases h
  | ok b3 =>
    simp only [bind, Except.bind, h3, pure, Except.pure, Except.ok.injEq] at h
    obtain ⟨e23, l23⟩ := ext_branchIf h3
    have e37 : Ext b3 b' := by
      rw [← h]; exact Ext.pushL.trans (Ext.addLabel.trans (Ext.push.trans Ext.addLabel))
    have fitC : Fits code tgt (b1.addLabel C) := (e23.trans e37).fits hfit
    have hC := fits_addLabel fitC
    have lay : b'.layout = b1.layout := by rw [← h]; exact l23
    refine ⟨Ext.addLabel.trans (e23.trans e37), lay, hC, ?_⟩
    rw [← h] at hfit ⊢
    obtain ⟨hTt, hFt, -, tail, r2⟩ := runs_tail (b1 := b1.addLabel C) hd hr h3 rfl rfl hfit
    exact ⟨hFt, r2⟩

theorem ext_scAndRight {b1 b' : Builder} {d : ℤ} {r : Value} {C T F : Name}
    (h : b1.scAndRight d r C T F = .ok b') : Ext b1 b' ∧ b'.layout = b1.layout := by
  simp only [Builder.scAndRight] at h
  cases h3 : (b1.addLabel C).branchIfNonzero r T with
  | error e => rw [h3] at h; cases h
  | ok b3 =>
    simp only [bind, Except.bind, h3, pure, Except.pure, Except.ok.injEq] at h
    obtain ⟨e23, l23⟩ := ext_branchIf h3
    subst h
    exact ⟨Ext.addLabel.trans (e23.trans (Ext.pushL.trans (Ext.addLabel.trans (Ext.push.trans Ext.addLabel)))), l23⟩

theorem runs_scAnd {b b' : Builder} {d lo hi : ℤ} {l r : Value} {p q : Bool} (w : Window fp lo hi)
    (hl : Has b.layout m fp lo .bool l (.bool p)) (hr : Has b.layout m fp lo .bool r (.bool q))
    (nl : NotIn b.layout d l) (nr : NotIn b.layout d r) (hd : lo ≤ d) (hd' : d + 1 ≤ b.layout.frame)
    (h : b.scAnd d l r = .ok b') (hhi : (b'.layout.frame : ℤ) ≤ hi) (hfit : Fits code tgt b') :
    Ext b b' ∧ b'.layout = b.layout ∧
      Runs code tgt fp (b.instrs.length, m) (b'.instrs.length, put m (adr fp d) (if p && q then 1 else 0)) := by
  simp only [Builder.scAnd] at h
  set b1 := ((((b.storeImm 0 d).newLabel Builder.sAndCheck).2.newLabel Builder.sAndTrue).2.newLabel
    Builder.sAndEnd).2 with hb1
  generalize ((b.storeImm 0 d).newLabel Builder.sAndCheck).1 = C at h
  generalize (((b.storeImm 0 d).newLabel Builder.sAndCheck).2.newLabel Builder.sAndTrue).1 = T at h
  generalize ((((b.storeImm 0 d).newLabel Builder.sAndCheck).2.newLabel Builder.sAndTrue).2.newLabel
    Builder.sAndEnd).1 = F at h
  have eN : Ext (b.storeImm 0 d) b1 := Ext.newLabel.trans (Ext.newLabel.trans Ext.newLabel)
  have e01 : Ext b b1 := Ext.push.trans eN
  have lay1 : b1.layout = b.layout := rfl
  have start : Fits code tgt b1 → Isa.InRange (adr fp d) →
      Runs code tgt fp (b.instrs.length, m) (b1.instrs.length, put m (adr fp d) 0) := by
    intro fit dr
    have := runs_storeImm (m := m) (fp := fp) (eN.fits fit) dr
    have h0 : toM31 (0 : BitVec 32) = 0 := toM31_boolWord false
    rw [h0] at this
    exact this
  cases l with
  | Error => cases hl
  | Literal lit =>
    cases lit <;> simp only [Has, denote, reduceCtorEq, Option.some.injEq, Val.bool.injEq] at hl
    subst hl
    rename_i t
    cases t
    · simp only [Builder.constTruth, Except.ok.injEq] at h
      subst h
      have hhi' : (b.layout.frame : ℤ) ≤ hi := hhi
      have dr : Isa.InRange (adr fp d) := w.inRange hd (by omega)
      exact ⟨e01.trans Ext.addLabel, rfl, start (Ext.addLabel.fits hfit) dr⟩
    · simp only [Builder.constTruth] at h
      obtain ⟨ex, lx⟩ := ext_scAndRight h
      rw [lx, lay1] at hhi
      have dr : Isa.InRange (adr fp d) := w.inRange hd (by omega)
      have hr1 : Has b1.layout (put m (adr fp d) 0) fp lo .bool r (.bool q) :=
        has_put w rfl hr lay1 nr hd (by omega) hhi
      obtain ⟨-, -, -, -, r2⟩ := runs_scAndRight dr hr1 h hfit
      refine ⟨e01.trans ex, lx.trans lay1, ?_⟩
      have := (start (ex.fits hfit) dr).trans r2
      cases q
      · exact this
      · rw [if_pos rfl, put_put] at this; exact this
  | Operand id =>
    have hl0 := hl
    obtain ⟨-, s, hs, -, -, -⟩ := hl0
    have hs1 : b1.layout.values id = some s := hs
    simp only [Builder.constTruth, getOffset_ok hs1] at h
    obtain ⟨ex, lx⟩ := ext_scAndRight h
    have lay : b'.layout = b.layout := lx
    rw [lay] at hhi
    have dr : Isa.InRange (adr fp d) := w.inRange hd (by omega)
    have hl1 : Has b1.layout (put m (adr fp d) 0) fp lo .bool (.Operand id) (.bool p) :=
      has_put w rfl hl lay1 nl hd (by omega) hhi
    have hr1 : Has ((b1.jnzOffset s.off C).jump F).layout (put m (adr fp d) 0) fp lo .bool r (.bool q) :=
      has_put w rfl hr lay1 nr hd (by omega) hhi
    obtain ⟨-, -, hC, hFt, r2⟩ := runs_scAndRight dr hr1 h hfit
    have fitJ : Fits code tgt ((b1.jnzOffset s.off C).jump F) := ex.fits hfit
    have fitZ : Fits code tgt (b1.jnzOffset s.off C) := Ext.pushL.fits fitJ
    have fit1 : Fits code tgt b1 := Ext.pushL.fits fitZ
    refine ⟨e01.trans (Ext.pushL.trans (Ext.pushL.trans ex)), lay, ?_⟩
    obtain ⟨-, s', hs', -, -, hx⟩ := hl1
    obtain rfl : s = s' := by rw [hs1] at hs'; exact Option.some.inj hs'
    have r1 := runs_jnz fitZ hx hC
    cases p
    · rw [if_pos (if_neg Bool.false_ne_true)] at r1
      exact (start fit1 dr).trans (r1.trans (runs_jump fitJ hFt))
    · rw [if_neg (by rw [if_pos rfl]; exact one_ne_zero)] at r1
      have := (start fit1 dr).trans (r1.trans r2)
      cases q
      · exact this
      · rw [if_pos rfl, put_put] at this; exact this

theorem runs_scNot {b b' : Builder} {d lo hi : ℤ} {v : Value} {p : Bool} (w : Window fp lo hi)
    (hv : Has b.layout m fp lo .bool v (.bool p)) (hd : lo ≤ d) (hd' : d + 1 ≤ b.layout.frame)
    (h : b.scNot d v = .ok b') (hhi : (b'.layout.frame : ℤ) ≤ hi) (hfit : Fits code tgt b') :
    Ext b b' ∧ b'.layout = b.layout ∧
      Runs code tgt fp (b.instrs.length, m) (b'.instrs.length, put m (adr fp d) (if p then 0 else 1)) := by
  simp only [Builder.scNot] at h
  set b1 := ((b.newLabel Builder.sNotZero).2.newLabel Builder.sNotEnd).2 with hb1
  generalize (b.newLabel Builder.sNotZero).1 = Z at h
  generalize ((b.newLabel Builder.sNotZero).2.newLabel Builder.sNotEnd).1 = F at h
  have e01 : Ext b b1 := Ext.newLabel.trans Ext.newLabel
  have lay1 : b1.layout = b.layout := rfl
  cases v with
  | Error => cases hv
  | Literal lit =>
    cases lit <;> simp only [Has, denote, reduceCtorEq, Option.some.injEq, Val.bool.injEq] at hv
    subst hv
    rename_i t
    simp only [Except.ok.injEq] at h
    subst h
    have hhi' : (b.layout.frame : ℤ) ≤ hi := hhi
    have dr : Isa.InRange (adr fp d) := w.inRange hd (by omega)
    refine ⟨e01.trans Ext.push, rfl, ?_⟩
    have := runs_storeImm (m := m) (fp := fp) hfit dr
    have hv : toM31 (Builder.boolWord !t) = if t then 0 else 1 := by rw [toM31_boolWord]; cases t <;> rfl
    rw [hv] at this
    exact this
  | Operand id =>
    obtain ⟨-, s, hs, -, -, hx⟩ := hv
    have hs1 : b1.layout.values id = some s := hs
    simp only [getOffset_ok hs1, Except.ok.injEq] at h
    have lay : b'.layout = b.layout := by rw [← h]; rfl
    rw [lay] at hhi
    have dr : Isa.InRange (adr fp d) := w.inRange hd (by omega)
    let b2 := b1.jnzOffset s.off Z
    let b3 := b2.storeImm 1 d
    let b4 := b3.jump F
    let b5 := b4.addLabel Z
    let b6 := b5.storeImm 0 d
    have e6 : Ext b6 (b6.addLabel F) := Ext.addLabel
    have e5 : Ext b5 (b6.addLabel F) := Ext.push.trans e6
    have e4 : Ext b4 (b6.addLabel F) := Ext.addLabel.trans e5
    have e3 : Ext b3 (b6.addLabel F) := Ext.pushL.trans e4
    have e2 : Ext b2 (b6.addLabel F) := Ext.push.trans e3
    have e1 : Ext b1 (b6.addLabel F) := Ext.pushL.trans e2
    have h0 : toM31 (0 : BitVec 32) = 0 := toM31_boolWord false
    have h1 : toM31 (1 : BitVec 32) = 1 := toM31_boolWord true
    rw [← h] at hfit ⊢
    have hF : tgt F = some b6.instrs.length := fits_addLabel hfit
    have hZ : tgt Z = some b4.instrs.length := fits_addLabel (e5.fits hfit)
    refine ⟨e01.trans e1, rfl, ?_⟩
    have r1 := runs_jnz (e2.fits hfit) hx hZ
    cases p
    · rw [if_pos (if_neg Bool.false_ne_true)] at r1
      have r2 := runs_storeImm (m := m) (fp := fp) (e3.fits hfit) dr
      rw [h1] at r2
      exact r1.trans (r2.trans (runs_jump (e4.fits hfit) hF))
    · rw [if_neg (by rw [if_pos rfl]; exact one_ne_zero)] at r1
      have r2 := runs_storeImm (m := m) (fp := fp) (e6.fits hfit) dr
      rw [h0] at r2
      exact r1.trans r2

end

end Codegen
end CairoM
