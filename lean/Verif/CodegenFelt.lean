import Verif.CodegenIsa

/-!
# Code emitted for field operations: helper lemmas
-/

namespace CairoM
namespace Codegen

open Mir Lang Relation

/-- The builder after emitting: code and labels are extended, known slots stay, the frame does not shrink. -/
structure Ext (b b' : Builder) : Prop where
  code : b.instrs <+: b'.instrs
  labels : b.labels <+: b'.labels
  values : b'.layout.values = b.layout.values
  frame : b.layout.frame ≤ b'.layout.frame

theorem Ext.refl {b : Builder} : Ext b b := ⟨List.prefix_refl _, List.prefix_refl _, rfl, le_rfl⟩

theorem Ext.trans {a b c : Builder} (h : Ext a b) (h' : Ext b c) : Ext a c :=
  ⟨h.code.trans h'.code, h.labels.trans h'.labels, h'.values.trans h.values, h.frame.trans h'.frame⟩

theorem Ext.fits {code : List IB} {tgt : Name → Option ℕ} {b b' : Builder} (h : Ext b b') (f : Fits code tgt b') :
    Fits code tgt b :=
  ⟨h.code.trans f.code, fun l hl => f.labels l (h.labels.subset hl)⟩

theorem Ext.push {b : Builder} {i : Instruction} : Ext b (b.push i) :=
  ⟨List.prefix_append _ _, List.prefix_refl _, rfl, le_rfl⟩

theorem Ext.pushL {b : Builder} {i : Instruction} {l : Name} : Ext b (b.pushL i l) :=
  ⟨List.prefix_append _ _, List.prefix_refl _, rfl, le_rfl⟩

theorem Ext.addLabel {b : Builder} {l : Name} : Ext b (b.addLabel l) :=
  ⟨List.prefix_refl _, List.prefix_append _ _, rfl, le_rfl⟩

theorem Ext.newLabel {b : Builder} {l : Name} : Ext b (b.newLabel l).2 :=
  ⟨List.prefix_refl _, List.prefix_refl _, rfl, le_rfl⟩

theorem Ext.reserve {b : Builder} {n : ℕ} : Ext b (b.reserve n).2 :=
  ⟨List.prefix_refl _, List.prefix_refl _, rfl, Nat.le_add_right _ _⟩

/-- A value read as a field element (booleans are `0` and `1`). -/
def HasFelt (l : Layout) (m : Isa.Mem) (fp : M31) (lo : ℤ) (v : Value) (x : M31) : Prop :=
  match v with
  | .Literal lit => toM31 (Builder.litU32 lit) = x
  | .Operand id => ∃ s, l.values id = some s ∧ lo ≤ s.off ∧ s.off + 1 ≤ l.frame ∧ Isa.felt m (adr fp s.off) = some x
  | .Error => False

/-- Field arithmetic. -/
def feltOp : BinaryOp → M31 → M31 → Option M31
  | .Add, x, y => some (x + y)
  | .Sub, x, y => some (x - y)
  | .Mul, x, y => some (x * y)
  | .Div, x, y => if y = 0 then none else some (x * y⁻¹)
  | _, _, _ => none

theorem litI32_small {lit : Literal} (h : SmallLit (.Literal lit)) :
    ofI32 (Builder.litI32 lit) = toM31 (Builder.litU32 lit) := by
  cases lit with
  | Integer n =>
    have : n.toInt = (n.toNat : ℤ) := by
      rw [BitVec.toInt_eq_toNat_cond, if_pos]
      simp only [SmallLit] at h; omega
    simp [Builder.litI32, Builder.litU32, this, ofI32, toM31]
  | Boolean x => cases x <;> simp [Builder.litI32, Builder.litU32, Builder.boolWord, ofI32, toM31]
  | Unit => simp [Builder.litI32, Builder.litU32, ofI32, toM31]

theorem getOffset_ok {l : Layout} {id : ValueId} {s : Slot} (h : l.values id = some s) : l.getOffset id = .ok s.off := by
  simp [Layout.getOffset, h]

section

variable {code : List IB} {tgt : Name → Option ℕ} {fp : M31} {m : Isa.Mem}

theorem fetch_push {b : Builder} {i : Instruction} (h : Fits code tgt (b.push i)) :
    code[b.instrs.length]? = some ⟨i, none⟩ := fetch_of_prefix (ys := []) h.code

theorem fetch_pushL {b : Builder} {i : Instruction} {l : Name} (h : Fits code tgt (b.pushL i l)) :
    code[b.instrs.length]? = some ⟨i, some l⟩ := fetch_of_prefix (ys := []) h.code

theorem length_push {b : Builder} {i : Instruction} : (b.push i).instrs.length = b.instrs.length + 1 := by
  simp [Builder.push]

theorem length_pushL {b : Builder} {i : Instruction} {l : Name} :
    (b.pushL i l).instrs.length = b.instrs.length + 1 := by
  simp [Builder.pushL]

/-- One plain instruction that writes one cell. -/
theorem runs_push {b : Builder} {i : Instruction} {a v : M31} {reads : List M31} {pc' : M31}
    (hfit : Fits code tgt (b.push i)) (hp : plain i = true)
    (he : Isa.sem i 0 fp m = some ⟨reads, [(a, v)], pc', fp⟩) :
    Runs code tgt fp (b.instrs.length, m) ((b.push i).instrs.length, put m a v) := by
  rw [length_push]
  exact runs_plain (fetch_push hfit) hp he

theorem runs_storeImm {b : Builder} {v : BitVec 32} {d : ℤ} (hfit : Fits code tgt (b.storeImm v d))
    (hd : Isa.InRange (adr fp d)) :
    Runs code tgt fp (b.instrs.length, m) ((b.storeImm v d).instrs.length, put m (adr fp d) (toM31 v)) :=
  runs_push hfit rfl (sem_imm (adr_ofI32 _ _) hd)

theorem runs_feltFpFp {b b' : Builder} {op : BinaryOp} {s0 s1 d : ℤ} {x y z : M31}
    (h : b.feltFpFp op s0 s1 d = .ok b') (hop : feltOp op x y = some z)
    (h0 : Isa.felt m (adr fp s0) = some x) (h1 : Isa.felt m (adr fp s1) = some y) (hd : Isa.InRange (adr fp d))
    (hfit : Fits code tgt b') :
    Runs code tgt fp (b.instrs.length, m) (b'.instrs.length, put m (adr fp d) z) := by
  cases op <;> simp only [Builder.feltFpFp, reduceCtorEq, Except.ok.injEq] at h <;> subst h <;>
    simp only [feltOp, Option.some.injEq] at hop
  · subst hop
    exact runs_push hfit rfl (sem_add (adr_ofI32 _ _) (adr_ofI32 _ _) (adr_ofI32 _ _) h0 h1 hd)
  · subst hop
    exact runs_push hfit rfl (sem_sub (adr_ofI32 _ _) (adr_ofI32 _ _) (adr_ofI32 _ _) h0 h1 hd)
  · subst hop
    exact runs_push hfit rfl (sem_mul (adr_ofI32 _ _) (adr_ofI32 _ _) (adr_ofI32 _ _) h0 h1 hd)
  · split at hop
    · cases hop
    · rename_i hy
      cases hop
      exact runs_push hfit rfl (sem_div (adr_ofI32 _ _) (adr_ofI32 _ _) (adr_ofI32 _ _) h0 h1 hy hd)

theorem ext_feltFpFp {b b' : Builder} {op : BinaryOp} {s0 s1 d : ℤ} (h : b.feltFpFp op s0 s1 d = .ok b') :
    Ext b b' ∧ b'.layout = b.layout := by
  cases op <;> simp only [Builder.feltFpFp, reduceCtorEq, Except.ok.injEq] at h <;> subst h <;> exact ⟨Ext.push, rfl⟩

theorem runs_feltFpImm {b b' : Builder} {op : BinaryOp} {s d : ℤ} {lit : Literal} {x z : M31}
    (h : b.feltFpImm op s lit d = .ok b') (hs : SmallLit (.Literal lit))
    (hop : feltOp op x (toM31 (Builder.litU32 lit)) = some z)
    (h0 : Isa.felt m (adr fp s) = some x) (hd : Isa.InRange (adr fp d)) (hfit : Fits code tgt b') :
    Runs code tgt fp (b.instrs.length, m) (b'.instrs.length, put m (adr fp d) z) := by
  cases op <;> simp only [Builder.feltFpImm, reduceCtorEq, Except.ok.injEq] at h <;>
    simp only [feltOp, Option.some.injEq] at hop
  · subst h hop
    rw [← litI32_small hs]
    exact runs_push hfit rfl (sem_addImm (adr_ofI32 _ _) (adr_ofI32 _ _) h0 hd)
  · subst h hop
    rw [sub_eq_add_neg]
    exact runs_push hfit rfl (sem_addImm (adr_ofI32 _ _) (adr_ofI32 _ _) h0 hd)
  · subst h hop
    rw [← litI32_small hs]
    exact runs_push hfit rfl (sem_mulImm (adr_ofI32 _ _) (adr_ofI32 _ _) h0 hd)
  · simp only [Builder.feltDivImm] at h
    split at h
    · cases h
    · cases h
      split at hop
      · cases hop
      · cases hop
        exact runs_push hfit rfl (sem_mulImm (adr_ofI32 _ _) (adr_ofI32 _ _) h0 hd)

theorem ext_feltFpImm {b b' : Builder} {op : BinaryOp} {s d : ℤ} {lit : Literal}
    (h : b.feltFpImm op s lit d = .ok b') : Ext b b' ∧ b'.layout = b.layout := by
  cases op <;> simp only [Builder.feltFpImm, reduceCtorEq, Except.ok.injEq] at h
  · subst h; exact ⟨Ext.push, rfl⟩
  · subst h; exact ⟨Ext.push, rfl⟩
  · subst h; exact ⟨Ext.push, rfl⟩
  · simp only [Builder.feltDivImm] at h
    split at h
    · cases h
    · cases h; exact ⟨Ext.push, rfl⟩

theorem feltOp_comm {op : BinaryOp} (h : op = .Add ∨ op = .Mul) (x y : M31) : feltOp op x y = feltOp op y x := by
  rcases h with rfl | rfl
  · simp [feltOp, add_comm]
  · simp [feltOp, mul_comm]

theorem canonFelt_cases (op : BinaryOp) (l r : Value) :
    Builder.canonFelt op l r = (l, r) ∨ ((op = .Add ∨ op = .Mul) ∧ Builder.canonFelt op l r = (r, l)) := by
  unfold Builder.canonFelt
  split
  · rename_i h
    split
    · exact Or.inr ⟨h, rfl⟩
    · exact Or.inl rfl
  · exact Or.inl rfl

/-- Result of a run that leaves a field element in slot `d`. -/
def FeltRun (code : List IB) (tgt : Name → Option ℕ) (fp : M31) (b b' : Builder) (m : Isa.Mem) (d : ℤ) (z : M31) :
    Prop :=
  ∃ m', Runs code tgt fp (b.instrs.length, m) (b'.instrs.length, m') ∧ Isa.felt m' (adr fp d) = some z ∧
    SameExcept fp (fun o => o = d ∨ ((b.layout.frame : ℤ) ≤ o ∧ o < b'.layout.frame)) m m'

theorem FeltRun.one {b b' : Builder} {d : ℤ} {z : M31} (hd : Isa.InRange (adr fp d))
    (h : Runs code tgt fp (b.instrs.length, m) (b'.instrs.length, put m (adr fp d) z)) :
    FeltRun code tgt fp b b' m d z :=
  ⟨_, h, felt_put_same hd, SameExcept.put (Or.inl rfl)⟩

/-- The part of `feltArith` after normalisation. -/
def feltCore (b : Builder) (op : BinaryOp) (d : ℤ) (l r : Value) : Except Err Builder :=
  match (l, r) with
  | (.Operand x, .Operand y) => do
    let lo ← b.layout.getOffset x
    let ro ← b.layout.getOffset y
    b.feltFpFp op lo ro d
  | (.Operand x, .Literal lit) => do
    let lo ← b.layout.getOffset x
    b.feltFpImm op lo lit d
  | (.Literal lit, .Operand y) =>
    match op with
    | .Add | .Mul => do
      let ro ← b.layout.getOffset y
      b.feltFpImm op ro lit d
    | .Sub | .Div => do
      let (tmp, b) := b.reserve 1
      let b := b.storeImm (Builder.litU32 lit) tmp
      let ro ← b.layout.getOffset y
      b.feltFpFp op tmp ro d
    | _ => .error .panic
  | (.Literal x, .Literal y) => do
    let res ← Builder.feltConst op (toM31 (Builder.litU32 x)) (toM31 (Builder.litU32 y))
    pure (b.push (.StoreImm res (ofI32 d)))
  | _ => .error .panic

theorem feltArith_core (b : Builder) (op : BinaryOp) (d : ℤ) (l r : Value) :
    b.feltArith op d l r = feltCore b op d (Builder.canonFelt op l r).1 (Builder.canonFelt op l r).2 := rfl

theorem runs_feltCore {b b' : Builder} {op : BinaryOp} {d lo hi : ℤ} {l r : Value} {x y z : M31}
    (w : Window fp lo hi) (hl : HasFelt b.layout m fp lo l x) (hr : HasFelt b.layout m fp lo r y)
    (sl : SmallLit l) (sr : SmallLit r) (hop : feltOp op x y = some z) (hd : lo ≤ d) (hd' : d + 1 ≤ b.layout.frame)
    (h : feltCore b op d l r = .ok b')
    (hhi : (b'.layout.frame : ℤ) ≤ hi) (hfit : Fits code tgt b') :
    Ext b b' ∧ b'.labels = b.labels ∧ FeltRun code tgt fp b b' m d z := by
  unfold feltCore at h
  cases l with
  | Error => cases hl
  | Operand id =>
    obtain ⟨s, hs, hs1, hs2, hsv⟩ := hl
    cases r with
    | Error => cases hr
    | Operand id' =>
      obtain ⟨t, ht, ht1, ht2, htv⟩ := hr
      simp only [getOffset_ok hs, getOffset_ok ht, bind, Except.bind] at h
      obtain ⟨e, el⟩ := ext_feltFpFp h
      have dr : Isa.InRange (adr fp d) := w.inRange hd (by rw [el] at hhi; omega)
      refine ⟨e, ?_, FeltRun.one dr (runs_feltFpFp h hop hsv htv dr hfit)⟩
      cases op <;> simp only [Builder.feltFpFp, reduceCtorEq, Except.ok.injEq] at h <;> subst h <;> rfl
    | Literal lit =>
      simp only [getOffset_ok hs, bind, Except.bind] at h
      obtain ⟨e, el⟩ := ext_feltFpImm h
      have dr : Isa.InRange (adr fp d) := w.inRange hd (by rw [el] at hhi; omega)
      simp only [HasFelt] at hr
      rw [← hr] at hop
      refine ⟨e, ?_, FeltRun.one dr (runs_feltFpImm h sr hop hsv dr hfit)⟩
      cases op <;> simp only [Builder.feltFpImm, reduceCtorEq, Except.ok.injEq] at h
      · subst h; rfl
      · subst h; rfl
      · subst h; rfl
      · simp only [Builder.feltDivImm] at h
        split at h
        · cases h
        · cases h; rfl
  | Literal lit =>
    simp only [HasFelt] at hl
    cases r with
    | Error => cases hr
    | Operand id' =>
      obtain ⟨t, ht, ht1, ht2, htv⟩ := hr
      have hmul : ∀ (_ : op = .Add ∨ op = .Mul) (_ : b.feltFpImm op t.off lit d = .ok b'),
          Ext b b' ∧ b'.labels = b.labels ∧ FeltRun code tgt fp b b' m d z := by
        intro ho h
        obtain ⟨e, el⟩ := ext_feltFpImm h
        have dr : Isa.InRange (adr fp d) := w.inRange hd (by rw [el] at hhi; omega)
        rw [feltOp_comm ho, ← hl] at hop
        refine ⟨e, ?_, FeltRun.one dr (runs_feltFpImm h sl hop htv dr hfit)⟩
        rcases ho with rfl | rfl <;> simp only [Builder.feltFpImm, Except.ok.injEq] at h <;> subst h <;> rfl
      have hdiv : ∀ (_ : ((b.reserve 1).2.storeImm (Builder.litU32 lit) (b.reserve 1).1).feltFpFp op
            (b.reserve 1).1 t.off d = .ok b'),
          Ext b b' ∧ b'.labels = b.labels ∧ FeltRun code tgt fp b b' m d z := by
        intro h
        obtain ⟨e, el⟩ := ext_feltFpFp h
        have hf : b'.layout.frame = b.layout.frame + 1 := by rw [el]; rfl
        have e0 : Ext b ((b.reserve 1).2.storeImm (Builder.litU32 lit) (b.reserve 1).1) :=
          Ext.reserve.trans Ext.push
        have hfit0 := e.fits hfit
        have tr : Isa.InRange (adr fp b.layout.frame) := w.inRange (by omega) (by omega)
        have dr : Isa.InRange (adr fp d) := w.inRange hd (by omega)
        have r1 := runs_storeImm (m := m) (fp := fp) hfit0 tr
        have ne : adr fp t.off ≠ adr fp b.layout.frame := fun q => by
          have := w.inj ht1 (by omega) (by omega) (by omega) q; omega
        have r2 := runs_feltFpFp (m := put m (adr fp b.layout.frame) (toM31 (Builder.litU32 lit))) h hop
          (by rw [← hl]; exact felt_put_same tr) (by rw [felt_put_ne ne]; exact htv) dr hfit
        refine ⟨e0.trans e, ?_, _, r1.trans r2, felt_put_same dr, ?_⟩
        · cases op <;> simp only [Builder.feltFpFp, reduceCtorEq, Except.ok.injEq] at h <;> subst h <;> rfl
        · exact (SameExcept.put (o := (b.layout.frame : ℤ)) (Or.inr ⟨le_rfl, by omega⟩)).trans
            (SameExcept.put (Or.inl rfl))
      cases op <;> simp only [feltOp, reduceCtorEq] at hop
      · simp only [getOffset_ok ht, bind, Except.bind] at h
        exact hmul (Or.inl rfl) h
      · simp only [getOffset_ok (l := ((b.reserve 1).2.storeImm (Builder.litU32 lit) (b.reserve 1).1).layout) ht,
          bind, Except.bind] at h
        exact hdiv h
      · simp only [getOffset_ok ht, bind, Except.bind] at h
        exact hmul (Or.inr rfl) h
      · simp only [getOffset_ok (l := ((b.reserve 1).2.storeImm (Builder.litU32 lit) (b.reserve 1).1).layout) ht,
          bind, Except.bind] at h
        exact hdiv h
    | Literal lit' =>
      simp only [HasFelt] at hr
      have key : Builder.feltConst op (toM31 (Builder.litU32 lit)) (toM31 (Builder.litU32 lit')) = .ok z := by
        rw [hl, hr]
        cases op <;> simp only [feltOp, reduceCtorEq, Option.some.injEq] at hop
        · rw [← hop]; rfl
        · rw [← hop]; rfl
        · rw [← hop]; rfl
        · split at hop
          · cases hop
          · rename_i hy
            cases hop
            simp [Builder.feltConst, hy]
      simp only [key, bind, Except.bind, pure, Except.pure, Except.ok.injEq] at h
      subst h
      have dr : Isa.InRange (adr fp d) := w.inRange hd (by
        have : ((b.push (.StoreImm z (ofI32 d))).layout.frame : ℤ) = b.layout.frame := rfl
        omega)
      exact ⟨Ext.push, rfl, FeltRun.one dr (runs_push hfit rfl (sem_imm (adr_ofI32 _ _) dr))⟩

theorem runs_feltArith {b b' : Builder} {op : BinaryOp} {d lo hi : ℤ} {l r : Value} {x y z : M31}
    (w : Window fp lo hi) (hl : HasFelt b.layout m fp lo l x) (hr : HasFelt b.layout m fp lo r y)
    (sl : SmallLit l) (sr : SmallLit r) (hop : feltOp op x y = some z) (hd : lo ≤ d) (hd' : d + 1 ≤ b.layout.frame)
    (h : b.feltArith op d l r = .ok b') (hhi : (b'.layout.frame : ℤ) ≤ hi) (hfit : Fits code tgt b') :
    Ext b b' ∧ b'.labels = b.labels ∧ FeltRun code tgt fp b b' m d z := by
  rw [feltArith_core] at h
  rcases canonFelt_cases op l r with e | ⟨ho, e⟩
  · rw [e] at h
    exact runs_feltCore w hl hr sl sr hop hd hd' h hhi hfit
  · rw [e] at h
    rw [feltOp_comm ho] at hop
    exact runs_feltCore w hr hl sr sl hop hd hd' h hhi hfit

end

end Codegen
end CairoM
