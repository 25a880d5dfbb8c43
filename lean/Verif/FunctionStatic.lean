import Verif.FunctionSpec
import Verif.CodegenCast
import Verif.LayoutProps

/-!
# Helper lemmas: shape of the emitted code

Independently of any execution, the code emitted for an instruction only extends the code emitted so far and only
names slots inside the frame.
-/

namespace CairoM
namespace Codegen

open Mir Lang

/-- An encoded offset of `n` slots inside the frame. -/
def In (lo F : ℤ) (n : ℕ) (a : M31) : Prop := ∃ o : ℤ, a = ofI32 o ∧ lo ≤ o ∧ o + n ≤ F

/-- The slots an emitted instruction names are inside the frame. -/
def InFrame (lo F : ℤ) : Instruction → Prop
  | .StoreImm _ d => In lo F 1 d
  | .U32StoreImm _ _ d => In lo F 2 d
  | .StoreAddFpFp a b d | .StoreSubFpFp a b d | .StoreMulFpFp a b d | .StoreDivFpFp a b d =>
    In lo F 1 a ∧ In lo F 1 b ∧ In lo F 1 d
  | .StoreAddFpImm a _ d | .StoreMulFpImm a _ d | .StoreLeFpImm a _ d => In lo F 1 a ∧ In lo F 1 d
  | .U32StoreAddFpFp a b d | .U32StoreSubFpFp a b d | .U32StoreMulFpFp a b d
  | .U32StoreAndFpFp a b d | .U32StoreOrFpFp a b d | .U32StoreXorFpFp a b d =>
    In lo F 2 a ∧ In lo F 2 b ∧ In lo F 2 d
  | .U32StoreDivRemFpFp a b d e => In lo F 2 a ∧ In lo F 2 b ∧ In lo F 2 d ∧ In lo F 2 e
  | .U32StoreEqFpFp a b d | .U32StoreLtFpFp a b d => In lo F 2 a ∧ In lo F 2 b ∧ In lo F 1 d
  | .U32StoreAddFpImm a _ _ d | .U32StoreMulFpImm a _ _ d | .U32StoreAndFpImm a _ _ d
  | .U32StoreOrFpImm a _ _ d | .U32StoreXorFpImm a _ _ d => In lo F 2 a ∧ In lo F 2 d
  | .U32StoreDivRemFpImm a _ _ d e => In lo F 2 a ∧ In lo F 2 d ∧ In lo F 2 e
  | .U32StoreEqFpImm a _ _ d | .U32StoreLtFpImm a _ _ d => In lo F 2 a ∧ In lo F 1 d
  | .AssertEqFpImm a _ => In lo F 1 a
  | .JnzFpImm a _ => In lo F 1 a
  | .JmpRelImm _ => True
  | .CallAbsImm _ _ => True
  | .Ret => True
  | _ => False

variable {lo F F' : ℤ} {b b' c : Builder}

theorem In.mono {n : ℕ} {a : M31} (h : In lo F n a) (hF : F ≤ F') : In lo F' n a := by
  obtain ⟨o, h1, h2, h3⟩ := h
  exact ⟨o, h1, h2, by omega⟩

theorem InFrame.mono {i : Instruction} (h : InFrame lo F i) (hF : F ≤ F') : InFrame lo F' i := by
  cases i <;> first
    | exact h.elim
    | exact trivial
    | exact In.mono h hF
    | exact ⟨In.mono h.1 hF, In.mono h.2 hF⟩
    | exact ⟨In.mono h.1 hF, In.mono h.2.1 hF, In.mono h.2.2 hF⟩
    | exact ⟨In.mono h.1 hF, In.mono h.2.1 hF, In.mono h.2.2.1 hF, In.mono h.2.2.2 hF⟩

/-- All emitted instructions name slots inside the frame and all labels are inside the code. -/
structure Good (lo : ℤ) (b : Builder) : Prop where
  instrs : ∀ ib ∈ b.instrs, InFrame lo b.layout.frame ib.inner
  labels : ∀ l ∈ b.labels, l.addr ≤ b.instrs.length

/-- Code was added. -/
structure Grows (lo : ℤ) (b b' : Builder) : Prop where
  code : b.instrs <+: b'.instrs
  labels : b.labels <+: b'.labels
  frame : b.layout.frame ≤ b'.layout.frame
  retSlots : b'.layout.retSlots = b.layout.retSlots
  good : Good lo b → Good lo b'

theorem Grows.refl : Grows lo b b := ⟨List.prefix_refl _, List.prefix_refl _, le_rfl, rfl, id⟩

theorem Grows.trans (h : Grows lo b b') (h' : Grows lo b' c) : Grows lo b c :=
  ⟨h.code.trans h'.code, h.labels.trans h'.labels, h.frame.trans h'.frame, h'.retSlots.trans h.retSlots,
    fun g => h'.good (h.good g)⟩

theorem Grows.fits {code : List IB} {tgt : Name → Option ℕ} (h : Grows lo b b') (f : Fits code tgt b') :
    Fits code tgt b :=
  ⟨h.code.trans f.code, fun l hl => f.labels l (h.labels.subset hl)⟩

/-- Code was added and no value moved. -/
structure Emits (lo : ℤ) (b b' : Builder) : Prop extends Grows lo b b' where
  values : b'.layout.values = b.layout.values
  written : b'.maxWritten = b.maxWritten

theorem Emits.ext (h : Emits lo b b') : Ext b b' := ⟨h.code, h.labels, h.values, h.frame⟩

theorem Emits.refl : Emits lo b b := ⟨Grows.refl, rfl, rfl⟩

theorem Emits.trans (h : Emits lo b b') (h' : Emits lo b' c) : Emits lo b c :=
  ⟨h.toGrows.trans h'.toGrows, h'.values.trans h.values, h'.written.trans h.written⟩

theorem emits_push {i : Instruction} (h : InFrame lo b.layout.frame i) : Emits lo b (b.push i) := by
  refine ⟨⟨List.prefix_append _ _, List.prefix_refl _, le_rfl, rfl, fun g => ⟨?_, ?_⟩⟩, rfl, rfl⟩
  · intro ib hib
    simp only [Builder.push, List.mem_append, List.mem_singleton] at hib ⊢
    rcases hib with hib | rfl
    · exact g.instrs ib hib
    · exact h
  · intro l hl
    have := g.labels l hl
    simp only [Builder.push, List.length_append, List.length_cons, List.length_nil]
    omega

theorem emits_pushL {i : Instruction} {n : Name} (h : InFrame lo b.layout.frame i) : Emits lo b (b.pushL i n) := by
  refine ⟨⟨List.prefix_append _ _, List.prefix_refl _, le_rfl, rfl, fun g => ⟨?_, ?_⟩⟩, rfl, rfl⟩
  · intro ib hib
    simp only [Builder.pushL, List.mem_append, List.mem_singleton] at hib ⊢
    rcases hib with hib | rfl
    · exact g.instrs ib hib
    · exact h
  · intro l hl
    have := g.labels l hl
    simp only [Builder.pushL, List.length_append, List.length_cons, List.length_nil]
    omega

theorem emits_addLabel {n : Name} : Emits lo b (b.addLabel n) := by
  refine ⟨⟨List.prefix_refl _, List.prefix_append _ _, le_rfl, rfl, fun g => ⟨g.instrs, ?_⟩⟩, rfl, rfl⟩
  intro l hl
  simp only [Builder.addLabel, List.mem_append, List.mem_singleton] at hl ⊢
  rcases hl with hl | rfl
  · exact g.labels l hl
  · exact le_rfl

theorem emits_newLabel {n : Name} : Emits lo b (b.newLabel n).2 :=
  ⟨⟨List.prefix_refl _, List.prefix_refl _, le_rfl, rfl, fun g => ⟨g.instrs, g.labels⟩⟩, rfl, rfl⟩

theorem emits_reserve {n : ℕ} : Emits lo b (b.reserve n).2 :=
  ⟨⟨List.prefix_refl _, List.prefix_refl _, Nat.le_add_right _ _, rfl,
    fun g => ⟨fun ib hib => (g.instrs ib hib).mono (by
      simp only [Builder.reserve, Layout.reserve]; push_cast; omega), g.labels⟩⟩, rfl, rfl⟩

theorem emits_jump {n : Name} : Emits lo b (b.jump n) := emits_pushL trivial

theorem emits_jnz {o : ℤ} {n : Name} (h1 : lo ≤ o) (h2 : o + 1 ≤ b.layout.frame) : Emits lo b (b.jnzOffset o n) :=
  emits_pushL ⟨o, rfl, h1, h2⟩

theorem emits_imm {v : BitVec 32} {o : ℤ} (h1 : lo ≤ o) (h2 : o + 1 ≤ b.layout.frame) : Emits lo b (b.storeImm v o) :=
  emits_push ⟨o, rfl, h1, h2⟩

theorem emits_u32Imm {v : BitVec 32} {o : ℤ} (h1 : lo ≤ o) (h2 : o + 2 ≤ b.layout.frame) :
    Emits lo b (b.storeU32Imm v o) := emits_push ⟨o, rfl, h1, h2⟩

theorem emits_copy {s d : ℤ} (h1 : lo ≤ s) (h2 : s + 1 ≤ b.layout.frame) (h3 : lo ≤ d) (h4 : d + 1 ≤ b.layout.frame) :
    Emits lo b (b.copySingle s d) := emits_push ⟨⟨s, rfl, h1, h2⟩, ⟨d, rfl, h3, h4⟩⟩

theorem emits_copySlots {s d : ℤ} {n : ℕ} (h1 : lo ≤ s) (h2 : s + n ≤ b.layout.frame) (h3 : lo ≤ d)
    (h4 : d + n ≤ b.layout.frame) : Emits lo b (b.copySlots s d n) := by
  induction n with
  | zero => exact Emits.refl
  | succ n ih =>
    have e := ih (by omega) (by omega)
    have := e.frame
    exact e.trans (emits_copy (by omega) (by omega) (by omega) (by omega))

/-- An operand whose first `n` slots are inside the frame. -/
def Readable (lo : ℤ) (l : Layout) (n : ℕ) (v : Value) : Prop :=
  ∀ id s, v = .Operand id → l.values id = some s → lo ≤ s.off ∧ s.off + n ≤ l.frame

theorem Readable.mono {l l' : Layout} {n : ℕ} {v : Value} (h : Readable lo l n v) (hv : l'.values = l.values)
    (hf : l.frame ≤ l'.frame) : Readable lo l' n v := by
  intro id s e hs
  rw [hv] at hs
  obtain ⟨h1, h2⟩ := h id s e hs
  exact ⟨h1, by omega⟩

theorem Readable.offset {l : Layout} {n : ℕ} {id : ValueId} {o : ℤ} (h : Readable lo l n (.Operand id))
    (ho : l.getOffset id = .ok o) : lo ≤ o ∧ o + n ≤ l.frame := by
  unfold Layout.getOffset at ho
  split at ho
  · injection ho with ho; subst ho
    exact h id _ rfl ‹_›
  · cases ho

set_option linter.unusedVariables false

theorem emits_feltFpFp {op : BinaryOp} {s t d : ℤ} (h : b.feltFpFp op s t d = .ok b')
    (h1 : lo ≤ s) (h2 : s + 1 ≤ b.layout.frame) (h3 : lo ≤ t) (h4 : t + 1 ≤ b.layout.frame) (h5 : lo ≤ d)
    (h6 : d + 1 ≤ b.layout.frame) : Emits lo b b' := by
  cases op <;> simp only [Builder.feltFpFp, reduceCtorEq, Except.ok.injEq] at h <;> subst h <;>
    exact emits_push ⟨⟨s, rfl, h1, h2⟩, ⟨t, rfl, h3, h4⟩, ⟨d, rfl, h5, h6⟩⟩

theorem emits_feltFpImm {op : BinaryOp} {s d : ℤ} {lit : Literal} (h : b.feltFpImm op s lit d = .ok b')
    (h1 : lo ≤ s) (h2 : s + 1 ≤ b.layout.frame) (h5 : lo ≤ d) (h6 : d + 1 ≤ b.layout.frame) : Emits lo b b' := by
  have key : InFrame lo b.layout.frame (.StoreAddFpImm (ofI32 s) 0 (ofI32 d)) := ⟨⟨s, rfl, h1, h2⟩, ⟨d, rfl, h5, h6⟩⟩
  cases op <;> simp only [Builder.feltFpImm, Builder.feltDivImm, reduceCtorEq, Except.ok.injEq] at h
  · subst h; exact emits_push key
  · subst h; exact emits_push key
  · subst h; exact emits_push key
  · split_ifs at h
    cases h; exact emits_push key

theorem emits_feltArith {op : BinaryOp} {d : ℤ} {l r : Value} (h : b.feltArith op d l r = .ok b')
    (hl : Readable lo b.layout 1 l) (hr : Readable lo b.layout 1 r) (hlo : lo ≤ 0) (h5 : lo ≤ d)
    (h6 : d + 1 ≤ b.layout.frame) : Emits lo b b' := by
  unfold Builder.feltArith at h
  generalize hp : Builder.canonFelt op l r = p at h
  obtain ⟨l', r'⟩ := p
  have hl' : Readable lo b.layout 1 l' ∧ Readable lo b.layout 1 r' := by
    rcases canonFelt_cases op l r with e | ⟨-, e⟩ <;> rw [hp] at e <;> cases e
    · exact ⟨hl, hr⟩
    · exact ⟨hr, hl⟩
  obtain ⟨hl', hr'⟩ := hl'
  split at h
  · rename_i x y e
    cases e
    simp only [Bind.bind, Except.bind] at h
    split at h
    · cases h
    · rename_i o1 ho1
      split at h
      · cases h
      · rename_i o2 ho2
        obtain ⟨a1, a2⟩ := hl'.offset ho1
        obtain ⟨a3, a4⟩ := hr'.offset ho2
        exact emits_feltFpFp h a1 (by exact_mod_cast a2) a3 (by exact_mod_cast a4) h5 h6
  · rename_i x lit e
    cases e
    simp only [Bind.bind, Except.bind] at h
    split at h
    · cases h
    · rename_i o1 ho1
      obtain ⟨a1, a2⟩ := hl'.offset ho1
      exact emits_feltFpImm h a1 (by exact_mod_cast a2) h5 h6
  · rename_i lit y e
    cases e
    have comm : (b.layout.getOffset y >>= fun ro => b.feltFpImm op ro lit d) = .ok b' → Emits lo b b' := by
      intro h
      simp only [Bind.bind, Except.bind] at h
      split at h
      · cases h
      · rename_i o1 ho1
        obtain ⟨a1, a2⟩ := hr'.offset ho1
        exact emits_feltFpImm h a1 (by exact_mod_cast a2) h5 h6
    have ncomm : (((b.reserve 1).2.storeImm (Builder.litU32 lit) (b.reserve 1).1).layout.getOffset y >>= fun ro =>
        ((b.reserve 1).2.storeImm (Builder.litU32 lit) (b.reserve 1).1).feltFpFp op (b.reserve 1).1 ro d) = .ok b' →
        Emits lo b b' := by
      intro h
      have e1 : Emits lo b ((b.reserve 1).2.storeImm (Builder.litU32 lit) (b.reserve 1).1) :=
        emits_reserve.trans (emits_imm (by simp only [Builder.reserve, Layout.reserve]; omega)
          (by simp only [Builder.reserve, Layout.reserve]; push_cast; omega))
      simp only [Bind.bind, Except.bind] at h
      split at h
      · cases h
      · rename_i o1 ho1
        obtain ⟨a1, a2⟩ := (hr'.mono e1.values e1.frame).offset ho1
        have hf : (((b.reserve 1).2.storeImm (Builder.litU32 lit) (b.reserve 1).1).layout.frame : ℤ) = b.layout.frame + 1 := rfl
        have ht : (b.reserve 1).1 = (b.layout.frame : ℤ) := rfl
        exact e1.trans (emits_feltFpFp h (by omega) (by omega) a1 (by exact_mod_cast a2) h5 (by omega))
    cases op <;> simp only [reduceCtorEq] at h
    · exact comm h
    · exact ncomm h
    · exact comm h
    · exact ncomm h
  · simp only [Bind.bind, Except.bind] at h
    split at h
    · cases h
    · cases h
      exact emits_push ⟨d, rfl, h5, h6⟩
  · cases h

theorem emits_setBool {d : ℤ} {t : Bool} {nz fin : Name} (h5 : lo ≤ d) (h6 : d + 1 ≤ b.layout.frame) :
    Emits lo b (b.setBool d t nz fin) :=
  (emits_jnz h5 (by exact h6)).trans ((emits_imm h5 (by exact h6)).trans (emits_jump.trans (emits_addLabel.trans
    ((emits_imm h5 (by exact h6)).trans emits_addLabel))))

theorem emits_feltEq {d : ℤ} {l r : Value} (h : b.feltEq d l r = .ok b' ∨ b.feltNeq d l r = .ok b')
    (hl : Readable lo b.layout 1 l) (hr : Readable lo b.layout 1 r) (hlo : lo ≤ 0) (h5 : lo ≤ d)
    (h6 : d + 1 ≤ b.layout.frame) : Emits lo b b' := by
  have key : ∀ {c : Builder} {t : Bool} {n1 n2 : Name}, b.feltArith .Sub d l r = .ok c →
      Emits lo b (((c.newLabel n1).2.newLabel n2).2.setBool d t (c.newLabel n1).1 ((c.newLabel n1).2.newLabel n2).1) := by
    intro c t n1 n2 hc
    have e := emits_feltArith hc hl hr hlo h5 h6
    have := e.frame
    exact e.trans (emits_newLabel.trans (emits_newLabel.trans (emits_setBool h5 (by
      show d + 1 ≤ (c.layout.frame : ℤ); omega))))
  rcases h with h | h
  all_goals
    simp only [Builder.feltEq, Builder.feltNeq, Bind.bind, Except.bind] at h
    split at h
    · cases h
    · rename_i c hc
      cases h
      exact key hc

theorem emits_branch {v : Value} {n : Name} (h : b.branchIfNonzero v n = .ok b') (hv : Readable lo b.layout 1 v) :
    Emits lo b b' := by
  unfold Builder.branchIfNonzero at h
  split at h
  · cases h
    split_ifs
    · exact emits_jump
    · exact Emits.refl
  · split at h
    · split at h
      · cases h
      · rename_i o ho
        cases h
        obtain ⟨a1, a2⟩ := hv.offset ho
        exact emits_jnz a1 (by exact_mod_cast a2)
    · cases h

theorem emits_scOr {d : ℤ} {l r : Value} (h : b.scOr d l r = .ok b')
    (hl : Readable lo b.layout 1 l) (hr : Readable lo b.layout 1 r) (h5 : lo ≤ d)
    (h6 : d + 1 ≤ b.layout.frame) : Emits lo b b' := by
  simp only [Builder.scOr, Bind.bind, Except.bind] at h
  split at h
  · cases h
  · rename_i c1 hc1
    have e0 : Emits lo b (((b.storeImm 0 d).newLabel Builder.sOrTrue).2.newLabel Builder.sOrEnd).2 :=
      (emits_imm h5 h6).trans (emits_newLabel.trans emits_newLabel)
    have e1 := e0.trans (emits_branch hc1 (hl.mono e0.values e0.frame))
    split at h
    · cases h
    · rename_i c2 hc2
      have e2 := e1.trans (emits_branch hc2 (hr.mono e1.values e1.frame))
      cases h
      have := e2.frame
      exact e2.trans (emits_jump.trans (emits_addLabel.trans ((emits_imm h5 (by
        show d + 1 ≤ (c2.layout.frame : ℤ); omega)).trans emits_addLabel)))

theorem emits_scAndRight {d : ℤ} {r : Value} {n1 n2 n3 : Name} (h : b.scAndRight d r n1 n2 n3 = .ok b')
    (hr : Readable lo b.layout 1 r) (h5 : lo ≤ d) (h6 : d + 1 ≤ b.layout.frame) : Emits lo b b' := by
  simp only [Builder.scAndRight, Bind.bind, Except.bind] at h
  split at h
  · cases h
  · rename_i c2 hc2
    have e0 : Emits lo b (b.addLabel n1) := emits_addLabel
    have e2 := e0.trans (emits_branch hc2 (hr.mono e0.values e0.frame))
    cases h
    have := e2.frame
    exact e2.trans (emits_jump.trans (emits_addLabel.trans ((emits_imm h5 (by
      show d + 1 ≤ (c2.layout.frame : ℤ); omega)).trans emits_addLabel)))

theorem emits_scAnd {d : ℤ} {l r : Value} (h : b.scAnd d l r = .ok b')
    (hl : Readable lo b.layout 1 l) (hr : Readable lo b.layout 1 r) (h5 : lo ≤ d)
    (h6 : d + 1 ≤ b.layout.frame) : Emits lo b b' := by
  have e0 : Emits lo b ((((b.storeImm 0 d).newLabel Builder.sAndCheck).2.newLabel Builder.sAndTrue).2.newLabel
      Builder.sAndEnd).2 := (emits_imm h5 h6).trans (emits_newLabel.trans (emits_newLabel.trans emits_newLabel))
  simp only [Builder.scAnd] at h
  split at h
  · cases h; exact e0.trans emits_addLabel
  · exact e0.trans (emits_scAndRight h (hr.mono e0.values e0.frame) h5 h6)
  · split at h
    · split at h
      · cases h
      · rename_i o ho
        obtain ⟨a1, a2⟩ := (hl.mono e0.values e0.frame).offset ho
        have e1 := e0.trans (emits_jnz (n := ((b.storeImm 0 d).newLabel Builder.sAndCheck).1) a1 (by exact_mod_cast a2))
        have e2 := e1.trans (emits_jump (n := ((((b.storeImm 0 d).newLabel Builder.sAndCheck).2.newLabel Builder.sAndTrue).2.newLabel
          Builder.sAndEnd).1))
        exact e2.trans (emits_scAndRight h (hr.mono e2.values e2.frame) h5 h6)
    · cases h

theorem emits_scNot {d : ℤ} {v : Value} (h : b.scNot d v = .ok b') (hv : Readable lo b.layout 1 v) (h5 : lo ≤ d)
    (h6 : d + 1 ≤ b.layout.frame) : Emits lo b b' := by
  have e0 : Emits lo b ((b.newLabel Builder.sNotZero).2.newLabel Builder.sNotEnd).2 :=
    emits_newLabel.trans emits_newLabel
  simp only [Builder.scNot] at h
  split at h
  · split at h
    · cases h
    · rename_i o ho
      obtain ⟨a1, a2⟩ := (hv.mono e0.values e0.frame).offset ho
      cases h
      exact e0.trans ((emits_jnz a1 (by exact_mod_cast a2)).trans ((emits_imm h5 (by exact h6)).trans (emits_jump.trans
        (emits_addLabel.trans ((emits_imm h5 (by exact h6)).trans emits_addLabel)))))
  · cases h; exact e0.trans (emits_imm h5 (by exact h6))
  · cases h; exact e0.trans (emits_imm h5 (by exact h6))
  · cases h

/-- Number of slots of the result of an operator. -/
def opWidth (op : BinaryOp) : ℕ := (resultType op).memSize

theorem emits_u32FpFp {op : BinaryOp} {s t d : ℤ} (h : b.u32FpFp op s t d = .ok b')
    (h1 : lo ≤ s) (h2 : s + 2 ≤ b.layout.frame) (h3 : lo ≤ t) (h4 : t + 2 ≤ b.layout.frame) (h5 : lo ≤ d)
    (hlo : lo ≤ 0) (h6 : d + opWidth op ≤ b.layout.frame) : Emits lo b b' := by
  have ht : (b.reserve 2).1 = (b.layout.frame : ℤ) := rfl
  have hf : ((b.reserve 2).2.layout.frame : ℤ) = b.layout.frame + 2 := rfl
  cases op <;> simp only [Builder.u32FpFp, reduceCtorEq, Except.ok.injEq] at h <;> subst h <;>
    simp only [opWidth, resultType, MirType.memSize, Nat.cast_ofNat, Nat.cast_one] at h6
  case U32Div =>
    refine emits_reserve.trans (emits_push ⟨⟨s, rfl, h1, ?_⟩, ⟨t, rfl, h3, ?_⟩, ⟨d, rfl, h5, ?_⟩, ⟨_, rfl, ?_, ?_⟩⟩) <;>
      omega
  case U32Rem =>
    refine emits_reserve.trans (emits_push ⟨⟨s, rfl, h1, ?_⟩, ⟨t, rfl, h3, ?_⟩, ⟨_, rfl, ?_, ?_⟩, ⟨d, rfl, h5, ?_⟩⟩) <;>
      omega
  all_goals exact emits_push ⟨⟨s, rfl, h1, h2⟩, ⟨t, rfl, h3, h4⟩, ⟨d, rfl, h5, h6⟩⟩

theorem emits_u32FpImm {op : BinaryOp} {s d : ℤ} {n : BitVec 32} (h : b.u32FpImm op s n d = .ok b')
    (h1 : lo ≤ s) (h2 : s + 2 ≤ b.layout.frame) (h5 : lo ≤ d)
    (hlo : lo ≤ 0) (h6 : d + opWidth op ≤ b.layout.frame) : Emits lo b b' := by
  have ht : (b.reserve 2).1 = (b.layout.frame : ℤ) := rfl
  have hf : ((b.reserve 2).2.layout.frame : ℤ) = b.layout.frame + 2 := rfl
  cases op <;> simp only [Builder.u32FpImm, reduceCtorEq, Except.ok.injEq] at h <;> subst h <;>
    simp only [opWidth, resultType, MirType.memSize, Nat.cast_ofNat, Nat.cast_one] at h6
  case U32Div =>
    refine emits_reserve.trans (emits_push ⟨⟨s, rfl, h1, ?_⟩, ⟨d, rfl, h5, ?_⟩, ⟨_, rfl, ?_, ?_⟩⟩) <;>
      omega
  case U32Rem =>
    refine emits_reserve.trans (emits_push ⟨⟨s, rfl, h1, ?_⟩, ⟨_, rfl, ?_, ?_⟩, ⟨d, rfl, h5, ?_⟩⟩) <;>
      omega
  all_goals exact emits_push ⟨⟨s, rfl, h1, h2⟩, ⟨d, rfl, h5, h6⟩⟩

theorem emits_u32Const {op : BinaryOp} {d : ℤ} {m n : BitVec 32} (h : b.u32Const op d m n = .ok b')
    (h5 : lo ≤ d) (hlo : lo ≤ 0) (h6 : d + opWidth op ≤ b.layout.frame) : Emits lo b b' := by
  cases op <;> simp only [Builder.u32Const, reduceCtorEq, Except.ok.injEq] at h <;>
    simp only [opWidth, resultType, MirType.memSize, Nat.cast_ofNat, Nat.cast_one] at h6
  case U32Div =>
    split_ifs at h
    cases h
    refine (emits_u32Imm h5 h6).trans (emits_reserve.trans (emits_u32Imm ?_ ?_))
    · show lo ≤ (b.layout.frame : ℤ); omega
    · show (b.layout.frame : ℤ) + 2 ≤ ((b.layout.frame + 2 : ℕ) : ℤ); push_cast; omega
  case U32Rem =>
    split_ifs at h
    cases h
    exact emits_u32Imm h5 h6
  all_goals
    subst h
    first
    | exact emits_u32Imm h5 h6
    | exact emits_imm h5 h6

theorem emits_u32Op {op : BinaryOp} {d : ℤ} {l r : Value} (h : b.u32Op op d l r = .ok b')
    (hl : Readable lo b.layout 2 l) (hr : Readable lo b.layout 2 r) (hlo : lo ≤ 0) (h5 : lo ≤ d)
    (h6 : d + opWidth op ≤ b.layout.frame) : Emits lo b b' := by
  unfold Builder.u32Op at h
  split at h
  · cases h
  generalize hp : Builder.canonU32 op l r = p at h
  obtain ⟨l', r'⟩ := p
  have hl' : Readable lo b.layout 2 l' ∧ Readable lo b.layout 2 r' := by
    rcases canonU32_cases op l r with e | ⟨-, e⟩ <;> rw [hp] at e <;> cases e
    · exact ⟨hl, hr⟩
    · exact ⟨hr, hl⟩
  obtain ⟨hl', hr'⟩ := hl'
  split at h
  · rename_i x y e
    cases e
    simp only [Bind.bind, Except.bind] at h
    split at h
    · cases h
    · rename_i o1 ho1
      split at h
      · cases h
      · rename_i o2 ho2
        obtain ⟨a1, a2⟩ := hl'.offset ho1
        obtain ⟨a3, a4⟩ := hr'.offset ho2
        exact emits_u32FpFp h a1 (by exact_mod_cast a2) a3 (by exact_mod_cast a4) h5 hlo h6
  · rename_i x imm e
    cases e
    simp only [Bind.bind, Except.bind] at h
    split at h
    · cases h
    · rename_i o1 ho1
      split_ifs at h
      obtain ⟨a1, a2⟩ := hl'.offset ho1
      exact emits_u32FpImm h a1 (by exact_mod_cast a2) h5 hlo h6
  · rename_i imm y e
    cases e
    simp only [Bind.bind, Except.bind] at h
    split at h
    · cases h
    · rename_i o1 ho1
      obtain ⟨a1, a2⟩ := hr'.offset ho1
      have ht : (b.reserve 2).1 = (b.layout.frame : ℤ) := rfl
      split_ifs at h
      · exact emits_u32FpImm h a1 (by exact_mod_cast a2) h5 hlo h6
      · have hf : ((b.reserve 2).2.layout.frame : ℤ) = b.layout.frame + 2 := rfl
        have e1 : Emits lo b ((b.reserve 2).2.storeU32Imm imm (b.reserve 2).1) :=
          emits_reserve.trans (emits_u32Imm (by omega) (by omega))
        have hf' : (((b.reserve 2).2.storeU32Imm imm (b.reserve 2).1).layout.frame : ℤ) = b.layout.frame + 2 := rfl
        push_cast at a2
        exact e1.trans (emits_u32FpFp h (by omega) (by omega) a1 (by omega) h5 hlo (by omega))
  · exact emits_u32Const h h5 hlo h6
  · cases h

/-- The operator works on two-slot operands. -/
def opArg : BinaryOp → ℕ
  | .Add | .Sub | .Mul | .Div | .Eq | .Neq | .And | .Or | .Less | .Greater | .LessEqual | .GreaterEqual => 1
  | _ => 2

theorem emits_computeInto {op : BinaryOp} {d : ℤ} {l r : Value} (h : b.computeInto op d l r = .ok b')
    (hl : Readable lo b.layout (opArg op) l) (hr : Readable lo b.layout (opArg op) r) (hlo : lo ≤ 0) (h5 : lo ≤ d)
    (h6 : d + opWidth op ≤ b.layout.frame) : Emits lo b b' := by
  cases op <;> simp only [Builder.computeInto, reduceCtorEq] at h <;> simp only [opArg] at hl hr
  case Add | Sub | Mul | Div => exact emits_feltArith h hl hr hlo h5 h6
  case Eq => exact emits_feltEq (.inl h) hl hr hlo h5 h6
  case Neq => exact emits_feltEq (.inr h) hl hr hlo h5 h6
  case And => exact emits_scAnd h hl hr h5 h6
  case Or => exact emits_scOr h hl hr h5 h6
  all_goals exact emits_u32Op h hl hr hlo h5 h6

theorem emits_castSeq {d s : ℤ} (hlo : lo ≤ 0) (h1 : lo ≤ s) (h2 : s + 2 ≤ b.layout.frame) (h5 : lo ≤ d)
    (h6 : d + 1 ≤ b.layout.frame) : Emits lo b (b.castSeq d s) := by
  unfold Builder.castSeq
  simp only
  refine emits_reserve.trans (Emits.trans (emits_push ?_) (emits_newLabel.trans (Emits.trans (emits_jnz ?_ ?_)
    (emits_reserve.trans (Emits.trans (emits_push ?_) (emits_reserve.trans (Emits.trans (emits_push ?_)
    (emits_reserve.trans (Emits.trans (emits_push ?_) (emits_reserve.trans (Emits.trans (emits_push ?_)
    (Emits.trans (emits_push ?_) (emits_addLabel.trans (emits_reserve.trans (Emits.trans (emits_push ?_)
    (emits_push ?_))))))))))))))))
  all_goals first
    | refine ⟨⟨_, rfl, ?_, ?_⟩, ⟨_, rfl, ?_, ?_⟩, ⟨_, rfl, ?_, ?_⟩⟩
    | refine ⟨⟨_, rfl, ?_, ?_⟩, ⟨_, rfl, ?_, ?_⟩⟩
    | refine ⟨_, rfl, ?_, ?_⟩
    | skip
  all_goals
    try simp only [Builder.reserve, Layout.reserve, Builder.feltLeImm, Builder.push, Builder.newLabel, Builder.jnzOffset,
      Builder.pushL, Builder.assertEqImm, Builder.addLabel]
    push_cast
    omega

theorem emits_assignTo {d : ℤ} {v : Value} {ty : MirType} (h : b.assignTo d v ty = .ok b') 
    (hv : Readable lo b.layout ty.memSize v) (h5 : lo ≤ d) (h6 : d + ty.memSize ≤ b.layout.frame) : Emits lo b b' := by
  unfold Builder.assignTo at h
  split at h
  · split_ifs at h with c1 c2
    · cases h; exact emits_imm h5 (by rw [c1] at h6; exact_mod_cast h6)
    · cases h; exact emits_u32Imm h5 (by rw [c2.1] at h6; exact_mod_cast h6)
  · split_ifs at h with c1
    cases h
    rw [not_not] at c1
    exact emits_imm h5 (by rw [c1] at h6; exact_mod_cast h6)
  · split at h
    · cases h
    · rename_i s hs
      obtain ⟨a1, a2⟩ := hv.offset hs
      split_ifs at h with c1 c2
      · cases h
        rw [c1] at h6 a2
        exact emits_copy a1 (by exact_mod_cast a2) h5 (by exact_mod_cast h6)
      · cases h
        have : ty.memSize = 2 := by cases ty <;> simp [MirType.isU32] at c2 <;> rfl
        rw [this] at h6 a2
        exact emits_push ⟨⟨s, rfl, a1, by exact_mod_cast a2⟩, ⟨d, rfl, h5, by exact_mod_cast h6⟩⟩
      · cases h
        exact emits_copySlots a1 a2 h5 h6
  · cases h

theorem emits_assert {l r : Value} (h : genAssert b l r = .ok b') (hl : Readable lo b.layout 1 l)
    (hr : Readable lo b.layout 1 r) (hlo : lo ≤ 0) : Emits lo b b' := by
  have key : ∀ {id : ValueId} {imm : ℤ}, Readable lo b.layout 1 (.Operand id) →
      (b.layout.getOffset id >>= fun off => Except.ok (b.assertEqImm off imm)) = Except.ok (ε := Err) b' → Emits lo b b' := by
    intro id imm hid hb
    simp only [Bind.bind, Except.bind] at hb
    split at hb
    · cases hb
    · rename_i o ho
      cases hb
      obtain ⟨a1, a2⟩ := hid.offset ho
      exact emits_push ⟨o, rfl, a1, by exact_mod_cast a2⟩
  have lits : ∀ {m n : BitVec 32}, .ok (((b.reserve 1).2.storeImm (Builder.boolWord (m == n)) (b.reserve 1).1).assertEqImm
      (b.reserve 1).1 1) = Except.ok (ε := Err) b' → Emits lo b b' := by
    intro m n h
    cases h
    have ht : (b.reserve 1).1 = (b.layout.frame : ℤ) := rfl
    have hf : ((b.reserve 1).2.layout.frame : ℤ) = b.layout.frame + 1 := rfl
    exact emits_reserve.trans ((emits_imm (by omega) (by omega)).trans (emits_push ⟨_, rfl, by omega, by
      show (b.reserve 1).1 + 1 ≤ ((b.reserve 1).2.layout.frame : ℤ); omega⟩))
  cases l with
  | Error => simp [genAssert] at h
  | Operand i =>
    cases r with
    | Error => simp [genAssert] at h
    | Operand j => simp [genAssert] at h
    | Literal x => 
      cases x with
      | Unit => simp [genAssert] at h
      | Integer n => exact key hl h
      | Boolean n => exact key hl h
  | Literal x =>
    cases r with
    | Error => cases x <;> simp [genAssert] at h
    | Operand j =>
      cases x with
      | Unit => simp [genAssert] at h
      | Integer n => exact key hr h
      | Boolean n => exact key hr h
    | Literal y =>
      cases x <;> cases y <;> first
        | exact lits h
        | simp [genAssert, asInteger] at h

end Codegen
end CairoM
