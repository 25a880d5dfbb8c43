import Verif.FunctionSpec
import Verif.CodegenProps
import Verif.LayoutProps

/-!
# Helper lemmas: the code emitted for one instruction of a function
-/

namespace CairoM
namespace Codegen

open Mir Lang Relation

/-- The slots in which values are expected: inside the range, apart from each other, of the size of the type. -/
structure Homes (types : ValueId → Option MirType) (lo F : ℤ) (H : ValueId → Option Slot) : Prop where
  range : ∀ v s, H v = some s → lo ≤ s.off ∧ s.off + s.size ≤ F ∧ Apart s.off s.size (-2) 2
  apart : ∀ v w s t, v ≠ w → H v = some s → H w = some t → Apart s.off s.size t.off t.size
  sized : ∀ v s, H v = some s → ∃ t, types v = some t ∧ s.size = t.memSize

/-- Every value that is defined is in its slot, and the code generator knows it. -/
def Agrees (l : Layout) (H : ValueId → Option Slot) (fp : M31) (env : Env) (m : Isa.Mem) : Prop :=
  ∀ v x, env v = some x → ∃ s, H v = some s ∧ l.values v = some s ∧ Holds m fp s.off x

variable {code : List IB} {tgt : Name → Option ℕ} {fp : M31} {m : Isa.Mem} {b b' : Builder} {lo hi F : ℤ}
  {H : ValueId → Option Slot} {types : ValueId → Option MirType} {env env' : Env}

theorem memSize_scalar {t : MirType} {ty : Ty} {x : Val} (h : scalarTy t = some ty) (hx : x.HasTy ty) :
    t.memSize = width x := by
  cases t <;> simp only [scalarTy, reduceCtorEq, Option.some.injEq] at h <;> subst h <;>
    cases x <;> simp [Val.HasTy] at hx <;> simp [MirType.memSize, width]

theorem width_size (hH : Homes types lo F H) {v : ValueId} {x : Val} {s : Slot} (hx : ValTy x (types v))
    (hs : H v = some s) : s.size = width x := by
  obtain ⟨t, h1, h2⟩ := hH.sized v s hs
  obtain ⟨mt, ty, h3, h4, h5⟩ := hx
  rw [h1] at h3; injection h3 with h3; subst h3
  rw [h2, memSize_scalar h4 h5]

theorem Agrees.has {l : Layout} (hag : Agrees l H fp env m) (hH : Homes types lo F H) (hty : EnvTyped types env)
    (hF : F ≤ l.frame) {v : ValueId} {x : Val} {t : Ty} (hv : env v = some x) (ht : x.HasTy t) :
    Has l m fp lo t (.Operand v) x := by
  obtain ⟨s, h1, h2, h3⟩ := hag v x hv
  obtain ⟨r1, r2, -⟩ := hH.range v s h1
  rw [width_size hH (hty v x hv) h1] at r2
  exact ⟨ht, s, h2, r1, by omega, h3⟩

theorem Agrees.has_operand {l : Layout} (hag : Agrees l H fp env m) (hH : Homes types lo F H)
    (hty : EnvTyped types env) (hF : F ≤ l.frame) {v : Value} {x : Val} {t : Ty} {op : BinaryOp}
    (hv : operand env op v = some x) (ht : x.HasTy t) : Has l m fp lo t v x := by
  cases v with
  | Literal lit =>
    have := denote_hasTy hv
    rw [← hasTy_unique this ht]
    exact hv
  | Operand v => exact hag.has hH hty hF hv ht
  | Error => cases hv

theorem Agrees.has_readAt {l : Layout} (hag : Agrees l H fp env m) (hH : Homes types lo F H)
    (hty : EnvTyped types env) (hF : F ≤ l.frame) {v : Value} {x : Val} {t : Ty}
    (hv : readAt env t v = some x) (ht : x.HasTy t) : Has l m fp lo t v x := by
  cases v with
  | Literal lit => exact hv
  | Operand v => exact hag.has hH hty hF hv ht
  | Error => cases hv

theorem Agrees.has_readPlain {l : Layout} (hag : Agrees l H fp env m) (hH : Homes types lo F H)
    (hty : EnvTyped types env) (hF : F ≤ l.frame) {v : Value} {x : Val} {t : Ty}
    (hv : readPlain env v = some x) (ht : x.HasTy t) : Has l m fp lo t v x := by
  cases v with
  | Literal lit =>
    have := denote_hasTy hv
    rw [← hasTy_unique this ht]
    exact hv
  | Operand v => exact hag.has hH hty hF hv ht
  | Error => cases hv

/-- Memory changed only above the homes: values are still in their slots. -/
theorem Agrees.above {l l' : Layout} {m' : Isa.Mem} {lo' : ℤ} (hag : Agrees l H fp env m) (hH : Homes types lo F H)
    (hty : EnvTyped types env) (w : Window fp lo hi) (hl : l'.values = l.values) (h1 : F ≤ lo') (h2 : F ≤ hi)
    {hi' : ℤ} (h3 : hi' ≤ hi)
    (hs : SameExcept fp (fun o => lo' ≤ o ∧ o < hi') m m') : Agrees l' H fp env m' := by
  intro v x hv
  obtain ⟨s, g1, g2, g3⟩ := hag v x hv
  obtain ⟨r1, r2, -⟩ := hH.range v s g1
  rw [width_size hH (hty v x hv) g1] at r2
  refine ⟨s, g1, by rw [hl]; exact g2, hs.holds w r1 (by omega) (fun t ht => ⟨by omega, by omega⟩) ?_ g3⟩
  intro o o1 o2 o3
  omega

/-- Code that computes a value into the slot of `d` turns the environment into one where `d` has that value. -/
theorem Computes.agrees {x : Val} {d : ValueId} {s : Slot} (hc : Computes code tgt fp b b' m s.off x) (he : Ext b b')
    (hag : Agrees b.layout H fp env m) (hH : Homes types lo F H) (hty : EnvTyped types env) (w : Window fp lo hi)
    (hF : F ≤ b.layout.frame) (hhi : (b'.layout.frame : ℤ) ≤ hi) (hd : H d = some s)
    (hbd : b.layout.values d = some s) (hx : ValTy x (types d)) :
    ∃ m', Runs code tgt fp (b.instrs.length, m) (b'.instrs.length, m') ∧
      Agrees b'.layout H fp (Function.update env d (some x)) m' ∧ SameExcept fp (Body (min s.off 0) hi) m m' := by
  obtain ⟨m', hr, hv, hs⟩ := hc
  have hsz := width_size hH hx hd
  obtain ⟨r1, r2, r3⟩ := hH.range d s hd
  unfold Apart at r3
  have hfr := he.frame
  refine ⟨m', hr, ?_, hs.mono fun o ho => ?_⟩
  · intro v y hvy
    by_cases hvd : v = d
    · subst hvd
      simp only [Function.update_self, Option.some.injEq] at hvy
      subst hvy
      exact ⟨s, hd, by rw [he.values]; exact hbd, hv⟩
    · rw [Function.update_of_ne hvd] at hvy
      obtain ⟨s', g1, g2, g3⟩ := hag v y hvy
      obtain ⟨q1, q2, -⟩ := hH.range v s' g1
      have hsz' := width_size hH (hty v y hvy) g1
      have hap := hH.apart v d s' s hvd g1 hd
      unfold Apart at hap
      refine ⟨s', g1, by rw [he.values]; exact g2, hs.holds w q1 (by omega) (fun t ht => ?_) ?_ g3⟩
      · rcases ht with ht | ht
        · exact ⟨by omega, by omega⟩
        · exact ⟨by omega, by omega⟩
      · intro o o1 o2 o3
        rcases o3 with o3 | o3 <;> omega
  · rcases ho with ho | ho
    · exact ⟨by omega, by omega, by omega, by omega⟩
    · exact ⟨by omega, by omega, by omega, by omega⟩

/-! ### Where the result goes -/

/-- The builder after choosing slot `s` for the destination `d`. -/
structure Chosen (b b₁ : Builder) (d : ValueId) (s : Slot) : Prop where
  instrs : b₁.instrs = b.instrs
  labels : b₁.labels = b.labels
  frame : b₁.layout.frame = b.layout.frame
  retSlots : b₁.layout.retSlots = b.layout.retSlots
  values : b₁.layout.values = Function.update b.layout.values d (some s)

theorem Chosen.same {d : ValueId} {s : Slot} (h : b.layout.values d = some s) : Chosen b b d s :=
  ⟨rfl, rfl, rfl, rfl, by rw [← h, Function.update_eq_self]⟩

theorem Chosen.map {d : ValueId} {off : ℤ} (h : off + b.layout.valueSize d ≤ b.layout.frame) :
    Chosen b (b.mapValue d off) d (Slot.of off (b.layout.valueSize d)) := by
  refine ⟨rfl, rfl, ?_, ?_, ?_⟩ <;> simp only [Builder.mapValue, Layout.mapValue] <;>
    rw [if_neg (by omega)] <;> rfl

theorem Chosen.agrees {b₁ : Builder} {d : ValueId} {s : Slot} (hc : Chosen b b₁ d s)
    (hag : Agrees b.layout H fp env m) (hd : H d = some s) : Agrees b₁.layout H fp env m := by
  intro v x hv
  obtain ⟨t, g1, g2, g3⟩ := hag v x hv
  refine ⟨t, g1, ?_, g3⟩
  rw [hc.values]
  by_cases hvd : v = d
  · subst hvd
    rw [hd] at g1; injection g1 with g1; subst g1
    simp
  · rw [Function.update_of_ne hvd]; exact g2

theorem Chosen.self {b₁ : Builder} {d : ValueId} {s : Slot} (hc : Chosen b b₁ d s) : b₁.layout.values d = some s := by
  rw [hc.values]; simp

/-! ### Copies -/

theorem runs_copySingle {src d : ℤ} {x : M31} (hfit : Fits code tgt (b.copySingle src d))
    (hx : Isa.felt m (adr fp src) = some x) (hd : Isa.InRange (adr fp d)) :
    Runs code tgt fp (b.instrs.length, m) ((b.copySingle src d).instrs.length, put m (adr fp d) x) := by
  have := runs_push (m := m) hfit rfl (sem_addImm (pc := 0) (imm := ofI32 0) (adr_ofI32 fp src) (adr_ofI32 fp d) hx hd)
  have h0 : ofI32 0 = 0 := by simp [ofI32]
  rw [h0, add_zero] at this
  exact this

theorem copySlots_layout {s d : ℤ} {n : ℕ} : (b.copySlots s d n).layout = b.layout := by
  induction n with
  | zero => rfl
  | succ n ih => exact ih

theorem assignTo_layout {src : Value} {ty : MirType} {d : ℤ} (h : b.assignTo d src ty = .ok b') : b'.layout = b.layout := by
  unfold Builder.assignTo at h
  cases src with
  | Error => cases h
  | Literal lit =>
    cases lit <;> simp only at h <;> (try split_ifs at h) <;> first
      | (cases h; rfl)
      | cases h
  | Operand id =>
    simp only at h
    split at h
    · cases h
    · split_ifs at h <;> cases h <;> first
        | rfl
        | exact copySlots_layout

theorem computes_assignTo {src : Value} {ty : MirType} {t : Ty} {x : Val} {d : ℤ} (w : Window fp lo hi)
    (hv : Has b.layout m fp lo t src x) (hx : x.HasTy t) (ht : scalarTy ty = some t) (hd : lo ≤ d)
    (hd' : d + width x ≤ hi) (h : b.assignTo d src ty = .ok b')
    (hfit : Fits code tgt b') : Ext b b' ∧ Computes code tgt fp b b' m d x := by
  cases src with
  | Error => cases hv
  | Literal lit =>
    cases lit with
    | Unit => simp [Builder.assignTo] at h
    | Boolean p =>
      cases t <;> simp only [Has, denote, reduceCtorEq, Option.some.injEq] at hv
      subst hv
      simp only [Builder.assignTo] at h
      split_ifs at h
      cases h
      simp only [width] at hd'
      have dr := w.inRange hd (o := d) (by push_cast at hd'; omega)
      exact ⟨Ext.push, computes_bool dr (toM31_boolWord p) (runs_storeImm hfit dr)⟩
    | Integer n =>
      cases t <;> simp only [Has, denote, reduceCtorEq, Option.some.injEq] at hv
      · subst hv
        cases ty <;> simp only [scalarTy, reduceCtorEq, Option.some.injEq] at ht
        simp only [Builder.assignTo, MirType.memSize, if_true, Except.ok.injEq] at h
        subst h
        simp only [width] at hd'
        have dr := w.inRange hd (o := d) (by push_cast at hd'; omega)
        refine ⟨Ext.push, FeltRun.computes_felt (FeltRun.one dr ?_)⟩
        have := runs_storeImm (m := m) hfit dr
        simp only [residue]
        exact this
      · subst hv
        cases ty <;> simp only [scalarTy, reduceCtorEq, Option.some.injEq] at ht
        simp only [Builder.assignTo, MirType.memSize, MirType.isU32, Nat.reduceEqDiff, if_false, and_self, if_true,
          Except.ok.injEq] at h
        subst h
        simp only [width] at hd'
        push_cast at hd'
        refine ⟨Ext.push, computes_split w hd (by omega) n.isLt ?_⟩
        exact runs_storeU32Imm hfit (w.inRange hd (by omega)) (by rw [← adr_succ]; exact w.inRange (by omega) (by omega))
  | Operand id =>
    obtain ⟨-, s, hs, h1, h2, h3⟩ := hv
    simp only [Builder.assignTo, getOffset_ok hs] at h
    cases t with
    | felt =>
      cases x <;> simp [Val.HasTy] at hx
      cases ty <;> simp only [scalarTy, reduceCtorEq, Option.some.injEq] at ht
      simp only [MirType.memSize, if_true, Except.ok.injEq] at h
      subst h
      simp only [width] at hd'
      have dr := w.inRange hd (o := d) (by push_cast at hd'; omega)
      exact ⟨Ext.push, FeltRun.computes_felt (FeltRun.one dr (runs_copySingle hfit h3 dr))⟩
    | bool =>
      cases x <;> simp [Val.HasTy] at hx
      cases ty <;> simp only [scalarTy, reduceCtorEq, Option.some.injEq] at ht
      simp only [MirType.memSize, if_true, Except.ok.injEq] at h
      subst h
      simp only [width] at hd'
      have dr := w.inRange hd (o := d) (by push_cast at hd'; omega)
      exact ⟨Ext.push, FeltRun.computes_bool (FeltRun.one dr (runs_copySingle hfit h3 dr))⟩
    | u32 =>
      cases x <;> simp [Val.HasTy] at hx
      cases ty <;> simp only [scalarTy, reduceCtorEq, Option.some.injEq] at ht
      rename_i n
      simp only [MirType.memSize, MirType.isU32, Nat.reduceEqDiff, if_false, if_true, Except.ok.injEq] at h
      subst h
      simp only [width] at hd'
      push_cast at hd'
      refine ⟨Ext.push, computes_split w hd (by omega) hx ?_⟩
      have e := sem_u32AddImm (pc := 0) (lo := 0) (hi := 0) (k := 0) (adr_ofI32 fp s.off) (adr_ofI32 fp d)
        h3 (by decide +kernel) (w.inRange hd (by omega)) (by rw [← adr_succ]; exact w.inRange (by omega) (by omega))
      have := runs_push' (m := m) hfit rfl e
      rw [Nat.add_zero, Nat.mod_eq_of_lt hx] at this
      exact this
    | unit =>
      cases x <;> simp [Val.HasTy] at hx
      cases ty <;> simp only [scalarTy, reduceCtorEq, Option.some.injEq] at ht
      simp only [MirType.memSize, MirType.isU32, zero_ne_one, if_false, Bool.false_eq_true,
        Except.ok.injEq, Builder.copySlots] at h
      subst h
      exact ⟨Ext.refl, m, Runs.refl, trivial, SameExcept.refl⟩

end Codegen
end CairoM
