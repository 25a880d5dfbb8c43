import Verif.MirFoldProps

/-!
# Specification: well-typed functions of the mid-level representation

Typing rules of the scalar fragment, written without reference to the passes, and their preservation by
execution.
-/

namespace CairoM
namespace Lang

open Mir

/-- A value has a scalar type, given as a type of the representation. -/
def ValTy (x : Val) (t : Option MirType) : Prop := ∃ mt ty, t = some mt ∧ scalarTy mt = some ty ∧ x.HasTy ty

/-- A literal can be read at a type; felt literals are written below `P`. -/
def LiteralTy (l : Literal) (t : MirType) : Prop :=
  ∃ ty x, scalarTy t = some ty ∧ denote ty l = some x ∧ (ty = .felt → Canon l)

/-- An operand has a type. -/
def HasType (types : ValueId → Option MirType) (v : Value) (t : MirType) : Prop :=
  match v with
  | .Literal l => LiteralTy l t
  | .Operand v => types v = some t
  | .Error => False

/-- Literal operands of a field operator are written below `P`. -/
def LiteralOk (op : BinaryOp) : Value → Prop
  | .Literal l => literalTy op l = .felt → Canon l
  | _ => True

/-- The operand type of a unary operator; unary minus is on felts. -/
def unaryTy : UnaryOp → MirType
  | .Neg => .Felt
  | .Not => .Bool

/-- Typing of an instruction of the scalar fragment. -/
def InstrTyped (types : ValueId → Option MirType) : Instr → Prop
  | .Assign d v ty => types d = some ty ∧ HasType types v ty
  | .UnaryOp op d v => types d = some (unaryTy op) ∧ HasType types v (unaryTy op)
  | .BinaryOp op d l r => types d = some (resultType op) ∧ LiteralOk op l ∧ LiteralOk op r
  | .Call ds _ args sig => ds.map types = sig.returns.map some ∧ List.Forall₂ (HasType types) args sig.params
  | .Cast d v s t => types d = some t ∧ HasType types v s
  | .Phi d ty ss => types d = some ty ∧ ∀ s ∈ ss, HasType types s.2 ty
  | _ => True

/-- All instructions of a function are well typed. -/
def FunctionTyped (f : Function) : Prop := ∀ b ∈ f.blocks, ∀ i ∈ b.instrs, InstrTyped f.types i

/-- The callees return values of the types in the signatures of the calls of `f`. -/
def CallsTyped (f : Function) (calls : Calls) : Prop :=
  ∀ b ∈ f.blocks, ∀ ds c args sig, .Call ds c args sig ∈ b.instrs → ∀ xs ys, calls c xs = some ys →
    List.Forall₂ (fun y (t : MirType) => ValTy y (some t)) ys sig.returns

/-- Every name that has a value has one of its type. -/
def EnvTyped (types : ValueId → Option MirType) (env : Env) : Prop := ∀ v x, env v = some x → ValTy x (types v)

variable {types : ValueId → Option MirType} {env env' : Env} {calls : Calls}

theorem hasTy_unique {x : Val} {s t : Ty} (h : x.HasTy s) (h' : x.HasTy t) : s = t := by
  cases x <;> simp only [Val.HasTy] at h h'
  · rw [h, h']
  · rw [h.1, h'.1]
  · rw [h, h']
  · rw [h, h']

theorem ValTy.hasTy {x : Val} {mt : MirType} {t : Ty} (h : ValTy x (some mt)) (ht : scalarTy mt = some t) :
    x.HasTy t := by
  obtain ⟨m, ty, h1, h2, h3⟩ := h
  injection h1 with h1; subst h1
  rw [ht] at h2; injection h2 with h2; subst h2
  exact h3

theorem EnvTyped.ok (h : EnvTyped types env) : EnvOk env := fun v x hx => by
  obtain ⟨_, _, _, _, h3⟩ := h v x hx
  exact h3.ok

theorem EnvTyped.update (h : EnvTyped types env) {d : ValueId} {x : Val} (hx : ValTy x (types d)) :
    EnvTyped types (Function.update env d (some x)) := by
  intro v y hy
  by_cases hv : v = d
  · subst hv; simp only [Function.update_self, Option.some.injEq] at hy; subst hy; exact hx
  · rw [Function.update_of_ne hv] at hy; exact h v y hy

theorem readAt_typed (h : EnvTyped types env) {v : Value} {mt : MirType} {t : Ty} {x : Val}
    (hv : HasType types v mt) (ht : scalarTy mt = some t) (hx : readAt env t v = some x) : x.HasTy t := by
  cases v with
  | Literal l => exact denote_hasTy hx
  | Operand v =>
    have := h v x hx
    simp only [HasType] at hv
    rw [hv] at this
    exact this.hasTy ht
  | Error => exact hv.elim

theorem bind_typed (h : EnvTyped types env) {ds : List ValueId} {ts : List MirType} {ys : List Val}
    (hd : ds.map types = ts.map some) (hy : List.Forall₂ (fun y (t : MirType) => ValTy y (some t)) ys ts)
    (hb : bind env ds ys = some env') : EnvTyped types env' := by
  induction ds generalizing env ts ys with
  | nil =>
    cases ys with
    | nil => simp only [bind, Option.some.injEq] at hb; subst hb; exact h
    | cons y ys => simp [bind] at hb
  | cons d ds ih =>
    cases ts with
    | nil => simp at hd
    | cons t ts =>
      cases hy with
      | cons hy hys =>
        simp only [List.map_cons, List.cons.injEq] at hd
        exact ih (h.update (by rw [hd.1]; exact hy)) hd.2 hys hb

/-- Execution of a well-typed instruction keeps the environment well typed. -/
theorem evalInstr_typed {i : Instr} (hi : InstrTyped types i) (h : EnvTyped types env)
    (hc : ∀ ds c args sig, i = .Call ds c args sig → ∀ xs ys, calls c xs = some ys →
      List.Forall₂ (fun y (t : MirType) => ValTy y (some t)) ys sig.returns)
    (he : evalInstr calls i env = some env') : EnvTyped types env' := by
  cases i <;> simp only [evalInstr, Option.bind_eq_bind, Option.bind_eq_some_iff, Option.some.injEq,
    reduceCtorEq] at he
  case Assign d v ty =>
    obtain ⟨t, ht, x, hx, rfl⟩ := he
    exact h.update ⟨ty, t, hi.1, ht, readAt_typed h hi.2 ht hx⟩
  case UnaryOp op d v =>
    obtain ⟨x, hx, y, hy, rfl⟩ := he
    obtain ⟨h1, h2⟩ := hi
    have hxt : ∀ t, scalarTy (unaryTy op) = some t → x.HasTy t := by
      intro t ht
      cases v with
      | Literal l =>
        obtain ⟨ty, z, g1, g2, _⟩ := h2
        rw [ht] at g1; injection g1 with g1; subst g1
        have : plainTy l = t := by
          cases l <;> cases t <;> simp only [denote, reduceCtorEq] at g2 <;>
            cases op <;> simp [unaryTy, scalarTy] at ht <;> rfl
        rw [← this]; exact denote_hasTy hx
      | Operand v =>
        have := h v x hx
        simp only [HasType] at h2
        rw [h2] at this
        exact this.hasTy ht
      | Error => exact h2.elim
    refine h.update ?_
    rw [h1]
    cases op <;> cases x <;> simp only [unary, Option.some.injEq, reduceCtorEq] at hy <;> subst hy
    · exact ⟨.Felt, .felt, rfl, rfl, rfl⟩
    · have := hxt .felt rfl; simp [Val.HasTy] at this
    · exact ⟨.Bool, .bool, rfl, rfl, rfl⟩
  case BinaryOp op d l r =>
    obtain ⟨x, hx, y, hy, z, hz, rfl⟩ := he
    obtain ⟨t, ht, hxt, hyt⟩ := binary_typed hz (operand_ok h.ok hx) (operand_ok h.ok hy)
    exact h.update ⟨resultType op, resultTy op, hi.1, scalarTy_resultType op, binary_hasTy ht hxt hyt hz⟩
  case Call ds c args sig =>
    obtain ⟨xs, hxs, ys, hys, hb⟩ := he
    exact bind_typed h hi.1 (hc ds c args sig rfl xs ys hys) hb
  case Cast d v s t =>
    obtain ⟨s', hs, t', ht, x, hx, y, hy, rfl⟩ := he
    refine h.update ⟨t, t', hi.1, ht, ?_⟩
    unfold cast at hy
    split at hy
    · split_ifs at hy
      injection hy with hy; subst hy; rfl
    · cases hy
  case AssertEq l r =>
    obtain ⟨x, hx, y, hy, he⟩ := he
    split_ifs at he
    injection he with he; subst he; exact h
  case Debug => subst he; exact h
  case Nop => subst he; exact h

theorem phiValue_typed (h : EnvTyped types env) {p : BlockId} {ty : MirType} {ss : List (BlockId × Value)} {x : Val}
    {d : ValueId} (hi : InstrTyped types (.Phi d ty ss)) (hx : phiValue env p ty ss = some x) : ValTy x (types d) := by
  unfold phiValue at hx
  simp only [Option.bind_eq_bind, Option.bind_eq_some_iff] at hx
  obtain ⟨t, ht, v, hv, hx⟩ := hx
  exact ⟨ty, t, hi.1, ht, readAt_typed h (hi.2 (p, v) (mem_lookup hv)) ht hx⟩

/-- Binding well-typed arguments to the parameters. -/
theorem bind_args_typed {ps : List ValueId} {args : List Val} (h : EnvTyped types env)
    (ha : List.Forall₂ (fun x p => ValTy x (types p)) args ps) (hb : bind env ps args = some env') :
    EnvTyped types env' := by
  induction ps generalizing env args with
  | nil =>
    cases args with
    | nil => simp only [bind, Option.some.injEq] at hb; subst hb; exact h
    | cons y ys => simp [bind] at hb
  | cons d ds ih =>
    cases ha with
    | cons h1 h2 => exact ih (h.update h1) h2 hb

end Lang
end CairoM
