import Verif.MirBranchLemmas

/-!
# C44, C45: constant folding and arithmetic simplification of whole functions
-/

namespace CairoM
namespace Lang

open Mir

/-- A scalar is in range. -/
def Val.Ok : Val → Prop
  | .u32 n => U32Range n
  | _ => True

/-- All values are in range. -/
def EnvOk (env : Env) : Prop := ∀ v x, env v = some x → x.Ok

/-- The callees return values in range. -/
def CallsOk (calls : Calls) : Prop := ∀ c xs ys, calls c xs = some ys → ∀ y ∈ ys, y.Ok

theorem Val.HasTy.ok {x : Val} {t : Ty} (h : x.HasTy t) : x.Ok := by
  cases x <;> simp only [Val.HasTy, Val.Ok] at * ; exact h.2

theorem Val.Ok.hasTy {x : Val} (h : x.Ok) : ∃ t, x.HasTy t := by
  cases x with
  | felt _ => exact ⟨.felt, rfl⟩
  | u32 n => exact ⟨.u32, rfl, h⟩
  | bool _ => exact ⟨.bool, rfl⟩
  | unit => exact ⟨.unit, rfl⟩

theorem denote_hasTy {t : Ty} {l : Literal} {x : Val} (h : denote t l = some x) : x.HasTy t := by
  cases l <;> cases t <;> simp [denote] at h <;> subst h <;> simp [Val.HasTy, U32Range]
  rename_i n
  exact n.isLt

theorem EnvOk.update {env : Env} (h : EnvOk env) {d : ValueId} {x : Val} (hx : x.Ok) :
    EnvOk (Function.update env d (some x)) := by
  intro v y hy
  by_cases hv : v = d
  · subst hv; simp at hy; subst hy; exact hx
  · rw [Function.update_of_ne hv] at hy; exact h v y hy

theorem readAt_ok {env : Env} (h : EnvOk env) {t : Ty} {v : Value} {x : Val} (hx : readAt env t v = some x) : x.Ok := by
  cases v with
  | Literal l => exact (denote_hasTy hx).ok
  | Operand v => exact h v x hx
  | Error => cases hx

theorem operand_ok {env : Env} (h : EnvOk env) {op : BinaryOp} {v : Value} {x : Val}
    (hx : operand env op v = some x) : x.Ok := by
  cases v with
  | Literal l => exact (denote_hasTy hx).ok
  | Operand v => exact h v x hx
  | Error => cases hx

theorem readPlain_ok {env : Env} (h : EnvOk env) {v : Value} {x : Val} (hx : readPlain env v = some x) : x.Ok := by
  cases v with
  | Literal l => exact (denote_hasTy hx).ok
  | Operand v => exact h v x hx
  | Error => cases hx

/-- An operator that has a result is applied to values of its operand type. -/
theorem binary_typed {op : BinaryOp} {x y z : Val} (h : binary op x y = some z) (hx : x.Ok) (hy : y.Ok) :
    ∃ t, operandTy op t ∧ x.HasTy t ∧ y.HasTy t := by
  cases x with
  | felt a =>
    cases y with
    | felt b =>
      refine ⟨.felt, ?_, rfl, rfl⟩
      cases op <;> simp [binary] at h <;> simp [operandTy]
    | _ => cases op <;> simp [binary] at h
  | u32 a =>
    cases y with
    | u32 b =>
      refine ⟨.u32, ?_, ⟨rfl, hx⟩, ⟨rfl, hy⟩⟩
      cases op <;> simp [binary] at h <;> simp [operandTy]
    | _ => cases op <;> simp [binary] at h
  | bool a =>
    cases y with
    | bool b =>
      refine ⟨.bool, ?_, rfl, rfl⟩
      cases op <;> simp [binary] at h <;> simp [operandTy]
    | _ => cases op <;> simp [binary] at h
  | unit => cases op <;> cases y <;> simp [binary] at h

theorem binary_ok {op : BinaryOp} {x y z : Val} (h : binary op x y = some z) (hx : x.Ok) (hy : y.Ok) : z.Ok := by
  obtain ⟨t, ht, h1, h2⟩ := binary_typed h hx hy
  exact (binary_hasTy ht h1 h2 h).ok

theorem unary_ok {op : UnaryOp} {x z : Val} (h : unary op x = some z) : z.Ok := by
  cases op <;> cases x <;> simp [unary] at h <;> subst h <;> simp only [Val.Ok, U32Range]
  exact Nat.mod_lt _ (by decide)

theorem cast_ok {s t : Ty} {x z : Val} (h : cast s t x = some z) : z.Ok := by
  unfold cast at h
  split at h
  · split_ifs at h; simp at h; subst h; trivial
  · cases h

theorem bind_ok {env env' : Env} (h : EnvOk env) {ds : List ValueId} {xs : List Val} (hx : ∀ x ∈ xs, x.Ok)
    (hb : bind env ds xs = some env') : EnvOk env' := by
  induction ds generalizing env xs with
  | nil => cases xs <;> simp [bind] at hb; subst hb; exact h
  | cons d ds ih =>
    cases xs with
    | nil => simp [bind] at hb
    | cons x xs => exact ih (h.update (hx x (by simp))) (fun y hy => hx y (by simp [hy])) hb

theorem evalInstr_ok {calls : Calls} (hc : CallsOk calls) {i : Instr} {env env' : Env} (h : EnvOk env)
    (he : evalInstr calls i env = some env') : EnvOk env' := by
  cases i with
  | Assign d v ty =>
    simp only [evalInstr, Option.bind_eq_bind, Option.bind_eq_some_iff, Option.some.injEq] at he
    obtain ⟨t, -, x, hx, rfl⟩ := he
    exact h.update (readAt_ok h hx)
  | UnaryOp op d v =>
    simp only [evalInstr, Option.bind_eq_bind, Option.bind_eq_some_iff, Option.some.injEq] at he
    obtain ⟨t, -, x, hx, rfl⟩ := he
    exact h.update (unary_ok hx)
  | BinaryOp op d l r =>
    simp only [evalInstr, Option.bind_eq_bind, Option.bind_eq_some_iff, Option.some.injEq] at he
    obtain ⟨x, hx, y, hy, z, hz, rfl⟩ := he
    exact h.update (binary_ok hz (operand_ok h hx) (operand_ok h hy))
  | Call ds c args sig =>
    simp only [evalInstr, Option.bind_eq_bind, Option.bind_eq_some_iff] at he
    obtain ⟨xs, -, ys, hy, hb⟩ := he
    exact bind_ok h (hc c xs ys hy) hb
  | Cast d v s t =>
    simp only [evalInstr, Option.bind_eq_bind, Option.bind_eq_some_iff, Option.some.injEq] at he
    obtain ⟨s, -, t, -, x, -, y, hy, rfl⟩ := he
    exact h.update (cast_ok hy)
  | AssertEq l r =>
    simp only [evalInstr, Option.bind_eq_bind, Option.bind_eq_some_iff] at he
    obtain ⟨x, -, y, -, hy⟩ := he
    split_ifs at hy
    simp only [Option.some.injEq] at hy
    subst hy; exact h
  | Debug vs => simp only [evalInstr, Option.some.injEq] at he; subst he; exact h
  | Nop => simp only [evalInstr, Option.some.injEq] at he; subst he; exact h
  | _ => simp [evalInstr] at he

theorem phiValue_ok {env : Env} (h : EnvOk env) {p : BlockId} {ty : MirType} {ss : List (BlockId × Value)} {x : Val}
    (hx : phiValue env p ty ss = some x) : x.Ok := by
  simp only [phiValue, Option.bind_eq_bind, Option.bind_eq_some_iff] at hx
  obtain ⟨t, -, v, -, hv⟩ := hx
  exact readAt_ok h hv

/-- The instructions of two blocks correspond: every instruction that has an effect has the same effect in the
other block. -/
def InstrSim (calls : Calls) (i j : Instr) : Prop :=
  (∀ env env', EnvOk env → evalInstr calls i env = some env' → evalInstr calls j env = some env') ∧
  ∀ d ty ss, (i = .Phi d ty ss ↔ j = .Phi d ty ss)

theorem evalPhis_sim {calls : Calls} {is js : List Instr} (h : List.Forall₂ (InstrSim calls) is js)
    {env acc : Env} (he : EnvOk env) (ha : EnvOk acc) {p : Option BlockId} :
    OptRel (fun x y => x.1 = y.1 ∧ EnvOk x.1 ∧ List.Forall₂ (InstrSim calls) x.2 y.2) (evalPhis env p is acc)
      (evalPhis env p js acc) := by
  induction h generalizing acc with
  | nil => exact ⟨rfl, ha, .nil⟩
  | @cons i j is js hij h ih =>
    by_cases hp : ∃ d ty ss, i = .Phi d ty ss
    · obtain ⟨d, ty, ss, rfl⟩ := hp
      obtain rfl := (hij.2 d ty ss).1 rfl
      simp only [evalPhis, Option.bind_eq_bind]
      cases p with
      | none => trivial
      | some p =>
        simp only [Option.bind_some]
        cases hx : phiValue env p ty ss with
        | none => trivial
        | some x => exact ih (ha.update (phiValue_ok he hx))
    · have hj : ¬ ∃ d ty ss, j = .Phi d ty ss := by
        rintro ⟨d, ty, ss, rfl⟩; exact hp ⟨d, ty, ss, (hij.2 d ty ss).2 rfl⟩
      have e1 : evalPhis env p (i :: is) acc = some (acc, i :: is) := by
        cases i <;> first | rfl | exact absurd ⟨_, _, _, rfl⟩ hp
      have e2 : evalPhis env p (j :: js) acc = some (acc, j :: js) := by
        cases j <;> first | rfl | exact absurd ⟨_, _, _, rfl⟩ hj
      rw [e1, e2]
      exact ⟨rfl, ha, .cons hij h⟩

theorem evalInstrs_sim {calls : Calls} (hc : CallsOk calls) {is js : List Instr}
    (h : List.Forall₂ (InstrSim calls) is js) {env : Env} (he : EnvOk env) :
    OptFwd (fun x y => x = y ∧ EnvOk x) (evalInstrs calls is env) (evalInstrs calls js env) := by
  induction h generalizing env with
  | nil => exact ⟨rfl, he⟩
  | @cons i j is js hij h ih =>
    simp only [evalInstrs, Option.bind_eq_bind]
    cases h1 : evalInstr calls i env with
    | none => trivial
    | some e1 =>
      rw [hij.1 env e1 he h1]
      exact ih (evalInstr_ok hc he h1)

/-- Replacing instructions by instructions with the same effect does not change what a function that does not
fault returns. -/
theorem run_sim {calls : Calls} (hc : CallsOk calls) {f : Function} {bs : List Block}
    (hb : ∀ id : ℕ, OptRel (fun b b' => b'.term = b.term ∧ List.Forall₂ (InstrSim calls) b.instrs b'.instrs)
      f.blocks[id]? bs[id]?)
    (n : ℕ) {args : List Val} (ha : ∀ x ∈ args, x.Ok) (hf : run calls f n args ≠ .fault) :
    run calls { f with blocks := bs } n args = run calls f n args := by
  unfold run at hf ⊢
  show (match bind (fun _ => none) f.params args with | none => _ | some env => _) = _
  cases hbd : bind (fun _ => none) f.params args with
  | none => rfl
  | some env =>
    rw [hbd] at hf
    simp only at hf ⊢
    refine (exec_fwd (R := fun x y => x = y ∧ EnvOk x) ?_ n none 0
      ⟨rfl, bind_ok (by intro v x hx; cases hx) ha hbd⟩ hf).symm
    intro id
    have hid := hb id
    show OptFwd _ f.blocks[id]? bs[id]?
    cases h1 : f.blocks[id]? with
    | none => trivial
    | some b =>
      rw [h1] at hid
      cases h2 : bs[id]? with
      | none => rw [h2] at hid; exact hid.elim
      | some b' =>
        rw [h2] at hid
        obtain ⟨ht, hi⟩ := hid
        rintro p e _ ⟨rfl, he⟩
        show OptFwd _ (evalBlock calls (returnTys f) b p e) (evalBlock calls (returnTys f) b' p e)
        unfold evalBlock
        simp only [Option.bind_eq_bind]
        refine OptFwd.bind (evalPhis_sim hi he he).fwd ?_
        rintro ⟨e1, is⟩ ⟨e2, js⟩ ⟨h3, h4, h5⟩
        simp only at h3 h4 h5
        subst h3
        refine OptFwd.bind (evalInstrs_sim hc h5 h4) ?_
        rintro e3 _ ⟨rfl, h6⟩
        rw [ht]
        cases evalTerm (returnTys f) e3 b.term with
        | none => trivial
        | some x => exact ⟨rfl, rfl, h6⟩

theorem mapExcept_forall₂ {α β : Type} {g : α → Except Panic β} {R : α → β → Prop} {l : List α} {m : List β}
    (h : mapExcept g l = .ok m) (hR : ∀ a ∈ l, ∀ b, g a = .ok b → R a b) : List.Forall₂ R l m := by
  induction l generalizing m with
  | nil => simp only [mapExcept, Except.ok.injEq] at h; subst h; exact .nil
  | cons a l ih =>
    simp only [mapExcept] at h
    cases hg : g a with
    | error e => simp [hg] at h
    | ok b =>
      simp only [hg] at h
      cases hm : mapExcept g l with
      | error e => simp [hm] at h
      | ok bs =>
        simp only [hm, Except.ok.injEq] at h
        subst h
        exact .cons (hR a (by simp) b hg) (ih hm (fun x hx => hR x (by simp [hx])))

theorem mapInstrs_run {calls : Calls} (hc : CallsOk calls) {f : Function} {bs : List Block}
    {g : Instr → Except Panic Instr} (h : mapInstrs g f.blocks = .ok bs)
    (hg : ∀ b ∈ f.blocks, ∀ i ∈ b.instrs, ∀ j, g i = .ok j → InstrSim calls i j)
    (n : ℕ) {args : List Val} (ha : ∀ x ∈ args, x.Ok) (hf : run calls f n args ≠ .fault) :
    run calls { f with blocks := bs } n args = run calls f n args := by
  refine run_sim hc ?_ n ha hf
  intro id
  have hid := mapExcept_get h id
  cases h1 : f.blocks[id]? with
  | none => rw [h1] at hid; cases h2 : bs[id]? with
    | none => trivial
    | some b' => rw [h2] at hid; exact hid.elim
  | some b =>
    rw [h1] at hid
    cases h2 : bs[id]? with
    | none => rw [h2] at hid; exact hid.elim
    | some b' =>
      rw [h2] at hid
      have hid : (match mapExcept g b.instrs with
        | .error e => .error e
        | .ok is => Except.ok { b with instrs := is }) = Except.ok b' := hid
      cases h3 : mapExcept g b.instrs with
      | error e => rw [h3] at hid; cases hid
      | ok is =>
        rw [h3] at hid
        simp only [Except.ok.injEq] at hid
        subst hid
        exact ⟨rfl, mapExcept_forall₂ h3 (hg b (List.mem_of_getElem? h1))⟩

theorem InstrSim.refl {calls : Calls} {i : Instr} : InstrSim calls i i := ⟨fun _ _ _ h => h, fun _ _ _ => Iff.rfl⟩

theorem operand_readAt {env : Env} {op : BinaryOp} {v : Value} {x : Val} {t : Ty} (h : operand env op v = some x)
    (ht : x.HasTy t) : readAt env t v = some x := by
  cases v with
  | Operand v => exact h
  | Error => exact h
  | Literal l =>
    have h1 := denote_hasTy h
    have : literalTy op l = t := by
      cases x <;> simp only [Val.HasTy] at h1 ht
      · rw [h1, ht]
      · rw [h1.1, ht.1]
      · rw [h1, ht]
      · rw [h1, ht]
    simp only [operand, this] at h
    exact h

theorem scalarTy_resultType (op : BinaryOp) : scalarTy (resultType op) = some (resultTy op) := by
  cases op <;> rfl

/-- **C44 (partial), for functions.** Constant folding: a function that does not fault returns the same values on
all arguments. What is missing: `==` and `!=` on felt literals not below `P`, unary minus on u32 literals is
outside the fragment (the literal is read as a felt). -/
theorem C44_function_partial (calls : Calls) (hcalls : CallsOk calls) (f g : Function) (h : constFold f = .ok g)
    (hc : ∀ b ∈ f.blocks, ∀ i ∈ b.instrs, ∀ op d a a', i = .BinaryOp op d (.Literal a) (.Literal a') →
      (op = .Eq ∨ op = .Neq) → Canon a ∧ Canon a')
    (n : ℕ) (args : List Val) (ha : ∀ x ∈ args, x.Ok) (hf : run calls f n args ≠ .fault) :
    run calls g n args = run calls f n args := by
  unfold constFold at h
  split at h
  · cases h
  · rename_i bs hbs
    injection h with h
    subst h
    refine mapInstrs_run hcalls hbs ?_ n ha hf
    intro b hb i hi j hj
    unfold foldInstr at hj
    split at hj
    · rename_i op d a a'
      split at hj
      · cases hj
      · rename_i r hr
        injection hj with hj
        subst hj
        refine ⟨?_, by simp⟩
        intro env env' he hev
        simp only [evalInstr, Option.bind_eq_bind, Option.bind_eq_some_iff, Option.some.injEq] at hev
        obtain ⟨x, hx, y, hy, z, hz, rfl⟩ := hev
        obtain ⟨t, ht, hx', hy'⟩ := literalTy_operand hx hy hz
        obtain ⟨v, h1, h2⟩ := evalBinary_sound hr ht hx' hy' (hc b hb _ hi op d a a' rfl)
        rw [hz, Option.some.injEq] at h2
        subst h2
        simp [evalInstr, scalarTy_resultType, readAt, h1]
      · injection hj with hj; subst hj; exact InstrSim.refl
    · rename_i op d a
      split at hj
      · rename_i r hr
        injection hj with hj
        subst hj
        refine ⟨?_, by simp⟩
        intro env env' he hev
        simp only [evalInstr, Option.bind_eq_bind, Option.bind_eq_some_iff, Option.some.injEq, readPlain] at hev
        obtain ⟨x, hx, y, hy, rfl⟩ := hev
        cases op <;> cases a <;> simp only [evalUnary, Option.some.injEq, reduceCtorEq] at hr <;>
          simp only [plainTy, denote, Option.some.injEq] at hx <;> subst hr hx <;>
          simp only [unary, Option.some.injEq] at hy <;> subst hy
        · simp only [evalInstr, scalarTy, readAt, Option.bind_eq_bind, Option.bind_some, residue_eq, denote_ofM31]
        · rfl
      · injection hj with hj; subst hj; exact InstrSim.refl
    · injection hj with hj; subst hj; exact InstrSim.refl

/-- The conditions of `C45_simplify_partial` for an instruction: the left operand is not the literal 0 of a
subtraction or the literal 1 of a division, and felt literals that are compared are below `P`. -/
def Simplifiable (op : BinaryOp) (l r : Value) : Prop :=
  (∀ n : BitVec 32, l = .Literal (.Integer n) →
    ((op = .Sub ∨ op = .U32Sub) → n ≠ 0) ∧ ((op = .Div ∨ op = .U32Div) → n ≠ 1)) ∧
  ∀ a : Literal, (op = .Eq ∨ op = .Neq) → (l = .Literal a ∨ r = .Literal a) → Canon a

/-- **C45 (partial), for functions.** Arithmetic simplification: a function that does not fault returns the same
values on all arguments. What is missing: `0 - x` and `1 / x` (`C45_violated`), and felt literals not below `P`. -/
theorem C45_function_partial (calls : Calls) (hcalls : CallsOk calls) (f g : Function) (h : arithSimplify f = .ok g)
    (hc : ∀ b ∈ f.blocks, ∀ i ∈ b.instrs, ∀ op d l r, i = .BinaryOp op d l r → Simplifiable op l r)
    (n : ℕ) (args : List Val) (ha : ∀ x ∈ args, x.Ok) (hf : run calls f n args ≠ .fault) :
    run calls g n args = run calls f n args := by
  unfold arithSimplify at h
  split at h
  · cases h
  · rename_i bs hbs
    injection h with h
    subst h
    refine mapInstrs_run hcalls hbs ?_ n ha hf
    intro b hb i hi j hj
    unfold arithInstr at hj
    split at hj
    · rename_i op d l r
      split at hj
      · cases hj
      · rename_i v hv
        injection hj with hj
        subst hj
        refine ⟨?_, by simp⟩
        intro env env' he hev
        simp only [evalInstr, Option.bind_eq_bind, Option.bind_eq_some_iff, Option.some.injEq] at hev
        obtain ⟨x, hx, y, hy, z, hz, rfl⟩ := hev
        obtain ⟨t, ht, hxt, hyt⟩ := binary_typed hz (operand_ok he hx) (operand_ok he hy)
        obtain ⟨c1, c2⟩ := hc b hb _ hi op d l r rfl
        have e : ∀ (env : Env) (t : Ty) (v : Value), readAt env t v = valueAt env t v := by
          intro env t v; cases v <;> rfl
        have := C45_simplify_partial (env := env) hv ht ((e _ _ _).symm.trans (operand_readAt hx hxt))
          ((e _ _ _).symm.trans (operand_readAt hy hyt)) hxt hyt hz c1 c2
        simp [evalInstr, scalarTy_resultType, e, this]
      · injection hj with hj; subst hj; exact InstrSim.refl
    · injection hj with hj; subst hj; exact InstrSim.refl

/-- `fn m(x: felt) -> felt { return (x + 0) * (2 + 3); }` -/
def foldExample : Function :=
  ⟨['m'], [⟨[.BinaryOp .Add 1 (.Operand 0) (.Literal (.Integer 0)),
      .BinaryOp .Add 2 (.Literal (.Integer 2)) (.Literal (.Integer 3)),
      .BinaryOp .Mul 3 (.Operand 1) (.Operand 2)], .Return [.Operand 3]⟩], [0], [4], 5, fun _ => some .Felt⟩

example : (∃ g, constFold foldExample = .ok g ∧
      run (fun _ _ => none) g 1 [.felt 7] = run (fun _ _ => none) foldExample 1 [.felt 7]) ∧
    (∃ g, arithSimplify foldExample = .ok g ∧
      run (fun _ _ => none) g 1 [.felt 7] = run (fun _ _ => none) foldExample 1 [.felt 7]) ∧
    run (fun _ _ => none) foldExample 1 [.felt 7] = .returned [.felt 35] ∧
    (∀ b ∈ foldExample.blocks, ∀ i ∈ b.instrs, ∀ op d l r, i = .BinaryOp op d l r → Simplifiable op l r) := by
  refine ⟨⟨_, rfl, by decide +kernel⟩, ⟨_, rfl, by decide +kernel⟩, by decide +kernel, ?_⟩
  intro b hb i hi op d l r h
  simp only [foldExample, List.mem_singleton] at hb
  subst hb
  simp only [List.mem_cons, List.not_mem_nil, or_false] at hi
  rcases hi with rfl | rfl | rfl <;> simp only [Instr.BinaryOp.injEq] at h <;> obtain ⟨rfl, rfl, rfl, rfl⟩ := h <;>
    constructor <;> simp

end Lang
end CairoM
