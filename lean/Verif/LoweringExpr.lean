import Verif.LoweringSim

/-!
# The lowering: expressions

Helper lemmas. Lowering an expression keeps the invariant, and running what was emitted computes the value of the
expression.
-/

namespace CairoM
namespace Lower

open Mir Lang Source

variable {stk : List (Var × BlockId × ValueId)} {st : St} {calls : Calls}

/-- What emitting instructions into the current block leaves alone. -/
structure Emitted (s t : St) : Prop where
  ext : Ext s t
  keep : Keep s t
  count : t.count = s.count
  sealed : t.sealed = s.sealed
  start : t.g.start = s.g.start
  loops : t.loops = s.loops
  preds : ∀ b, (t.blocks b).preds = (s.blocks b).preds
  term : ∀ b, (t.blocks b).term = .Unreachable ↔ (s.blocks b).term = .Unreachable

theorem Emitted.refl (hg : Good stk st) : Emitted st st :=
  ⟨Ext.refl hg, Keep.refl hg, rfl, rfl, rfl, rfl, fun _ => rfl, fun _ => Iff.rfl⟩

theorem Emitted.trans {s t u : St} (h1 : Emitted s t) (h2 : Emitted t u) : Emitted s u where
  ext := h1.ext.trans h2.ext
  keep := h1.keep.trans h2.ext h2.keep
  count := h2.count.trans h1.count
  sealed := h2.sealed.trans h1.sealed
  start := h2.start.trans h1.start
  loops := h2.loops.trans h1.loops
  preds b := (h2.preds b).trans (h1.preds b)
  term b := (h2.term b).trans (h1.term b)

theorem Emitted.open {s t : St} (h : Emitted s t) (ho : s.terminated = false) : t.terminated = false := by
  simp only [St.terminated, decide_eq_false_iff_not, not_not] at *
  rw [h.keep.current]
  exact (h.term _).2 ho

theorem Read.toEmitted {s t : St} (h : Read s t) : Emitted s t where
  ext := h.toExt
  keep := h.toKeep
  count := h.count
  sealed := h.sealed
  start := h.start
  loops := h.loops
  preds := h.preds
  term b := by
    have := h.term b
    constructor
    · intro hu; rw [hu] at this; exact rename_unreachable.1 this.symm
    · intro hu; rw [hu] at this; exact rename_unreachable.1 this

/-- A value that exists in the state. -/
def ValOk (st : St) : Value → Prop
  | .Operand id => id < st.next ∧ st.g.stamp (st.g.sub id) < st.g.clock
  | .Literal _ => True
  | .Error => False

theorem ValOk.mono {s t : St} (h : Ext s t) {v : Value} (hv : ValOk s v) : ValOk t v := by
  cases v with
  | Operand id =>
    exact ⟨lt_of_lt_of_le hv.1 h.next, lt_of_le_of_lt (h.down id hv.1) (lt_of_lt_of_le hv.2 h.clock)⟩
  | Literal l => trivial
  | Error => exact hv

theorem emit_emitted (hg : Good stk st) (hopen : st.terminated = false) (i : Instr) : Emitted st (st.emit i) where
  ext := (emit_ext hg hopen i).1
  keep := (emit_ext hg hopen i).2
  count := rfl
  sealed := rfl
  start := rfl
  loops := rfl
  preds b := emit_preds b i
  term b := by rw [emit_term]

theorem newId_emitted (hg : Good stk st) {ty : MirType} (hty : (scalarTy ty).isSome = true) :
    Emitted st (st.newId ty).2 where
  ext := (newId_good hg hty).2.1
  keep := (newId_good hg hty).2.2
  count := rfl
  sealed := rfl
  start := rfl
  loops := rfl
  preds _ := rfl
  term _ := Iff.rfl

/-- What is known of a newly defined value. -/
structure Defined (s t : St) (d : ValueId) : Prop where
  lt : d < t.next
  plain : t.g.phi d = none
  stamp : t.g.stamp d = s.g.clock
  clock : s.g.clock < t.g.clock

theorem newId_defined (hg : Good stk st) (ty : MirType) : Defined st (st.newId ty).2 st.next where
  lt := Nat.lt_succ_self _
  plain := hg.phiFresh _ le_rfl
  stamp := by simp [St.newId, Ghost.create]
  clock := Nat.lt_succ_self _

theorem define_good (hg : Good stk st) (hopen : st.terminated = false) {ty : MirType}
    (hty : (scalarTy ty).isSome = true) {mk : ValueId → Instr} (hi : ∀ d, isPhi (mk d) = false)
    (hd : ∀ d, (mk d).destinations = [d]) :
    (st.define ty mk).1 = st.next ∧ Good stk (st.define ty mk).2 ∧ Emitted st (st.define ty mk).2 ∧
      Defined st (st.define ty mk).2 st.next := by
  have h1 := (newId_good hg hty).1
  have h2 := newId_emitted hg hty
  have h3 := newId_defined hg ty
  refine ⟨rfl, ?_, h2.trans (emit_emitted h1 (h2.open hopen) _), ?_⟩
  · refine emit_good h1 (hi _) ?_
    intro d hm
    have : d = st.next := by
      have hm' : d ∈ (mk st.next).destinations := hm
      rw [hd] at hm'; simpa using hm'
    subst this
    exact ⟨h3.lt, h3.plain⟩
  · exact ⟨h3.lt, h3.plain, h3.stamp, h3.clock⟩

theorem Defined.valOk {s t : St} {d : ValueId} (hg : Good stk t) (h : Defined s t d) : ValOk t (.Operand d) :=
  ⟨h.lt, by rw [hg.subPlain d h.plain, h.stamp]; exact h.clock⟩

theorem Defined.fix {s t f : St} {d : ValueId} (h : Defined s t d) (hf : Good [] f) (htf : Ext t f) :
    f.g.sub d = d ∧ f.g.stamp d = s.g.clock :=
  ⟨hf.subPlain d (by rw [htf.phi d h.lt, h.plain]), by rw [htf.stamp d h.lt, h.stamp]⟩

theorem Defined.agree {s t f : St} {d : ValueId} (h : Defined s t d) (hf : Good [] f) (htf : Ext t f) (env : Env)
    (y : Option Val) : Agree f s env (Function.update env d y) := by
  intro x hx
  refine Function.update_of_ne ?_ _ _
  rintro rfl
  rw [(h.fix hf htf).2] at hx
  exact absurd hx (lt_irrefl _)

theorem scalar_some (t : Ty) : (scalarTy (mirTy t)).isSome = true := by rw [scalar_mirTy]; rfl

/-! ### The invariant -/

mutual
theorem lowerExpr_good (o : Opts) (S : Sem) : ∀ (e : Expr) (st : St) (v : Value) (st' : St), Good [] st →
    st.terminated = false → lowerExpr o S e st = some (v, st') → Good [] st' ∧ Emitted st st' ∧ ValOk st' v
  | .int n t, st, v, st', hg, _, h => by
    simp only [lowerExpr, Option.some.injEq, Prod.mk.injEq] at h
    obtain ⟨rfl, rfl⟩ := h
    exact ⟨hg, Emitted.refl hg, trivial⟩
  | .bool b, st, v, st', hg, _, h => by
    simp only [lowerExpr, Option.some.injEq, Prod.mk.injEq] at h
    obtain ⟨rfl, rfl⟩ := h
    exact ⟨hg, Emitted.refl hg, trivial⟩
  | .var x, st, v, st', hg, _, h => by
    simp only [lowerExpr, Option.bind_eq_bind, Option.bind_eq_some_iff, Option.some.injEq, Prod.mk.injEq] at h
    obtain ⟨⟨id, st1⟩, h1, rfl, rfl⟩ := h
    obtain ⟨hg1, hr, hn, hlt⟩ := readVar_ok o.fuel x [] _ _ _ _ hg hg.running.2 h1
    refine ⟨hg1, hr.toEmitted, hlt, ?_⟩
    have : ∃ y, st1.cur x st.current = some y ∧ st1.g.sub y = st1.g.sub id := by
      unfold St.norm at hn
      cases hc : st1.cur x st.current with
      | none => simp [hc] at hn
      | some y => exact ⟨y, rfl, by simpa [hc] using hn⟩
    obtain ⟨y, hy, hs⟩ := this
    rw [← hs]
    refine hg1.curNow x y ?_
    rw [hr.current]; exact hy
  | .un op e, st, v, st', hg, ho, h => by
    simp only [lowerExpr, Option.bind_eq_bind, Option.bind_eq_some_iff] at h
    obtain ⟨t, _, ⟨x, st1⟩, h1, h2⟩ := h
    obtain ⟨hg1, he1, hv1⟩ := lowerExpr_good o S e st x st1 hg ho h1
    simp only [Option.some.injEq, Prod.mk.injEq] at h2
    obtain ⟨rfl, rfl⟩ := h2
    obtain ⟨hd, hg2, he2, hdef⟩ := define_good hg1 (he1.open ho) (scalar_some t) (mk := fun d => .UnaryOp op d x)
      (fun _ => rfl) (fun _ => rfl)
    rw [hd]
    exact ⟨hg2, he1.trans he2, hdef.valOk hg2⟩
  | .bin op l r, st, v, st', hg, ho, h => by
    simp only [lowerExpr, Option.bind_eq_bind, Option.bind_eq_some_iff] at h
    obtain ⟨t, _, tl, _, ⟨x, st1⟩, h1, ⟨y, st2⟩, h2, op', _, h3⟩ := h
    obtain ⟨hg1, he1, _⟩ := lowerExpr_good o S l st x st1 hg ho h1
    obtain ⟨hg2, he2, _⟩ := lowerExpr_good o S r st1 y st2 hg1 (he1.open ho) h2
    simp only [Option.some.injEq, Prod.mk.injEq] at h3
    obtain ⟨rfl, rfl⟩ := h3
    obtain ⟨hd, hg3, he3, hdef⟩ := define_good hg2 ((he1.trans he2).open ho) (scalar_some t)
      (mk := fun d => .BinaryOp op' d x y) (fun _ => rfl) (fun _ => rfl)
    rw [hd]
    exact ⟨hg3, (he1.trans he2).trans he3, hdef.valOk hg3⟩
  | .call f args, st, v, st', hg, ho, h => by
    simp only [lowerExpr, Option.bind_eq_bind, Option.bind_eq_some_iff] at h
    obtain ⟨t, _, ⟨ps, rs⟩, _, ⟨xs, st1⟩, h1, h2⟩ := h
    obtain ⟨hg1, he1, _⟩ := lowerArgs_good o S args st xs st1 hg ho h1
    simp only [Option.some.injEq, Prod.mk.injEq] at h2
    obtain ⟨rfl, rfl⟩ := h2
    obtain ⟨hd, hg2, he2, hdef⟩ := define_good hg1 (he1.open ho) (scalar_some t)
      (mk := fun d => .Call [d] f xs ⟨ps.map mirTy, rs.map mirTy⟩) (fun _ => rfl) (fun _ => rfl)
    rw [hd]
    exact ⟨hg2, he1.trans he2, hdef.valOk hg2⟩
  | .cast e t, st, v, st', hg, ho, h => by
    simp only [lowerExpr, Option.bind_eq_bind, Option.bind_eq_some_iff] at h
    obtain ⟨s, _, ⟨x, st1⟩, h1, h2⟩ := h
    obtain ⟨hg1, he1, hv1⟩ := lowerExpr_good o S e st x st1 hg ho h1
    simp only [Option.some.injEq, Prod.mk.injEq] at h2
    obtain ⟨rfl, rfl⟩ := h2
    obtain ⟨hd, hg2, he2, hdef⟩ := define_good hg1 (he1.open ho) (scalar_some t)
      (mk := fun d => .Cast d x (mirTy s) (mirTy t)) (fun _ => rfl) (fun _ => rfl)
    rw [hd]
    exact ⟨hg2, he1.trans he2, hdef.valOk hg2⟩
theorem lowerArgs_good (o : Opts) (S : Sem) : ∀ (es : List Expr) (st : St) (vs : List Value) (st' : St), Good [] st →
    st.terminated = false → lowerArgs o S es st = some (vs, st') →
      Good [] st' ∧ Emitted st st' ∧ ∀ v ∈ vs, ValOk st' v
  | [], st, vs, st', hg, _, h => by
    simp only [lowerArgs, Option.some.injEq, Prod.mk.injEq] at h
    obtain ⟨rfl, rfl⟩ := h
    exact ⟨hg, Emitted.refl hg, by simp⟩
  | e :: es, st, vs, st', hg, ho, h => by
    simp only [lowerArgs, Option.bind_eq_bind, Option.bind_eq_some_iff, Option.some.injEq, Prod.mk.injEq] at h
    obtain ⟨⟨x, st1⟩, h1, ⟨xs, st2⟩, h2, rfl, rfl⟩ := h
    obtain ⟨hg1, he1, hv1⟩ := lowerExpr_good o S e st x st1 hg ho h1
    obtain ⟨hg2, he2, hv2⟩ := lowerArgs_good o S es st1 xs st2 hg1 (he1.open ho) h2
    refine ⟨hg2, he1.trans he2, ?_⟩
    intro v hv
    rcases List.mem_cons.1 hv with rfl | hv
    · exact hv1.mono he2.ext
    · exact hv2 v hv
end

/-! ### What is computed -/

/-- The values of the variables have their types. -/
def Typed (S : Sem) (s : Store) : Prop := ∀ v x, s v = some x → valTy x = S.varTy v

/-- Callees return values of the declared types. -/
def CallsTyped (S : Sem) (calls : Calls) : Prop :=
  ∀ f ps rs xs ys, S.sig f = some (ps, rs) → xs.map valTy = ps → calls f xs = some ys → ys.map valTy = rs

/-- The lowered value stands for `x` of type `t`. -/
def Rep (f : St) (env : Env) (t : Ty) (v : Value) (x : Val) : Prop :=
  match v with
  | .Operand id => env (f.g.sub id) = some x
  | .Literal (.Integer n) => (t = .felt ∨ t = .u32) ∧ denote t (.Integer n) = some x
  | .Literal (.Boolean b) => t = .bool ∧ x = .bool b
  | _ => False

section
variable {f : St} {env : Env} {t : Ty} {v : Value} {x : Val}

theorem Rep.agree {s : St} (h : Rep f env t v x) (hv : ValOk s v) (hsf : Ext s f) {env' : Env}
    (ha : Agree f s env env') : Rep f env' t v x := by
  cases v with
  | Operand id =>
    show env' (f.g.sub id) = some x
    rw [ha _ (lt_of_le_of_lt (hsf.down id hv.1) hv.2)]
    exact h
  | Literal l => cases l <;> exact h
  | Error => exact h

theorem Rep.readAt (h : Rep f env t v x) : readAt env t (Value.rename f.g.sub v) = some x := by
  cases v with
  | Operand id => exact h
  | Literal l =>
    cases l with
    | Integer n => exact h.2
    | Boolean b => obtain ⟨rfl, rfl⟩ := h; rfl
    | Unit => exact h.elim
  | Error => exact h.elim

theorem Rep.readPlain (h : Rep f env t v x) (ht : t = .felt ∨ t = .bool) :
    readPlain env (Value.rename f.g.sub v) = some x := by
  cases v with
  | Operand id => exact h
  | Literal l =>
    cases l with
    | Integer n =>
      rcases ht with rfl | rfl
      · exact h.2
      · rcases h.1 with h | h <;> cases h
    | Boolean b => obtain ⟨rfl, rfl⟩ := h; rfl
    | Unit => exact h.elim
  | Error => exact h.elim

theorem Rep.operand {op : BinOp} {op' : BinaryOp} (h : Rep f env t v x) (hop : fromParser op t = some op') :
    operand env op' (Value.rename f.g.sub v) = some x := by
  cases v with
  | Operand id => exact h
  | Literal l =>
    cases l with
    | Integer n =>
      obtain ⟨ht, hd⟩ := h
      have : literalTy op' (.Integer n) = t := by
        rcases ht with rfl | rfl <;> cases op <;> simp [fromParser] at hop <;> subst hop <;> rfl
      simp only [Value.rename, Lang.operand, this]
      exact hd
    | Boolean b =>
      obtain ⟨rfl, rfl⟩ := h
      have : literalTy op' (.Boolean b) = .bool := by
        cases op <;> simp [fromParser] at hop <;> subst hop <;> rfl
      simp only [Value.rename, Lang.operand, this]
      rfl
    | Unit => exact h.elim
  | Error => exact h.elim

end

theorem binary_binop {op : BinOp} {op' : BinaryOp} {t : Ty} (hop : fromParser op t = some op') {x y : Val}
    (hx : valTy x = t) (hy : valTy y = t) : binary op' x y = binop op x y := by
  subst hx
  cases x <;> cases y <;> simp [valTy] at hy <;> cases op <;> simp [fromParser, valTy] at hop <;> subst hop <;> rfl

theorem binop_ty {op : BinOp} {t r : Ty} (h : binTy op t = some r) {x y z : Val} (hx : valTy x = t)
    (hy : valTy y = t) (hz : binop op x y = some z) : valTy z = r := by
  subst hx
  cases x <;> cases y <;> simp [valTy] at hy <;> cases op <;> simp [binTy, valTy] at h <;> subst h <;>
    simp only [binop] at hz <;> (try split at hz) <;> cases hz <;> rfl

theorem fromParser_binTy {op : BinOp} {t r : Ty} (h : binTy op t = some r) : (fromParser op t).isSome = true := by
  cases op <;> cases t <;> simp [binTy] at h <;> rfl

/-- What running a lowered expression does. -/
def ExprSim (calls : Calls) (F : Function) (f st st' : St) (env : Env) (t : Ty) (v : Value) : Option Val → Prop
  | some x => valTy x = t ∧ ∃ env', (∀ n, go calls F f st env n = go calls F f st' env' n) ∧ Agree f st env env' ∧
      Rep f env' t v x
  | none => ∀ n, go calls F f st env n = .fault

/-- What running lowered arguments does. -/
def ArgsSim (calls : Calls) (F : Function) (f st st' : St) (env : Env) (ts : List Ty) (vs : List Value) :
    Option (List Val) → Prop
  | some xs => xs.map valTy = ts ∧ ∃ env', (∀ n, go calls F f st env n = go calls F f st' env' n) ∧
      Agree f st env env' ∧ readAll env' (ts.map fun t => some (mirTy t)) (vs.map (Value.rename f.g.sub)) = some xs
  | none => ∀ n, go calls F f st env n = .fault

section
variable {F : Function} {f : St} {rets : List Ty}

theorem go_define (hF : Fin F f rets) (hg : Good [] st) {ty : MirType}
    (hty : (scalarTy ty).isSome = true) {mk : ValueId → Instr}
    (ht : Ext (st.define ty mk).2 f) (env : Env) (n : ℕ) :
    go calls F f st env n =
      match evalInstr calls (Instr.rename f.g.sub (mk st.next)) env with
      | none => .fault
      | some env' => go calls F f (st.define ty mk).2 env' n := by
  rw [← go_same (s := st) (t := (st.newId ty).2) rfl rfl env n]
  exact go_emit hF (newId_good hg hty).1 ht env n

theorem readAll_agree {s : St} (hsf : Ext s f) {env env' : Env} (ha : Agree f s env env') :
    ∀ (ts : List Ty) (vs : List Value), (∀ v ∈ vs, ValOk s v) →
      readAll env' (ts.map fun t => some (mirTy t)) (vs.map (Value.rename f.g.sub)) =
        readAll env (ts.map fun t => some (mirTy t)) (vs.map (Value.rename f.g.sub))
  | [], [], _ => rfl
  | [], _ :: _, _ => rfl
  | _ :: _, [], _ => rfl
  | t :: ts, v :: vs, h => by
    have ih := readAll_agree hsf ha ts vs (fun w hw => h w (List.mem_cons_of_mem _ hw))
    have hv := h v (by simp)
    simp only [List.map_cons, readAll, ih]
    have : Lang.readAt env' t (Value.rename f.g.sub v) = Lang.readAt env t (Value.rename f.g.sub v) := by
      cases v with
      | Operand id => exact ha _ (lt_of_le_of_lt (hsf.down id hv.1) hv.2)
      | Literal l => rfl
      | Error => rfl
    simp only [scalar_mirTy, Option.bind_some, Option.bind_eq_bind, this]

mutual
theorem lowerExpr_sim (o : Opts) (S : Sem) (hc : CallsTyped S calls) (hF : Fin F f rets) :
    ∀ (e : Expr) (st : St) (v : Value) (st' : St), Good [] st → st.terminated = false →
      lowerExpr o S e st = some (v, st') → Ext st' f → ∀ t, e.ty S = some t → e.small = true → ∀ s env, Typed S s →
        Match f st s env → ExprSim calls F f st st' env t v (eval false calls s e)
  | .int n ty, st, v, st', hg, _, h, _, t, ht, hsm, s, env, _, _ => by
    simp only [lowerExpr, Option.some.injEq, Prod.mk.injEq] at h
    obtain ⟨rfl, rfl⟩ := h
    have hn : n < 2 ^ 32 := by simpa [Expr.small] using hsm
    have hmod : (BitVec.ofNat 32 n).toNat = n := by
      rw [BitVec.toNat_ofNat]; exact Nat.mod_eq_of_lt hn
    cases ty <;> simp only [Expr.ty, Option.some.injEq, reduceCtorEq] at ht <;> subst ht
    · simp only [eval, integer, ExprSim]
      exact ⟨rfl, env, fun _ => rfl, Agree.refl, .inl rfl, by simp only [denote, hmod]⟩
    · simp only [eval, integer, if_pos hn, ExprSim]
      exact ⟨rfl, env, fun _ => rfl, Agree.refl, .inr rfl, by simp only [denote, hmod]⟩
  | .bool b, st, v, st', hg, _, h, _, t, ht, _, s, env, _, _ => by
    simp only [lowerExpr, Option.some.injEq, Prod.mk.injEq] at h
    obtain ⟨rfl, rfl⟩ := h
    simp only [Expr.ty, Option.some.injEq] at ht
    subst ht
    exact ⟨rfl, env, fun _ => rfl, Agree.refl, rfl, rfl⟩
  | .var x, st, v, st', hg, _, h, hsf, t, ht, _, s, env, hty, hm => by
    simp only [lowerExpr, Option.bind_eq_bind, Option.bind_eq_some_iff, Option.some.injEq, Prod.mk.injEq] at h
    obtain ⟨⟨id, st1⟩, h1, rfl, rfl⟩ := h
    obtain ⟨hg1, hr, hn, hlt⟩ := readVar_ok o.fuel x [] _ _ _ _ hg hg.running.2 h1
    simp only [Expr.ty, Option.some.injEq] at ht
    subst ht
    have hm1 : Match f st1 s env := match_keep hg hF.good hr.toExt hsf hr.toKeep hm Agree.refl
    have hd : defAt f st1 x = some (f.g.sub id) := by
      unfold defAt
      have h2 : (st1.cur x st1.current).map f.g.sub = (st1.norm x st1.current).map f.g.sub := by
        unfold St.norm; cases st1.cur x st1.current <;> simp [hsf.sub]
      rw [h2, hr.current, hn]
      simp [hsf.sub]
    obtain ⟨y, hy, he⟩ := hm1 x _ hd
    simp only [eval, hy, ExprSim]
    refine ⟨hty x y hy, env, fun n => ?_, Agree.refl, he⟩
    refine (go_same hr.current ?_ env n).symm
    have := congrArg List.length (hr.instrs st.current)
    simpa using this
  | .un op e, st, v, st', hg, ho, h, hsf, t, ht, hsm, s, env, hty, hm => by
    simp only [lowerExpr, Option.bind_eq_bind, Option.bind_eq_some_iff] at h
    obtain ⟨t', ht', ⟨x, st1⟩, h1, h2⟩ := h
    obtain ⟨hg1, he1, hv1⟩ := lowerExpr_good o S e st x st1 hg ho h1
    simp only [Option.some.injEq, Prod.mk.injEq] at h2
    obtain ⟨rfl, rfl⟩ := h2
    rw [ht] at ht'; cases ht'
    obtain ⟨hd, hg2, he2, hdef⟩ := define_good hg1 (he1.open ho) (scalar_some t) (mk := fun d => .UnaryOp op d x)
      (fun _ => rfl) (fun _ => rfl)
    have hte : e.ty S = some t ∧ (t = .felt ∨ t = .bool) ∧
        ∀ z, valTy z = t → ∃ y, unary op z = some y ∧ valTy y = t := by
      cases op <;> simp only [Expr.ty] at ht <;> split at ht <;> simp only [Option.some.injEq, reduceCtorEq] at ht <;>
        subst ht
      · exact ⟨by assumption, .inl rfl, by intro z hz; cases z <;> simp [valTy] at hz; exact ⟨_, rfl, rfl⟩⟩
      · exact ⟨by assumption, .inr rfl, by intro z hz; cases z <;> simp [valTy] at hz; exact ⟨_, rfl, rfl⟩⟩
    have ih := lowerExpr_sim o S hc hF e st x st1 hg ho h1 (he2.ext.trans hsf) t hte.1
      (by simpa [Expr.small] using hsm) s env hty hm
    simp only [eval]
    cases hev : eval false calls s e with
    | none => rw [hev] at ih; exact ih
    | some z =>
      rw [hev] at ih
      obtain ⟨hz, env1, hgo, hag, hrep⟩ := ih
      obtain ⟨y, hy, hyt⟩ := hte.2.2 z hz
      have hstep : evalInstr calls (Instr.rename f.g.sub (.UnaryOp op st1.next x)) env1 =
          some (Function.update env1 st1.next (some y)) := by
        simp only [Instr.rename, evalInstr, hrep.readPlain hte.2.1, Option.bind_eq_bind, Option.bind_some, hy]
      simp only [Option.bind_some, hy, ExprSim]
      refine ⟨hyt, Function.update env1 st1.next (some y), ?_, ?_, ?_⟩
      · intro n
        rw [hgo n, go_define hF hg1 (scalar_some t) hsf]
        simp only [hstep]
      · exact hag.trans he1.ext (hdef.agree hF.good hsf _ _)
      · show Function.update env1 st1.next (some y) (f.g.sub (st1.define _ _).1) = some y
        rw [hd, (hdef.fix hF.good hsf).1]; simp
  | .bin op l r, st, v, st', hg, ho, h, hsf, t, ht, hsm, s, env, hty, hm => by
    simp only [lowerExpr, Option.bind_eq_bind, Option.bind_eq_some_iff] at h
    obtain ⟨t', ht', tl, htl, ⟨x, st1⟩, h1, ⟨y, st2⟩, h2, op', hop, h3⟩ := h
    obtain ⟨hg1, he1, hv1⟩ := lowerExpr_good o S l st x st1 hg ho h1
    obtain ⟨hg2, he2, hv2⟩ := lowerExpr_good o S r st1 y st2 hg1 (he1.open ho) h2
    simp only [Option.some.injEq, Prod.mk.injEq] at h3
    obtain ⟨rfl, rfl⟩ := h3
    rw [ht] at ht'; cases ht'
    obtain ⟨hd, hg3, he3, hdef⟩ := define_good hg2 ((he1.trans he2).open ho) (scalar_some t)
      (mk := fun d => .BinaryOp op' d x y) (fun _ => rfl) (fun _ => rfl)
    have htr : r.ty S = some tl ∧ binTy op tl = some t := by
      simp only [Expr.ty, htl] at ht
      split at ht
      · rename_i a b ha hb
        cases ha
        split at ht
        · rename_i hab; subst hab; exact ⟨hb, ht⟩
        · cases ht
      · cases ht
    have hsm' : l.small = true ∧ r.small = true := by simpa [Expr.small] using hsm
    have hs1f := (he2.trans he3).ext.trans hsf
    have hs2f := he3.ext.trans hsf
    have ihl := lowerExpr_sim o S hc hF l st x st1 hg ho h1 hs1f tl htl hsm'.1 s env hty hm
    simp only [eval]
    cases hel : eval false calls s l with
    | none => rw [hel] at ihl; exact ihl
    | some a =>
      rw [hel] at ihl
      obtain ⟨hat, env1, hgo1, hag1, hrep1⟩ := ihl
      have ihr := lowerExpr_sim o S hc hF r st1 y st2 hg1 (he1.open ho) h2 hs2f tl htr.1 hsm'.2 s env1 hty
        (match_keep hg hF.good he1.ext hs1f he1.keep hm hag1)
      simp only [Option.bind_some, Bool.false_and, Bool.false_eq_true, if_false]
      cases her : eval false calls s r with
      | none =>
        rw [her] at ihr
        exact fun n => by rw [hgo1 n]; exact ihr n
      | some b =>
        rw [her] at ihr
        obtain ⟨hbt, env2, hgo2, hag2, hrep2⟩ := ihr
        have hrep1' := hrep1.agree hv1 hs1f hag2
        have hstep : evalInstr calls (Instr.rename f.g.sub (.BinaryOp op' st2.next x y)) env2 =
            (binop op a b).bind fun z => some (Function.update env2 st2.next (some z)) := by
          simp only [Instr.rename, evalInstr, hrep1'.operand hop, hrep2.operand hop, Option.bind_eq_bind,
            Option.bind_some, binary_binop hop hat hbt]
        simp only [Option.bind_some]
        cases hz : binop op a b with
        | none =>
          intro n
          rw [hgo1 n, hgo2 n, go_define hF hg2 (scalar_some t) hsf]
          simp only [hstep, hz, Option.bind_none]
        | some z =>
          refine ⟨binop_ty htr.2 hat hbt hz, Function.update env2 st2.next (some z), ?_, ?_, ?_⟩
          · intro n
            rw [hgo1 n, hgo2 n, go_define hF hg2 (scalar_some t) hsf]
            simp only [hstep, hz, Option.bind_some]
          · exact hag1.trans he1.ext (hag2.trans he2.ext (hdef.agree hF.good hsf _ _))
          · show Function.update env2 st2.next (some z) (f.g.sub (st2.define _ _).1) = some z
            rw [hd, (hdef.fix hF.good hsf).1]; simp
  | .call g args, st, v, st', hg, ho, h, hsf, t, ht, hsm, s, env, hty, hm => by
    simp only [lowerExpr, Option.bind_eq_bind, Option.bind_eq_some_iff] at h
    obtain ⟨t', ht', ⟨ps, rs⟩, hsig, ⟨xs, st1⟩, h1, h2⟩ := h
    obtain ⟨hg1, he1, hv1⟩ := lowerArgs_good o S args st xs st1 hg ho h1
    simp only [Option.some.injEq, Prod.mk.injEq] at h2
    obtain ⟨rfl, rfl⟩ := h2
    rw [ht] at ht'; cases ht'
    obtain ⟨hd, hg2, he2, hdef⟩ := define_good hg1 (he1.open ho) (scalar_some t)
      (mk := fun d => .Call [d] g xs ⟨ps.map mirTy, rs.map mirTy⟩) (fun _ => rfl) (fun _ => rfl)
    have hts : Expr.tys S args = some ps ∧ rs = [t] := by
      simp only [Expr.ty, hsig] at ht
      split at ht
      · rename_i hps hts
        cases hps
        split at ht
        · rename_i heq; subst heq; cases ht; exact ⟨hts, rfl⟩
        · cases ht
      · cases ht
    obtain ⟨hts, rfl⟩ := hts
    have ih := lowerArgs_sim o S hc hF args st xs st1 hg ho h1 (he2.ext.trans hsf) ps hts
      (by simpa [Expr.small] using hsm) s env hty hm
    simp only [eval]
    cases hev : evalArgs false calls s args with
    | none => rw [hev] at ih; exact ih
    | some zs =>
      rw [hev] at ih
      obtain ⟨hz, env1, hgo, hag, hrep⟩ := ih
      have hstep : evalInstr calls (Instr.rename f.g.sub (.Call [st1.next] g xs ⟨ps.map mirTy, [t].map mirTy⟩)) env1 =
          (calls g zs).bind fun ys => Lang.bind env1 [st1.next] ys := by
        simp only [Instr.rename, evalInstr, List.map_map, Function.comp_def, hrep, Option.bind_eq_bind,
          Option.bind_some]
      simp only [Option.bind_some]
      cases hcl : calls g zs with
      | none =>
        intro n
        rw [hgo n, go_define hF hg1 (scalar_some t) hsf]
        simp only [hstep, hcl, Option.bind_none]
      | some ys =>
        have hys := hc g ps [t] zs ys hsig hz hcl
        obtain ⟨y, rfl⟩ : ∃ y, ys = [y] := by
          have : ys.length = 1 := by simpa using congrArg List.length hys
          exact List.length_eq_one_iff.1 this
        refine ⟨by simpa using hys, Function.update env1 st1.next (some y), ?_, ?_, ?_⟩
        · intro n
          rw [hgo n, go_define hF hg1 (scalar_some t) hsf]
          simp only [hstep, hcl, Option.bind_some, Lang.bind]
        · exact hag.trans he1.ext (hdef.agree hF.good hsf _ _)
        · show Function.update env1 st1.next (some y) (f.g.sub (st1.define _ _).1) = some y
          rw [hd, (hdef.fix hF.good hsf).1]; simp
  | .cast e tt, st, v, st', hg, ho, h, hsf, t, ht, hsm, s, env, hty, hm => by
    simp only [lowerExpr, Option.bind_eq_bind, Option.bind_eq_some_iff] at h
    obtain ⟨ts, hts, ⟨x, st1⟩, h1, h2⟩ := h
    obtain ⟨hg1, he1, hv1⟩ := lowerExpr_good o S e st x st1 hg ho h1
    simp only [Option.some.injEq, Prod.mk.injEq] at h2
    obtain ⟨rfl, rfl⟩ := h2
    obtain ⟨hd, hg2, he2, hdef⟩ := define_good hg1 (he1.open ho) (scalar_some tt)
      (mk := fun d => .Cast d x (mirTy ts) (mirTy tt)) (fun _ => rfl) (fun _ => rfl)
    have hte : ts = .u32 ∧ tt = .felt ∧ t = .felt := by
      cases tt <;> simp only [Expr.ty, reduceCtorEq] at ht
      rw [hts] at ht
      cases ts <;> simp at ht
      exact ⟨rfl, rfl, ht.symm⟩
    obtain ⟨rfl, rfl, rfl⟩ := hte
    have ih := lowerExpr_sim o S hc hF e st x st1 hg ho h1 (he2.ext.trans hsf) .u32 hts
      (by simpa [Expr.small] using hsm) s env hty hm
    simp only [eval]
    cases hev : eval false calls s e with
    | none => rw [hev] at ih; exact ih
    | some z =>
      rw [hev] at ih
      obtain ⟨hz, env1, hgo, hag, hrep⟩ := ih
      cases z <;> simp [valTy] at hz
      rename_i m
      have hstep : evalInstr calls (Instr.rename f.g.sub (.Cast st1.next x (mirTy .u32) (mirTy .felt))) env1 =
          (convert .felt (.u32 m)).bind fun y => some (Function.update env1 st1.next (some y)) := by
        simp only [Instr.rename, evalInstr, scalar_mirTy, hrep.readAt, Option.bind_eq_bind, Option.bind_some]
        rfl
      simp only [Option.bind_some]
      cases hcv : convert .felt (.u32 m) with
      | none =>
        intro n
        rw [hgo n, go_define hF hg1 (scalar_some .felt) hsf]
        simp only [hstep, hcv, Option.bind_none]
      | some y =>
        refine ⟨?_, Function.update env1 st1.next (some y), ?_, ?_, ?_⟩
        · simp only [convert] at hcv
          split at hcv
          · cases hcv; rfl
          · cases hcv
        · intro n
          rw [hgo n, go_define hF hg1 (scalar_some .felt) hsf]
          simp only [hstep, hcv, Option.bind_some]
        · exact hag.trans he1.ext (hdef.agree hF.good hsf _ _)
        · show Function.update env1 st1.next (some y) (f.g.sub (st1.define _ _).1) = some y
          rw [hd, (hdef.fix hF.good hsf).1]; simp
theorem lowerArgs_sim (o : Opts) (S : Sem) (hc : CallsTyped S calls) (hF : Fin F f rets) :
    ∀ (es : List Expr) (st : St) (vs : List Value) (st' : St), Good [] st → st.terminated = false →
      lowerArgs o S es st = some (vs, st') → Ext st' f → ∀ ts, Expr.tys S es = some ts → Expr.smalls es = true →
        ∀ s env, Typed S s → Match f st s env → ArgsSim calls F f st st' env ts vs (evalArgs false calls s es)
  | [], st, vs, st', hg, _, h, _, ts, ht, _, s, env, _, _ => by
    simp only [lowerArgs, Option.some.injEq, Prod.mk.injEq] at h
    obtain ⟨rfl, rfl⟩ := h
    simp only [Expr.tys, Option.some.injEq] at ht
    subst ht
    exact ⟨rfl, env, fun _ => rfl, Agree.refl, rfl⟩
  | e :: es, st, vs, st', hg, ho, h, hsf, ts, ht, hsm, s, env, hty, hm => by
    simp only [lowerArgs, Option.bind_eq_bind, Option.bind_eq_some_iff, Option.some.injEq, Prod.mk.injEq] at h
    obtain ⟨⟨x, st1⟩, h1, ⟨xs, st2⟩, h2, rfl, rfl⟩ := h
    obtain ⟨hg1, he1, hv1⟩ := lowerExpr_good o S e st x st1 hg ho h1
    obtain ⟨hg2, he2, hv2⟩ := lowerArgs_good o S es st1 xs st2 hg1 (he1.open ho) h2
    obtain ⟨t, ts', hte, hts, rfl⟩ : ∃ t ts', e.ty S = some t ∧ Expr.tys S es = some ts' ∧ ts = t :: ts' := by
      simp only [Expr.tys] at ht
      split at ht
      · rename_i ha hb; cases ht; exact ⟨_, _, ha, hb, rfl⟩
      · cases ht
    have hsm' : e.small = true ∧ Expr.smalls es = true := by simpa [Expr.smalls] using hsm
    have hs1f := he2.ext.trans hsf
    have ih1 := lowerExpr_sim o S hc hF e st x st1 hg ho h1 hs1f t hte hsm'.1 s env hty hm
    simp only [evalArgs]
    cases hev : eval false calls s e with
    | none => rw [hev] at ih1; exact ih1
    | some a =>
      rw [hev] at ih1
      obtain ⟨hat, env1, hgo1, hag1, hrep1⟩ := ih1
      have ih2 := lowerArgs_sim o S hc hF es st1 xs st2 hg1 (he1.open ho) h2 hsf ts' hts hsm'.2 s env1 hty
        (match_keep hg hF.good he1.ext hs1f he1.keep hm hag1)
      simp only [Option.bind_some]
      cases hes : evalArgs false calls s es with
      | none =>
        rw [hes] at ih2
        exact fun n => by rw [hgo1 n]; exact ih2 n
      | some as =>
        rw [hes] at ih2
        obtain ⟨hast, env2, hgo2, hag2, hrep2⟩ := ih2
        have hrep1' := hrep1.agree hv1 hs1f hag2
        refine ⟨by simp [hat, hast], env2, fun n => by rw [hgo1 n, hgo2 n], hag1.trans he1.ext hag2, ?_⟩
        simp only [List.map_cons, readAll, Option.bind_some, scalar_mirTy, hrep1'.readAt, Option.bind_eq_bind, hrep2]
end

end

end Lower
end CairoM
