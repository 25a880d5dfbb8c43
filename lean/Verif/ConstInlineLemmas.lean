import Verif.ConstInlineSpec

/-!
# Replacing constants by their expressions: helper lemmas (C95)
-/

namespace CairoM
namespace Source

open Lang

variable {calls : Calls} {lazy : Bool}

mutual
/-- Evaluating an expression after replacing its variables by expressions with the same values. -/
theorem eval_subst {σ : Var → Option Expr} {st st' : Store} {p : Var → Bool}
    (hσ : ∀ x v e', p x = true → st x = some v → σ x = some e' → eval lazy calls st' e' = some v) :
    ∀ (e : Expr) (v : Val) (e' : Expr), e.all p = true → eval lazy calls st e = some v → e.subst σ = some e' →
      eval lazy calls st' e' = some v
  | .int n t, v, e', _, h, h' => by
    simp only [Expr.subst, Option.some.injEq] at h'
    subst h'
    simpa only [eval] using h
  | .bool b, v, e', _, h, h' => by
    simp only [Expr.subst, Option.some.injEq] at h'
    subst h'
    simpa only [eval] using h
  | .var x, v, e', hp, h, h' => by
    simp only [eval] at h
    simp only [Expr.subst] at h'
    simp only [Expr.all] at hp
    exact hσ x v e' hp h h'
  | .un op e, v, e', hp, h, h' => by
    simp only [Expr.subst, Bind.bind, Option.bind_eq_some_iff, Option.some.injEq] at h'
    obtain ⟨a, h1, rfl⟩ := h'
    simp only [eval, Option.bind_eq_some_iff] at h ⊢
    simp only [Expr.all] at hp
    obtain ⟨x, h2, h3⟩ := h
    exact ⟨x, eval_subst hσ e x a hp h2 h1, h3⟩
  | .bin op l r, v, e', hp, h, h' => by
    simp only [Expr.subst, Bind.bind, Option.bind_eq_some_iff, Option.some.injEq] at h'
    obtain ⟨a, h1, b, h2, rfl⟩ := h'
    simp only [eval, Option.bind_eq_some_iff] at h ⊢
    simp only [Expr.all, Bool.and_eq_true] at hp
    obtain ⟨x, h3, h4⟩ := h
    refine ⟨x, eval_subst hσ l x a hp.1 h3 h1, ?_⟩
    split_ifs at h4 ⊢
    · exact h4
    · simp only [Option.bind_eq_some_iff] at h4 ⊢
      obtain ⟨y, h5, h6⟩ := h4
      exact ⟨y, eval_subst hσ r y b hp.2 h5 h2, h6⟩
  | .call f args, v, e', hp, h, h' => by
    simp only [Expr.subst, Bind.bind, Option.bind_eq_some_iff, Option.some.injEq] at h'
    obtain ⟨as, h1, rfl⟩ := h'
    simp only [eval, Option.bind_eq_some_iff] at h ⊢
    simp only [Expr.all] at hp
    obtain ⟨xs, h2, h3⟩ := h
    exact ⟨xs, evalArgs_subst hσ args xs as hp h2 h1, h3⟩
  | .cast e t, v, e', hp, h, h' => by
    simp only [Expr.subst, Bind.bind, Option.bind_eq_some_iff, Option.some.injEq] at h'
    obtain ⟨a, h1, rfl⟩ := h'
    simp only [eval, Option.bind_eq_some_iff] at h ⊢
    simp only [Expr.all] at hp
    obtain ⟨x, h2, h3⟩ := h
    exact ⟨x, eval_subst hσ e x a hp h2 h1, h3⟩
theorem evalArgs_subst {σ : Var → Option Expr} {st st' : Store} {p : Var → Bool}
    (hσ : ∀ x v e', p x = true → st x = some v → σ x = some e' → eval lazy calls st' e' = some v) :
    ∀ (es : List Expr) (vs : List Val) (es' : List Expr), Expr.alls p es = true → evalArgs lazy calls st es = some vs →
      Expr.substs σ es = some es' → evalArgs lazy calls st' es' = some vs
  | [], vs, es', _, h, h' => by
    simp only [Expr.substs, Option.some.injEq] at h'
    subst h'
    simpa only [evalArgs] using h
  | e :: es, vs, es', hp, h, h' => by
    simp only [Expr.substs, Bind.bind, Option.bind_eq_some_iff, Option.some.injEq] at h'
    obtain ⟨a, h1, as, h2, rfl⟩ := h'
    simp only [evalArgs, Option.bind_eq_some_iff, Option.map_eq_some_iff] at h ⊢
    simp only [Expr.alls, Bool.and_eq_true] at hp
    obtain ⟨x, h3, xs, h4, h5⟩ := h
    exact ⟨x, eval_subst hσ e x a hp.1 h3 h1, xs, evalArgs_subst hσ es xs as hp.2 h4 h2, h5⟩
end

mutual
theorem all_true : ∀ e : Expr, e.all (fun _ => true) = true
  | .int _ _ | .bool _ | .var _ => by simp [Expr.all]
  | .un _ e | .cast e _ => by simp [Expr.all, all_true e]
  | .bin _ l r => by simp [Expr.all, all_true l, all_true r]
  | .call _ args => by simp [Expr.all, alls_true args]
theorem alls_true : ∀ es : List Expr, Expr.alls (fun _ => true) es = true
  | [] => by simp [Expr.alls]
  | e :: es => by simp [Expr.alls, all_true e, alls_true es]
end

/-- The stores of the function and of the function without constants: equal on variables, and every constant that is
defined has the value of its expression, in any store. -/
def Stores (lazy : Bool) (calls : Calls) (K : Consts) (st st' : Store) : Prop :=
  (∀ y, K y = none → st' y = st y) ∧
  ∀ x c v, K x = some c → st x = some v → ∀ n e', c.subst (K.use n) = some e' → ∀ st'', eval lazy calls st'' e' = some v

variable {K : Consts} {S : Sem}

theorem Stores.use {st st' : Store} (h : Stores lazy calls K st st') (n : ℕ) (x : Var) (v : Val) (e' : Expr)
    (hv : st x = some v) (he : K.use n x = some e') : eval lazy calls st' e' = some v := by
  cases hx : K x with
  | none =>
    have : e' = .var x := by
      cases n <;> simp only [Consts.use, hx, Option.some.injEq] at he <;> exact he.symm
    subst this
    simp only [eval]
    rw [h.1 x hx, hv]
  | some c =>
    cases n with
    | zero => simp [Consts.use, hx] at he
    | succ n =>
      simp only [Consts.use, hx] at he
      exact h.2 x c v hx hv n e' he st'

theorem Stores.eval {st st' : Store} (h : Stores lazy calls K st st') {n : ℕ} {e e' : Expr} {v : Val}
    (he : e.expand K n = some e') (hv : eval lazy calls st e = some v) : eval lazy calls st' e' = some v :=
  eval_subst (p := fun _ => true) (fun x v e' _ hv he => h.use n x v e' hv he) e v e' (all_true e) hv he

theorem Stores.evalArgs {st st' : Store} (h : Stores lazy calls K st st') {n : ℕ} {es es' : List Expr} {vs : List Val}
    (he : Expr.substs (K.use n) es = some es') (hv : evalArgs lazy calls st es = some vs) :
    evalArgs lazy calls st' es' = some vs :=
  evalArgs_subst (p := fun _ => true) (fun x v e' _ hv he => h.use n x v e' hv he) es vs es' (alls_true es) hv he

/-- A variable is given a value in both stores. -/
theorem Stores.update {st st' : Store} (h : Stores lazy calls K st st') {x : Var} (hx : K x = none) (v : Val) :
    Stores lazy calls K (Function.update st x (some v)) (Function.update st' x (some v)) := by
  refine ⟨fun y hy => ?_, fun y c w hy hw => ?_⟩
  · by_cases e : y = x
    · subst e; simp
    · rw [Function.update_of_ne e, Function.update_of_ne e, h.1 y hy]
  · have e : y ≠ x := fun e => by rw [e, hx] at hy; cases hy
    rw [Function.update_of_ne e] at hw
    exact h.2 y c w hy hw

/-- A constant is defined. -/
theorem Stores.define {st st' : Store} (h : Stores lazy calls K st st') (hK : K.Closed S) {x : Var} {c : Expr}
    (hx : K x = some c) {v : Val} (hv : Source.eval lazy calls st c = some v) :
    Stores lazy calls K (Function.update st x (some v)) st' := by
  refine ⟨fun y hy => ?_, fun y c' w hy hw => ?_⟩
  · have e : y ≠ x := fun e => by rw [e, hx] at hy; cases hy
    rw [Function.update_of_ne e, h.1 y hy]
  · by_cases e : y = x
    · subst e
      rw [hx] at hy
      cases hy
      simp only [Function.update_self, Option.some.injEq] at hw
      subst hw
      intro n e' he st''
      refine eval_subst (p := fun y => (K y).isSome) ?_ c v e' (hK y c hx).1 hv he
      intro z w e'' hz hw hz'
      obtain ⟨d, hd⟩ := Option.isSome_iff_exists.mp hz
      cases n with
      | zero => simp [Consts.use, hd] at hz'
      | succ n =>
        simp only [Consts.use, hd] at hz'
        exact h.2 z d w hd hw n e'' hz' st''
    · rw [Function.update_of_ne e] at hw
      exact h.2 y c' w hy hw

/-- Outcomes of the function and of the function without constants. -/
def Ends (lazy : Bool) (calls : Calls) (K : Consts) : Outcome → Outcome → Prop
  | .fault, _ => True
  | .normal st, .normal st' | .brk st, .brk st' | .cont st, .cont st' => Stores lazy calls K st st'
  | .ret vs, .ret vs' => vs' = vs
  | .timeout, .timeout => True
  | _, _ => False

/-- Related executions. -/
def Related (lazy : Bool) (calls : Calls) (K : Consts) (a b : Store → Outcome) : Prop :=
  ∀ st st', Stores lazy calls K st st' → Ends lazy calls K (a st) (b st')

theorem forLoop_expand {c c' : Store → Option Val} {b b' s s' : Store → Outcome}
    (hc : ∀ st st' v, Stores lazy calls K st st' → c st = some v → c' st' = some v)
    (hb : Related lazy calls K b b') (hs : Related lazy calls K s s') :
    ∀ n : ℕ, Related lazy calls K (exec.forLoop c b s n) (exec.forLoop c' b' s' n)
  | 0, st, st', _ => by simp only [exec.forLoop, Ends]
  | n + 1, st, st', h => by
    simp only [exec.forLoop]
    cases hv : c st with
    | none => simp only [Ends]
    | some v =>
      rw [hc st st' v h hv]
      rcases v with _ | _ | (_ | _) | _
      · simp only [Ends]
      · simp only [Ends]
      · simpa only [Ends] using h
      · have hx := hb st st' h
        have tail : ∀ t t', Stores lazy calls K t t' → Ends lazy calls K
            (match s t with
            | .normal st'' => exec.forLoop c b s n st''
            | o => o)
            (match s' t' with
            | .normal st'' => exec.forLoop c' b' s' n st''
            | o => o) := by
          intro t t' ht
          have hy := hs t t' ht
          revert hy
          cases s t <;> cases s' t' <;> intro hy <;> first | exact forLoop_expand hc hb hs n _ _ hy | exact hy.elim | exact hy
        revert hx
        simp only
        cases b st <;> cases b' st' <;> intro hx <;> first | exact tail _ _ hx | exact hx.elim | exact hx
      · simp only [Ends]

theorem execList_expand {ex ex' : Stmt → Store → Outcome} {n : ℕ}
    (h : ∀ s s', Stmt.Defines K s → s.expand K n = some s' → Related lazy calls K (ex s) (ex' s')) :
    ∀ (ss ss' : List Stmt), Stmt.DefinesAll K ss → Stmt.expands K n ss = some ss' →
      Related lazy calls K (execList ex ss) (execList ex' ss')
  | [], ss', _, he => by
    simp only [Stmt.expands, Option.some.injEq] at he
    subst he
    intro st st' hst
    simpa only [execList, Ends] using hst
  | s :: ss, ss', hd, he => by
    simp only [Stmt.expands, Bind.bind, Option.bind_eq_some_iff, Option.some.injEq] at he
    obtain ⟨s', h1, ss'', h2, rfl⟩ := he
    simp only [Stmt.DefinesAll] at hd
    intro st st' hst
    simp only [execList]
    have hx := h s s' hd.1 h1 st st' hst
    revert hx
    cases ex s st <;> cases ex' s' st' <;> intro hx <;>
      first | exact execList_expand h ss ss'' hd.2 h2 _ _ hx | exact hx.elim | exact hx

theorem exec_expand (hK : K.Closed S) {n : ℕ} : ∀ (k : ℕ) (s s' : Stmt), Stmt.Defines K s → s.expand K n = some s' →
    Related lazy calls K (exec lazy calls k s) (exec lazy calls k s')
  | 0, s, s', _, _ => fun st st' _ => by simp only [exec, Ends]
  | k + 1, s, s', hd, he => by
    intro st st' h
    have ih := fun s s' a b => exec_expand (n := n) hK k s s' a b
    cases s with
    | letS x e =>
      simp only [Stmt.Defines] at hd
      simp only [Stmt.expand] at he
      split_ifs at he with hx
      · obtain ⟨c, hc⟩ := Option.isSome_iff_exists.mp hx
        have := hd c hc
        subst this
        simp only [Option.some.injEq] at he
        subst he
        simp only [exec, eval]
        cases hv : eval lazy calls st e with
        | none => simp only [Ends]
        | some v => exact h.define hK hc hv
      · simp only [Bind.bind, Option.bind_eq_some_iff, Option.some.injEq] at he
        obtain ⟨a, h1, rfl⟩ := he
        simp only [exec]
        cases hv : eval lazy calls st e with
        | none => simp only [Ends]
        | some v =>
          rw [h.eval h1 hv]
          exact h.update (by simpa using hx) v
    | assign x e =>
      simp only [Stmt.Defines] at hd
      simp only [Stmt.expand, Bind.bind, Option.bind_eq_some_iff, Option.some.injEq] at he
      obtain ⟨a, h1, rfl⟩ := he
      simp only [exec]
      cases hv : eval lazy calls st e with
      | none => simp only [Ends]
      | some v =>
        rw [h.eval h1 hv]
        exact h.update hd v
    | ret | «break» | «continue» =>
      simp only [Stmt.expand, Option.some.injEq] at he
      subst he
      simp only [exec, Ends]
      try exact h
    | retE e =>
      simp only [Stmt.expand, Bind.bind, Option.bind_eq_some_iff, Option.some.injEq] at he
      obtain ⟨a, h1, rfl⟩ := he
      simp only [exec]
      cases hv : eval lazy calls st e with
      | none => simp only [Ends]
      | some v => rw [h.eval h1 hv]; simp only [Ends]
    | expr e =>
      simp only [Stmt.expand, Bind.bind, Option.bind_eq_some_iff, Option.some.injEq] at he
      obtain ⟨a, h1, rfl⟩ := he
      simp only [exec]
      cases hv : eval lazy calls st e with
      | none => simp only [Ends]
      | some v => rw [h.eval h1 hv]; exact h
    | call f args =>
      simp only [Stmt.expand, Bind.bind, Option.bind_eq_some_iff, Option.some.injEq] at he
      obtain ⟨as, h1, rfl⟩ := he
      simp only [exec]
      cases hv : evalArgs lazy calls st args with
      | none => simp only [Option.bind_none, Ends]
      | some vs =>
        rw [h.evalArgs h1 hv]
        simp only [Option.bind_some]
        cases calls f vs with
        | none => simp only [Ends]
        | some ys => exact h
    | assert e =>
      simp only [Stmt.expand, Bind.bind, Option.bind_eq_some_iff, Option.some.injEq] at he
      obtain ⟨a, h1, rfl⟩ := he
      simp only [exec]
      cases hv : eval lazy calls st e with
      | none => simp only [Ends]
      | some v =>
        rw [h.eval h1 hv]
        rcases v with _ | _ | (_ | _) | _ <;> first | exact h | simp only [Ends]
    | ifThen c t =>
      simp only [Stmt.Defines] at hd
      simp only [Stmt.expand, Bind.bind, Option.bind_eq_some_iff, Option.some.injEq] at he
      obtain ⟨a, h1, t', h2, rfl⟩ := he
      simp only [exec]
      cases hv : eval lazy calls st c with
      | none => simp only [Ends]
      | some v =>
        rw [h.eval h1 hv]
        rcases v with _ | _ | (_ | _) | _ <;> first | exact h | exact ih t t' hd h2 st st' h | simp only [Ends]
    | ifElse c t e =>
      simp only [Stmt.Defines] at hd
      simp only [Stmt.expand, Bind.bind, Option.bind_eq_some_iff, Option.some.injEq] at he
      obtain ⟨a, h1, t', h2, e', h3, rfl⟩ := he
      simp only [exec]
      cases hv : eval lazy calls st c with
      | none => simp only [Ends]
      | some v =>
        rw [h.eval h1 hv]
        rcases v with _ | _ | (_ | _) | _
        · simp only [Ends]
        · simp only [Ends]
        · exact ih e e' hd.2 h3 st st' h
        · exact ih t t' hd.1 h2 st st' h
        · simp only [Ends]
    | block ss =>
      simp only [Stmt.Defines] at hd
      simp only [Stmt.expand, Bind.bind, Option.bind_eq_some_iff, Option.some.injEq] at he
      obtain ⟨ss', h1, rfl⟩ := he
      simp only [exec]
      exact execList_expand ih ss ss' hd h1 st st' h
    | «while» c body =>
      have hd' := hd
      have he' := he
      simp only [Stmt.Defines] at hd
      simp only [Stmt.expand, Bind.bind, Option.bind_eq_some_iff, Option.some.injEq] at he
      obtain ⟨a, h1, b', h2, rfl⟩ := he
      simp only [exec]
      cases hv : eval lazy calls st c with
      | none => simp only [Ends]
      | some v =>
        rw [h.eval h1 hv]
        rcases v with _ | _ | (_ | _) | _
        · simp only [Ends]
        · simp only [Ends]
        · exact h
        · have hx := ih body b' hd h2 st st' h
          revert hx
          simp only
          cases exec lazy calls k body st <;> cases exec lazy calls k b' st' <;> intro hx <;>
            first | exact ih _ _ hd' he' _ _ hx | exact hx.elim | exact hx
        · simp only [Ends]
    | loop body =>
      have hd' := hd
      have he' := he
      simp only [Stmt.Defines] at hd
      simp only [Stmt.expand, Bind.bind, Option.bind_eq_some_iff, Option.some.injEq] at he
      obtain ⟨b', h2, rfl⟩ := he
      simp only [exec]
      have hx := ih body b' hd h2 st st' h
      revert hx
      cases exec lazy calls k body st <;> cases exec lazy calls k b' st' <;> intro hx <;>
        first | exact ih _ _ hd' he' _ _ hx | exact hx.elim | exact hx
    | «for» init c step body =>
      simp only [Stmt.Defines] at hd
      simp only [Stmt.expand, Bind.bind, Option.bind_eq_some_iff, Option.some.injEq] at he
      obtain ⟨i', h1, c', h2, s', h3, b', h4, rfl⟩ := he
      simp only [exec]
      have hx := ih init i' hd.1 h1 st st' h
      revert hx
      cases exec lazy calls k init st <;> cases exec lazy calls k i' st' <;> intro hx <;>
        first
          | exact forLoop_expand (fun st st' v hst hv => hst.eval h2 hv) (ih body b' hd.2.2 h4) (ih step s' hd.2.1 h3) k _ _ hx
          | exact hx.elim
          | exact hx

theorem bindParams_expand {xs : List Var} (hxs : ∀ x ∈ xs, K x = none) : ∀ {st st1 : Store} {vs : List Val},
    (∀ x c, K x = some c → st x = none) → bindParams st xs vs = some st1 → ∀ x c, K x = some c → st1 x = none := by
  induction xs with
  | nil =>
    intro st st1 vs h hb
    cases vs with
    | nil => simp only [bindParams, Option.some.injEq] at hb; subst hb; exact h
    | cons v vs => simp [bindParams] at hb
  | cons y ys ih =>
    intro st st1 vs h hb
    cases vs with
    | nil => simp [bindParams] at hb
    | cons v vs =>
      simp only [bindParams] at hb
      refine ih (fun x hx => hxs x (by simp [hx])) ?_ hb
      intro x c hx
      have : x ≠ y := fun e => by have := hxs y (by simp); rw [e, this] at hx; cases hx
      rw [Function.update_of_ne this]
      exact h x c hx

/-- The function and the function without constants have the same result, unless the first faults. -/
theorem run_expand (hK : K.Closed S) {n : ℕ} {f f' : Fn} (hf : f.Defines K) (he : f.expand K n = some f') (k : ℕ)
    (args : List Val) (hr : run lazy calls f k args ≠ .fault) : run lazy calls f' k args = run lazy calls f k args := by
  simp only [Fn.expand, Bind.bind, Option.bind_eq_some_iff, Option.some.injEq] at he
  obtain ⟨body, h1, rfl⟩ := he
  simp only [run] at hr ⊢
  cases hb : bindParams (fun _ => none) f.params args with
  | none => rfl
  | some st =>
    rw [hb] at hr
    simp only at hr ⊢
    have hst : Stores lazy calls K st st :=
      ⟨fun _ _ => rfl, fun x c v hx hv => by
        rw [bindParams_expand hf.1 (fun _ _ _ => rfl) hb x c hx] at hv; cases hv⟩
    have := exec_expand (lazy := lazy) (calls := calls) (n := n) hK k (.block f.body) (.block body)
      (by simp only [Stmt.Defines]; exact hf.2) (by simp only [Stmt.expand, h1, Bind.bind, Option.bind_some]) st st hst
    revert hr this
    cases exec lazy calls k (.block f.body) st <;> cases exec lazy calls k (.block body) st <;> intro hr hx <;>
      first | exact hx.elim | exact absurd rfl hr | (simp only [Ends] at hx; subst hx; rfl) | rfl

/-! ### Types -/

mutual
theorem subst_ty {σ : Var → Option Expr}
    (hσ : ∀ x e', σ x = some e' → e'.ty S = some (S.varTy x) ∧ e'.small = true) :
    ∀ (e e' : Expr), e.subst σ = some e' → e'.ty S = e.ty S ∧ (e.small = true → e'.small = true)
  | .int n t, e', h => by
    simp only [Expr.subst, Option.some.injEq] at h
    subst h
    exact ⟨rfl, id⟩
  | .bool b, e', h => by
    simp only [Expr.subst, Option.some.injEq] at h
    subst h
    exact ⟨rfl, id⟩
  | .var x, e', h => by
    simp only [Expr.subst] at h
    simp only [Expr.ty]
    exact ⟨(hσ x e' h).1, fun _ => (hσ x e' h).2⟩
  | .un op e, e', h => by
    simp only [Expr.subst, Bind.bind, Option.bind_eq_some_iff, Option.some.injEq] at h
    obtain ⟨a, h1, rfl⟩ := h
    have := subst_ty hσ e a h1
    refine ⟨?_, by simpa only [Expr.small] using this.2⟩
    cases op <;> simp only [Expr.ty, this.1]
  | .bin op l r, e', h => by
    simp only [Expr.subst, Bind.bind, Option.bind_eq_some_iff, Option.some.injEq] at h
    obtain ⟨a, h1, b, h2, rfl⟩ := h
    have hl := subst_ty hσ l a h1
    have hr := subst_ty hσ r b h2
    refine ⟨by simp only [Expr.ty, hl.1, hr.1], ?_⟩
    simp only [Expr.small, Bool.and_eq_true]
    exact fun h => ⟨hl.2 h.1, hr.2 h.2⟩
  | .call f args, e', h => by
    simp only [Expr.subst, Bind.bind, Option.bind_eq_some_iff, Option.some.injEq] at h
    obtain ⟨as, h1, rfl⟩ := h
    have := substs_ty hσ args as h1
    exact ⟨by simp only [Expr.ty, this.1], by simpa only [Expr.small] using this.2⟩
  | .cast e t, e', h => by
    simp only [Expr.subst, Bind.bind, Option.bind_eq_some_iff, Option.some.injEq] at h
    obtain ⟨a, h1, rfl⟩ := h
    have := subst_ty hσ e a h1
    refine ⟨?_, by simpa only [Expr.small] using this.2⟩
    cases t <;> simp only [Expr.ty, this.1]
theorem substs_ty {σ : Var → Option Expr}
    (hσ : ∀ x e', σ x = some e' → e'.ty S = some (S.varTy x) ∧ e'.small = true) :
    ∀ (es es' : List Expr), Expr.substs σ es = some es' →
      Expr.tys S es' = Expr.tys S es ∧ (Expr.smalls es = true → Expr.smalls es' = true)
  | [], es', h => by
    simp only [Expr.substs, Option.some.injEq] at h
    subst h
    exact ⟨rfl, id⟩
  | e :: es, es', h => by
    simp only [Expr.substs, Bind.bind, Option.bind_eq_some_iff, Option.some.injEq] at h
    obtain ⟨a, h1, as, h2, rfl⟩ := h
    have he := subst_ty hσ e a h1
    have hs := substs_ty hσ es as h2
    refine ⟨by simp only [Expr.tys, he.1, hs.1], ?_⟩
    simp only [Expr.smalls, Bool.and_eq_true]
    exact fun h => ⟨he.2 h.1, hs.2 h.2⟩
end

theorem use_ty (hK : K.Closed S) : ∀ (n : ℕ) (x : Var) (e' : Expr), K.use n x = some e' →
    e'.ty S = some (S.varTy x) ∧ e'.small = true
  | 0, x, e', h => by
    cases hx : K x with
    | none =>
      simp only [Consts.use, hx, Option.some.injEq] at h
      subst h
      exact ⟨by simp only [Expr.ty], by simp only [Expr.small]⟩
    | some c => simp [Consts.use, hx] at h
  | n + 1, x, e', h => by
    cases hx : K x with
    | none =>
      simp only [Consts.use, hx, Option.some.injEq] at h
      subst h
      exact ⟨by simp only [Expr.ty], by simp only [Expr.small]⟩
    | some c =>
      simp only [Consts.use, hx] at h
      have := subst_ty (use_ty hK n) c e' h
      have hc := (hK x c hx).2
      simp only [Expr.ok, Bool.and_eq_true, decide_eq_true_eq] at hc
      exact ⟨this.1.trans hc.1, this.2 hc.2⟩

theorem expand_ok (hK : K.Closed S) {n : ℕ} {e e' : Expr} {t : Ty} (h : e.expand K n = some e') (hok : e.ok S t = true) :
    e'.ok S t = true := by
  have := subst_ty (use_ty hK n) e e' h
  simp only [Expr.ok, Bool.and_eq_true, decide_eq_true_eq] at hok ⊢
  exact ⟨this.1.trans hok.1, this.2 hok.2⟩

mutual
theorem stmt_ok (hK : K.Closed S) {n : ℕ} {rets : List Ty} : ∀ (s s' : Stmt), s.expand K n = some s' →
    Stmt.ok S rets s = true → Stmt.ok S rets s' = true ∧ (s.simple = true → s'.simple = true)
  | .letS x e, s', h, hok => by
    simp only [Stmt.expand] at h
    split_ifs at h
    · simp only [Option.some.injEq] at h
      subst h
      simp [Stmt.ok, Expr.ty, Expr.small, Stmt.simple]
    · simp only [Bind.bind, Option.bind_eq_some_iff, Option.some.injEq] at h
      obtain ⟨a, h1, rfl⟩ := h
      simp only [Stmt.ok] at hok ⊢
      exact ⟨expand_ok hK h1 hok, id⟩
  | .assign x e, s', h, hok => by
    simp only [Stmt.expand, Bind.bind, Option.bind_eq_some_iff, Option.some.injEq] at h
    obtain ⟨a, h1, rfl⟩ := h
    simp only [Stmt.ok] at hok ⊢
    exact ⟨expand_ok hK h1 hok, id⟩
  | .ret, s', h, hok | .break, s', h, hok | .continue, s', h, hok => by
    simp only [Stmt.expand, Option.some.injEq] at h
    subst h
    exact ⟨hok, id⟩
  | .retE e, s', h, hok => by
    simp only [Stmt.expand, Bind.bind, Option.bind_eq_some_iff, Option.some.injEq] at h
    obtain ⟨a, h1, rfl⟩ := h
    simp only [Stmt.ok] at hok ⊢
    refine ⟨?_, by simp [Stmt.simple]⟩
    split at hok
    · exact expand_ok hK h1 hok
    · cases hok
  | .expr e, s', h, hok => by
    simp only [Stmt.expand, Bind.bind, Option.bind_eq_some_iff, Option.some.injEq] at h
    obtain ⟨a, h1, rfl⟩ := h
    have := subst_ty (use_ty hK n) e a h1
    simp only [Stmt.ok, Bool.and_eq_true] at hok ⊢
    exact ⟨⟨by rw [this.1]; exact hok.1, this.2 hok.2⟩, by simp [Stmt.simple]⟩
  | .call f args, s', h, hok => by
    simp only [Stmt.expand, Bind.bind, Option.bind_eq_some_iff, Option.some.injEq] at h
    obtain ⟨as, h1, rfl⟩ := h
    have := substs_ty (use_ty hK n) args as h1
    simp only [Stmt.ok] at hok ⊢
    refine ⟨?_, by simp [Stmt.simple]⟩
    rw [this.1]
    split at hok
    · rename_i ps rs ts h2 h3
      simp only [Bool.and_eq_true] at hok ⊢
      exact ⟨hok.1, this.2 hok.2⟩
    · cases hok
  | .assert e, s', h, hok => by
    simp only [Stmt.expand, Bind.bind, Option.bind_eq_some_iff, Option.some.injEq] at h
    obtain ⟨a, h1, rfl⟩ := h
    simp only [Stmt.ok] at hok ⊢
    exact ⟨expand_ok hK h1 hok, by simp [Stmt.simple]⟩
  | .ifThen c t, s', h, hok => by
    simp only [Stmt.expand, Bind.bind, Option.bind_eq_some_iff, Option.some.injEq] at h
    obtain ⟨a, h1, t', h2, rfl⟩ := h
    simp only [Stmt.ok, Bool.and_eq_true] at hok ⊢
    exact ⟨⟨expand_ok hK h1 hok.1, (stmt_ok hK t t' h2 hok.2).1⟩, by simp [Stmt.simple]⟩
  | .ifElse c t e, s', h, hok => by
    simp only [Stmt.expand, Bind.bind, Option.bind_eq_some_iff, Option.some.injEq] at h
    obtain ⟨a, h1, t', h2, e', h3, rfl⟩ := h
    simp only [Stmt.ok, Bool.and_eq_true] at hok ⊢
    exact ⟨⟨⟨expand_ok hK h1 hok.1.1, (stmt_ok hK t t' h2 hok.1.2).1⟩, (stmt_ok hK e e' h3 hok.2).1⟩,
      by simp [Stmt.simple]⟩
  | .block ss, s', h, hok => by
    simp only [Stmt.expand, Bind.bind, Option.bind_eq_some_iff, Option.some.injEq] at h
    obtain ⟨ss', h1, rfl⟩ := h
    simp only [Stmt.ok] at hok ⊢
    exact ⟨stmts_ok hK ss ss' h1 hok, by simp [Stmt.simple]⟩
  | .while c b, s', h, hok => by
    simp only [Stmt.expand, Bind.bind, Option.bind_eq_some_iff, Option.some.injEq] at h
    obtain ⟨a, h1, t', h2, rfl⟩ := h
    simp only [Stmt.ok, Bool.and_eq_true] at hok ⊢
    exact ⟨⟨expand_ok hK h1 hok.1, (stmt_ok hK b t' h2 hok.2).1⟩, by simp [Stmt.simple]⟩
  | .loop b, s', h, hok => by
    simp only [Stmt.expand, Bind.bind, Option.bind_eq_some_iff, Option.some.injEq] at h
    obtain ⟨t', h2, rfl⟩ := h
    simp only [Stmt.ok] at hok ⊢
    exact ⟨(stmt_ok hK b t' h2 hok).1, by simp [Stmt.simple]⟩
  | .for i c s b, s', h, hok => by
    simp only [Stmt.expand, Bind.bind, Option.bind_eq_some_iff, Option.some.injEq] at h
    obtain ⟨i', h1, c', h2, t', h3, b', h4, rfl⟩ := h
    simp only [Stmt.ok, Bool.and_eq_true] at hok ⊢
    obtain ⟨⟨⟨⟨o1, o2⟩, o3⟩, o4⟩, o5⟩ := hok
    have hs := stmt_ok hK s t' h3 o4
    exact ⟨⟨⟨⟨⟨(stmt_ok hK i i' h1 o1).1, expand_ok hK h2 o2⟩, hs.2 o3⟩, hs.1⟩, (stmt_ok hK b b' h4 o5).1⟩,
      by simp [Stmt.simple]⟩
theorem stmts_ok (hK : K.Closed S) {n : ℕ} {rets : List Ty} : ∀ (ss ss' : List Stmt), Stmt.expands K n ss = some ss' →
    Stmt.oks S rets ss = true → Stmt.oks S rets ss' = true
  | [], ss', h, hok => by
    simp only [Stmt.expands, Option.some.injEq] at h
    subst h
    exact hok
  | s :: ss, ss', h, hok => by
    simp only [Stmt.expands, Bind.bind, Option.bind_eq_some_iff, Option.some.injEq] at h
    obtain ⟨s', h1, ss'', h2, rfl⟩ := h
    simp only [Stmt.oks, Bool.and_eq_true] at hok ⊢
    exact ⟨(stmt_ok hK s s' h1 hok.1).1, stmts_ok hK ss ss'' h2 hok.2⟩
end

/-- Replacing constants keeps a function well-typed. -/
theorem fn_ok (hK : K.Closed S) {n : ℕ} {f f' : Fn} (he : f.expand K n = some f') (hok : f.ok S = true) :
    f'.ok S = true ∧ f'.params = f.params := by
  simp only [Fn.expand, Bind.bind, Option.bind_eq_some_iff, Option.some.injEq] at he
  obtain ⟨body, h1, rfl⟩ := he
  exact ⟨stmts_ok hK f.body body h1 hok, rfl⟩

end Source
end CairoM
