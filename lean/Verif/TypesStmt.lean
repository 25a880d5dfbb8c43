import Verif.TypesLemmas

/-!
# Lemmas: statements, functions and files
-/

namespace CairoM.Syntax

open Lang Mir Source Lower

mutual
theorem after_prefix : ∀ (t : Stmt) (s : Scope), s.tys <+: (afterStmt t s).tys
  | .let_ (.ident x) ty e, s => by simp [afterStmt, Scope.declare]
  | .let_ (.tuple _) ty e, s => by simp [afterStmt]
  | .if_ c t none, s => by simpa [afterStmt, Scope.leave] using after_prefix t s
  | .if_ c t (some e), s => by
    have h1 := after_prefix t s
    have h2 := after_prefix e (s.leave (afterStmt t s))
    simpa [afterStmt, Scope.leave] using h1.trans h2
  | .block ss, s => by simpa [afterStmt, Scope.leave] using afters_prefix ss s
  | .loop_ b, s => by simpa [afterStmt, Scope.leave] using after_prefix b s
  | .while_ c b, s => by simpa [afterStmt, Scope.leave] using after_prefix b s
  | .for_ i c st b, s => by
    have h1 := after_prefix i s
    have h2 := after_prefix b (afterStmt i s)
    have h3 := after_prefix st (afterStmt b (afterStmt i s))
    simpa [afterStmt, Scope.leave] using (h1.trans h2).trans h3
  | .const _, s | .assign .., s | .return_ _, s | .expr _, s | .break_, s | .continue_, s => by simp [afterStmt]
theorem afters_prefix : ∀ (ts : List Stmt) (s : Scope), s.tys <+: (afterStmts ts s).tys
  | [], s => by simp [afterStmts]
  | t :: ts, s => by
    rw [afterStmts]
    exact (after_prefix t s).trans (afters_prefix ts _)
end

/-- The types of the variables are those of the definitions. -/
def VarsOk (S : Sem) (T : List STy) : Prop := ∀ (i : Nat) (t : Ty), T[i]? = some (.scalar t) → S.varTy i = t

theorem declare_ok {S : Sem} {T : List STy} (hT : VarsOk S T) {s : Scope} (hS : SemOk S s.env) (x : String) (u : STy)
    (h : (s.declare x u).tys <+: T) :
    SemOk S (s.declare x u).env ∧ ∀ t, u = .scalar t → S.varTy s.tys.length = t := by
  have hv : ∀ t, u = .scalar t → S.varTy s.tys.length = t := by
    rintro t rfl
    obtain ⟨z, rfl⟩ := h
    exact hT _ _ (by simp [Scope.declare])
  refine ⟨⟨fun y i t hy => ?_, fun y i ps r hy => ?_⟩, hv⟩
  · simp only [Scope.declare] at hy
    split at hy
    · simp only [Option.some.injEq, Entry.var.injEq] at hy
      obtain ⟨rfl, hu⟩ := hy
      exact hv t hu
    · exact hS.var _ _ _ hy
  · simp only [Scope.declare] at hy
    split at hy
    · simp at hy
    · exact hS.fn _ _ _ _ hy

theorem after_ok {S : Sem} {T : List STy} (hT : VarsOk S T) {s : Scope} (hS : SemOk S s.env) :
    ∀ t : Stmt, (afterStmt t s).tys <+: T → SemOk S (afterStmt t s).env
  | .let_ (.ident x) ty e, h => by
    rw [afterStmt] at h ⊢
    exact (declare_ok hT hS x _ h).1
  | .if_ _ _ none, _ | .if_ _ _ (some _), _ | .block _, _ | .loop_ _, _ | .while_ _ _, _ | .for_ .., _
  | .let_ (.tuple _) .., _ | .const _, _ | .assign .., _ | .return_ _, _ | .expr _, _ | .break_, _ | .continue_, _ => by
    simpa only [afterStmt, Scope.leave] using hS

theorem bindTo_eq (S : Sem) (st : St) (x : Var) (v : Value) : bindTo st x (mirTy (S.varTy x)) v = st.bindVar S x v := by
  cases v <;> rfl

/-- An expression in a place that requires the type `u`. -/
theorem expr_ok {S : Sem} {env : TEnv} (hS : SemOk S env) {hint : Option Ty} {e : Expr} {ctx oc : Option STy}
    {e' : Source.Expr} (hc : checkExpr env hint e = true) (hs : settledE env hint e ctx oc = true)
    (he : elabExpr env hint e ctx = some e') {u : Ty} (hu : compatible (typeOf env hint e ctx) (.scalar u) = true) :
    e'.ok S u = true := by
  obtain ⟨⟨t, h1, h2⟩, h3⟩ := elab_typed hS hint e ctx oc e' hc hs he
  rw [h1, compatible_scalar] at hu
  subst hu
  simp [Source.Expr.ok, h2, h3]

/-- A call as a statement. -/
theorem call_ok {S : Sem} {env : TEnv} (hS : SemOk S env) (o : Opts) (rets : List Ty) {f : Expr} {args : List Expr}
    {t' : Source.Stmt} (hc : checkExpr env none (.call f args) = true) (hs : settledE env none (.call f args) none none = true)
    (he : elabCall env f args = some t') :
    t'.ok S rets = true ∧ ∀ st, lowerCall o env f args st = lowerStmt o S t' st := by
  unfold elabCall at he
  rw [settledE] at hs
  split at he
  · next hf =>
    split at he
    · next e =>
      simp only [Option.map_eq_some_iff] at he
      obtain ⟨a, ha, rfl⟩ := he
      simp only [checkExpr, hf, if_true, checkExprs, Bool.and_eq_true] at hc
      simp only [settledAs, Bool.and_eq_true] at hs
      refine ⟨by simpa [Source.Stmt.ok] using expr_ok hS hc.2.1 hs.1 ha hc.1.1, fun st => ?_⟩
      simp only [lowerCall, hf, if_true, lowerStmt, lowerE_eq hS o none e _ _ a st hc.2.1 hs.1 ha]
    · simp at he
  · next hf =>
    simp only [Option.bind_eq_some_iff, Option.map_eq_some_iff] at he
    obtain ⟨⟨i, ps, r⟩, hg, as, ha, rfl⟩ := he
    obtain ⟨h1, h2, h3, h4⟩ := typeOf_call (hint := none) hg
    obtain ⟨x, rfl, hx, hv⟩ := fnOf_some hg
    simp only [checkExpr, h1, h2, Bool.and_eq_true, Bool.false_eq_true, if_false] at hc
    have ht := elab_args_typed hS none (.ident x) ps args [] ps as rfl h4 hc.2 (by
      have := hc.1.1
      simp only [argsCompatible, Bool.and_eq_true] at this
      exact this.2) hs ha
    have hl := fun st => lowerAs_eq hS o none (.ident x) ps args [] ps as st rfl h4 hc.2 hs ha
    simp only [List.length_nil] at hl
    refine ⟨by simp [Source.Stmt.ok, hS.fn _ _ _ _ hv, ht.1, ht.2], fun st => ?_⟩
    simp only [lowerCall, h1, lowerStmt, hS.fn _ _ _ _ hv, hg, hl]
    simp

mutual
/-- A statement that passes the checks and is settled is well-typed, and the lowering of the syntax tree is that of the
typed statement. -/
theorem stmt_ok {S : Sem} {T : List STy} (hT : VarsOk S T) (o : Opts) (first : Option Ty) (ret : Ty) :
    ∀ (t : Stmt) (s : Scope) (t' : Source.Stmt), SemOk S s.env → (afterStmt t s).tys <+: T →
      checkStmt first ret t s = true → settledS first t s = true → elabStmt first t s = some t' →
      t'.ok S (retTys ret) = true ∧ ∀ st, lowerS o first t s st = lowerStmt o S t' st
  | .let_ (.ident x) ty e, s, t', hS, hp, hc, hs, he => by
    rw [afterStmt] at hp
    have hv := (declare_ok hT hS x _ hp).2
    simp only [checkStmt, Bool.and_eq_true] at hc
    simp only [settledS] at hs
    simp only [elabStmt] at he
    split at he
    · next u hu =>
      simp only [Option.map_eq_some_iff] at he
      obtain ⟨a, ha, rfl⟩ := he
      have hvu := hv u hu
      have hcomp : compatible (typeOf s.env (hintOf ty) e none) (.scalar u) = true := by
        have h2 := hc.2
        cases ty with
        | none =>
          simp only [letType] at hu
          simp [hintOf, hu, compatible]
        | some w =>
          simp only [letType] at hu
          simp only [hintOf, Option.bind_some] at h2 ⊢
          cases hw : w.scalar with
          | none => rw [hw] at hu; simp at hu
          | some w' =>
            rw [hw] at hu h2
            simp only [STy.scalar.injEq] at hu
            subst hu
            exact h2
      refine ⟨?_, fun st => ?_⟩
      · simp only [Source.Stmt.ok, hvu]
        exact expr_ok hS hc.1.1 hs ha hcomp
      · simp only [lowerS, lowerStmt, lowerE_eq hS o (hintOf ty) e _ _ a st hc.1.1 hs ha, hu, STy.mir, ← bindTo_eq, hvu]
        rfl
    · simp at he
  | .let_ (.tuple _) .., _, _, _, _, _, _, he => by simp [elabStmt] at he
  | .const _, _, _, _, _, _, _, he => by simp [elabStmt] at he
  | .assign l e, s, t', hS, hp, hc, hs, he => by
    cases l with
    | ident x =>
      simp only [checkStmt, Bool.and_eq_true] at hc
      simp only [settledS] at hs
      simp only [elabStmt, Option.bind_eq_some_iff, Option.map_eq_some_iff] at he
      obtain ⟨⟨i, u⟩, hv, a, ha, rfl⟩ := he
      obtain ⟨h1, h2⟩ := varOf_some hv
      have h3 : typeOf s.env none (.ident x) none = .scalar u := by rw [typeOf, h2]
      rw [h3] at hc hs
      have hvu := hS.var _ _ _ h1
      refine ⟨?_, fun st => ?_⟩
      · simp only [Source.Stmt.ok, hvu]
        refine expr_ok hS hc.1.1.2 hs ha ?_
        have := hc.2
        simp only [compatible, decide_eq_true_eq] at this ⊢
        rcases this with h | h | h
        · exact .inl h.symm
        · exact .inr (.inr h)
        · exact .inr (.inl h)
      · simp only [lowerS, lowerStmt, hv, ← bindTo_eq, hvu, Option.bind_eq_bind, Option.bind_some,
          lowerE_eq hS o none e _ _ a st hc.1.1.2 hs ha]
    | _ => simp [elabStmt] at he
  | .return_ none, s, t', hS, hp, hc, hs, he => by
    simp only [checkStmt, decide_eq_true_eq] at hc
    simp only [elabStmt, Option.some.injEq] at he
    subst he hc
    exact ⟨rfl, fun st => by simp only [lowerS, lowerStmt]⟩
  | .return_ (some e), s, t', hS, hp, hc, hs, he => by
    simp only [checkStmt, Bool.and_eq_true] at hc
    simp only [settledS] at hs
    simp only [elabStmt] at he
    split at he
    · simp at he
    next hu =>
    simp only [Option.map_eq_some_iff] at he
    obtain ⟨a, ha, rfl⟩ := he
    refine ⟨?_, fun st => ?_⟩
    · have hok := expr_ok hS hc.1 hs ha hc.2
      have hr : retTys ret = [ret] := by
        cases ret <;> first | rfl | skip
        exfalso
        obtain ⟨⟨t, h1, h2⟩, h3⟩ := elab_typed hS none e _ _ a hc.1 hs ha
        have := hc.2
        rw [h1, compatible_scalar] at this
        subst this
        exact hu h1
      simp only [Source.Stmt.ok, hr, hok]
    · simp only [lowerS, lowerStmt, hu, if_false, lowerE_eq hS o none e _ _ a st hc.1 hs ha]
  | .expr e, s, t', hS, hp, hc, hs, he => by
    simp only [checkStmt] at hc
    simp only [settledS] at hs
    by_cases hcall : ∃ f args, e = .call f args
    · obtain ⟨f, args, rfl⟩ := hcall
      simp only [elabStmt] at he
      obtain ⟨h1, h2⟩ := call_ok hS o (retTys ret) hc hs he
      exact ⟨h1, fun st => by simp only [lowerS, h2]⟩
    · have hel : elabStmt first (.expr e) s = (elabExpr s.env none e none).map .expr := by
        cases e <;> first | rfl | exact absurd ⟨_, _, rfl⟩ hcall
      rw [hel] at he
      simp only [Option.map_eq_some_iff] at he
      obtain ⟨a, ha, rfl⟩ := he
      obtain ⟨⟨t, h1, h2⟩, h3⟩ := elab_typed hS none e _ _ a hc hs ha
      refine ⟨by simp [Source.Stmt.ok, h2, h3], fun st => ?_⟩
      have hlo : lowerS o first (.expr e) s st = (do
          let (_, st) ← lowerE o s.env none e none st
          some st) := by
        cases e <;> first | rfl | exact absurd ⟨_, _, rfl⟩ hcall
      rw [hlo, lowerE_eq hS o none e _ _ a st hc hs ha, lowerStmt]
  | .if_ c t none, s, t', hS, hp, hc, hs, he => by
    simp only [afterStmt, Scope.leave] at hp
    simp only [checkStmt, Bool.and_eq_true] at hc
    simp only [settledS, Bool.and_eq_true] at hs
    simp only [elabStmt, Option.bind_eq_some_iff, Option.map_eq_some_iff] at he
    obtain ⟨c', hc', a, ha, rfl⟩ := he
    obtain ⟨h1, h2⟩ := stmt_ok hT o first ret t s a hS hp hc.2 hs.2 ha
    have h3 := expr_ok hS hc.1.1 hs.1 hc' hc.1.2
    have h4 := fun st => lowerE_eq hS o none c _ _ c' st hc.1.1 hs.1 hc'
    exact ⟨by simp [Source.Stmt.ok, h1, h3], fun st => by simp only [lowerS, lowerStmt, h4, h2]⟩
  | .if_ c t (some e), s, t', hS, hp, hc, hs, he => by
    simp only [afterStmt, Scope.leave] at hp
    simp only [checkStmt, Bool.and_eq_true] at hc
    simp only [settledS, Bool.and_eq_true] at hs
    simp only [elabStmt, Option.bind_eq_some_iff, Option.map_eq_some_iff] at he
    obtain ⟨c', hc', a, ha, b, hb, rfl⟩ := he
    have hp1 : (afterStmt t s).tys <+: T := (after_prefix e (s.leave (afterStmt t s))).trans hp
    obtain ⟨h1, h2⟩ := stmt_ok hT o first ret t s a hS hp1 hc.1.2 hs.1.2 ha
    obtain ⟨h5, h6⟩ := stmt_ok hT o first ret e (s.leave (afterStmt t s)) b hS hp hc.2 hs.2 hb
    have h3 := expr_ok hS hc.1.1.1 hs.1.1 hc' hc.1.1.2
    have h4 := fun st => lowerE_eq hS o none c _ _ c' st hc.1.1.1 hs.1.1 hc'
    exact ⟨by simp [Source.Stmt.ok, h1, h3, h5], fun st => by simp only [lowerS, lowerStmt, h4, h2, h6]⟩
  | .block ss, s, t', hS, hp, hc, hs, he => by
    simp only [afterStmt, Scope.leave] at hp
    simp only [checkStmt] at hc
    simp only [settledS] at hs
    simp only [elabStmt, Option.map_eq_some_iff] at he
    obtain ⟨a, ha, rfl⟩ := he
    obtain ⟨h1, h2⟩ := stmts_ok hT o first ret ss s a hS hp hc hs ha
    exact ⟨by simp [Source.Stmt.ok, h1], fun st => by simp only [lowerS, lowerStmt, h2]⟩
  | .loop_ b, s, t', hS, hp, hc, hs, he => by
    simp only [afterStmt, Scope.leave] at hp
    simp only [checkStmt] at hc
    simp only [settledS] at hs
    simp only [elabStmt, Option.map_eq_some_iff] at he
    obtain ⟨a, ha, rfl⟩ := he
    obtain ⟨h1, h2⟩ := stmt_ok hT o first ret b s a hS hp hc hs ha
    exact ⟨by simp [Source.Stmt.ok, h1], fun st => by simp only [lowerS, lowerStmt, h2]⟩
  | .while_ c b, s, t', hS, hp, hc, hs, he => by
    simp only [afterStmt, Scope.leave] at hp
    simp only [checkStmt, Bool.and_eq_true] at hc
    simp only [settledS, Bool.and_eq_true] at hs
    simp only [elabStmt, Option.bind_eq_some_iff, Option.map_eq_some_iff] at he
    obtain ⟨c', hc', a, ha, rfl⟩ := he
    obtain ⟨h1, h2⟩ := stmt_ok hT o first ret b s a hS hp hc.2 hs.2 ha
    have h3 := expr_ok hS hc.1.1 hs.1 hc' hc.1.2
    have h4 := fun st => lowerE_eq hS o none c _ _ c' st hc.1.1 hs.1 hc'
    exact ⟨by simp [Source.Stmt.ok, h1, h3], fun st => by simp only [lowerS, lowerStmt, h4, h2]⟩
  | .for_ i c st b, s, t', hS, hp, hc, hs, he => by
    simp only [afterStmt, Scope.leave] at hp
    simp only [checkStmt, Bool.and_eq_true] at hc
    simp only [settledS, Bool.and_eq_true] at hs
    simp only [elabStmt, Option.bind_eq_some_iff, Option.map_eq_some_iff] at he
    obtain ⟨i', hi, c', hc', b', hb, st', hst, rfl⟩ := he
    simp only [simpleStep, Option.filter_eq_some_iff] at hst
    have hp2 : (afterStmt b (afterStmt i s)).tys <+: T := (after_prefix st _).trans hp
    have hp1 : (afterStmt i s).tys <+: T := (after_prefix b _).trans hp2
    have hS1 := after_ok hT hS i hp1
    have hS2 := after_ok hT hS1 b hp2
    obtain ⟨h1, h2⟩ := stmt_ok hT o first ret i s i' hS hp1 hc.1.1.1.1 hs.1.1.1 hi
    obtain ⟨h3, h4⟩ := stmt_ok hT o first ret b (afterStmt i s) b' hS1 hp2 hc.1.2 hs.1.2 hb
    obtain ⟨h5, h6⟩ := stmt_ok hT o first ret st (afterStmt b (afterStmt i s)) st' hS2 hp hc.2 hs.2 hst.1
    have h7 := expr_ok hS1 hc.1.1.1.2 hs.1.1.2 hc' hc.1.1.2
    have h8 := fun st => lowerE_eq hS1 o none c _ _ c' st hc.1.1.1.2 hs.1.1.2 hc'
    exact ⟨by simp [Source.Stmt.ok, h1, h3, h5, h7, hst.2], fun q => by simp only [lowerS, lowerStmt, h2, h4, h6, h8]⟩
  | .break_, s, t', hS, hp, hc, hs, he => by
    simp only [elabStmt, Option.some.injEq] at he
    subst he
    exact ⟨rfl, fun st => by simp only [lowerS, lowerStmt]⟩
  | .continue_, s, t', hS, hp, hc, hs, he => by
    simp only [elabStmt, Option.some.injEq] at he
    subst he
    exact ⟨rfl, fun st => by simp only [lowerS, lowerStmt]⟩
/-- The same for a list. -/
theorem stmts_ok {S : Sem} {T : List STy} (hT : VarsOk S T) (o : Opts) (first : Option Ty) (ret : Ty) :
    ∀ (ts : List Stmt) (s : Scope) (ts' : List Source.Stmt), SemOk S s.env → (afterStmts ts s).tys <+: T →
      checkStmts first ret ts s = true → settledSs first ts s = true → elabStmts first ts s = some ts' →
      Source.Stmt.oks S (retTys ret) ts' = true ∧ ∀ st, lowerSs o first ts s st = lowerStmts o S ts' st
  | [], s, ts', _, _, _, _, he => by
    simp only [elabStmts, Option.some.injEq] at he
    subst he
    exact ⟨rfl, fun st => by simp only [lowerSs, lowerStmts]⟩
  | t :: ts, s, ts', hS, hp, hc, hs, he => by
    simp only [afterStmts] at hp
    simp only [checkStmts, Bool.and_eq_true] at hc
    simp only [settledSs, Bool.and_eq_true] at hs
    simp only [elabStmts, Option.bind_eq_some_iff, Option.map_eq_some_iff] at he
    obtain ⟨a, ha, as, has, rfl⟩ := he
    have hp1 : (afterStmt t s).tys <+: T := (afters_prefix ts _).trans hp
    obtain ⟨h1, h2⟩ := stmt_ok hT o first ret t s a hS hp1 hc.1 hs.1 ha
    obtain ⟨h3, h4⟩ := stmts_ok hT o first ret ts (afterStmt t s) as (after_ok hT hS t hp1) hp hc.2 hs.2 has
    exact ⟨by simp [Source.Stmt.oks, h1, h3], fun st => by simp only [lowerSs, lowerStmts, h2, h4]⟩
end

/-! ### Functions and files -/

theorem params_prefix : ∀ (ps : List (String × Ty)) (s : Scope), s.tys <+: (declareParams ps s).tys
  | [], s => by simp [declareParams]
  | p :: ps, s => by
    rw [declareParams]
    exact (by simp [Scope.declare] : s.tys <+: (s.declare p.1 (.scalar p.2)).tys).trans (params_prefix ps _)

theorem fn_prefix (f : TFn) (s : Scope) : s.tys <+: (afterFn f s).tys :=
  (params_prefix f.params s).trans (afters_prefix f.body _)

theorem fns_prefix : ∀ (fs : List TFn) (s : Scope), s.tys <+: (afterFns fs s).tys
  | [], s => by simp [afterFns]
  | f :: fs, s => by
    rw [afterFns]
    exact (fn_prefix f s).trans (fns_prefix fs _)

/-- The parameters: names, types and what the lowering does with them. -/
theorem params_ok {S : Sem} {T : List STy} (hT : VarsOk S T) :
    ∀ (ps : List (String × Ty)) (s : Scope), SemOk S s.env → (declareParams ps s).tys <+: T →
      SemOk S (declareParams ps s).env ∧ (List.range' s.tys.length ps.length).map S.varTy = ps.map (·.2) ∧
      ∀ st, lowerPs ps s.tys.length st = lowerParams S (List.range' s.tys.length ps.length) st
  | [], s, hS, _ => ⟨hS, rfl, fun st => rfl⟩
  | p :: ps, s, hS, hp => by
    rw [declareParams] at hp ⊢
    obtain ⟨h1, h2⟩ := declare_ok hT hS p.1 (.scalar p.2) ((params_prefix ps _).trans hp)
    have hv := h2 p.2 rfl
    obtain ⟨h3, h4, h5⟩ := params_ok hT ps (s.declare p.1 (.scalar p.2)) h1 hp
    have hl : (s.declare p.1 (.scalar p.2)).tys.length = s.tys.length + 1 := by simp [Scope.declare]
    rw [hl] at h4 h5
    refine ⟨h3, by simp [List.range', hv, h4], fun st => ?_⟩
    simp only [List.length_cons, List.range', lowerPs, lowerParams, hv, h5]

theorem fn_ok {S : Sem} {T : List STy} (hT : VarsOk S T) (o : Opts) (first : Option Ty) (f : TFn) (s : Scope)
    (g : Name × Fn) (hS : SemOk S s.env) (hp : (afterFn f s).tys <+: T)
    (hc : checkStmts first f.ret f.body (declareParams f.params s) = true)
    (hs : settledSs first f.body (declareParams f.params s) = true) (he : elabFn first f s = some g) :
    g.2.ok S = true ∧ lowerF o first f s = lowerFn o S g.1 g.2 := by
  simp only [elabFn, Option.map_eq_some_iff] at he
  obtain ⟨b, hb, rfl⟩ := he
  obtain ⟨h1, _, h3⟩ := params_ok hT f.params s hS ((afters_prefix f.body _).trans hp)
  obtain ⟨h4, h5⟩ := stmts_ok hT o first f.ret f.body _ b h1 hp hc hs hb
  exact ⟨h4, by simp only [lowerF, lowerFn, h3, h5]⟩

theorem fns_ok {S : Sem} {T : List STy} (hT : VarsOk S T) (o : Opts) (first : Option Ty) :
    ∀ (fs : List TFn) (s : Scope) (gs : List (Name × Fn)), SemOk S s.env → (afterFns fs s).tys <+: T →
      checkFns first fs s = true → settledFs first fs s = true → elabFns first fs s = some gs →
      (∀ g ∈ gs, g.2.ok S = true) ∧ lowerFs o first fs s = gs.mapM fun g => lowerFn o S g.1 g.2
  | [], s, gs, _, _, _, _, he => by
    simp only [elabFns, Option.some.injEq] at he
    subst he
    exact ⟨by simp, by simp [lowerFs]⟩
  | f :: fs, s, gs, hS, hp, hc, hs, he => by
    rw [afterFns] at hp
    simp only [checkFns, Bool.and_eq_true] at hc
    simp only [settledFs, Bool.and_eq_true] at hs
    simp only [elabFns, Option.bind_eq_some_iff, Option.map_eq_some_iff] at he
    obtain ⟨g, hg, gs', hgs, rfl⟩ := he
    obtain ⟨h1, h2⟩ := fn_ok hT o first f s g hS ((fns_prefix fs _).trans hp) hc.1 hs.1 hg
    obtain ⟨h3, h4⟩ := fns_ok hT o first fs (afterFn f s) gs' hS hp hc.2 hs.2 hgs
    refine ⟨fun x hx => ?_, ?_⟩
    · rcases List.mem_cons.1 hx with rfl | hx
      · exact h1
      · exact h3 x hx
    · rw [lowerFs, h2, h4, List.mapM_cons]
      cases lowerFn o S g.1 g.2 with
      | none => rfl
      | some a =>
        cases gs'.mapM fun g => lowerFn o S g.1 g.2 <;> rfl

/-- The signature of an elaborated function is that of the function. -/
theorem elab_sig {S : Sem} {T : List STy} (hT : VarsOk S T) (first : Option Ty) :
    ∀ (fs : List TFn) (s : Scope) (gs : List (Name × Fn)), (afterFns fs s).tys <+: T →
      elabFns first fs s = some gs → ∀ (i : Nat) (f : TFn), fs[i]? = some f →
      ∃ g, gs[i]? = some g ∧ g.2.params.map S.varTy = f.paramTys ∧ g.2.rets = retTys f.ret
  | [], _, _, _, _, i, f, hf => by simp at hf
  | f :: fs, s, gs, hp, he, i, f', hf => by
    rw [afterFns] at hp
    simp only [elabFns, Option.bind_eq_some_iff, Option.map_eq_some_iff] at he
    obtain ⟨g, hg, gs', hgs, rfl⟩ := he
    cases i with
    | zero =>
      simp only [List.getElem?_cons_zero, Option.some.injEq] at hf
      subst hf
      refine ⟨g, rfl, ?_⟩
      simp only [elabFn, Option.map_eq_some_iff] at hg
      obtain ⟨b, hb, rfl⟩ := hg
      refine ⟨?_, rfl⟩
      have := param_tys hT f.params s ((afters_prefix f.body _).trans ((fns_prefix fs (afterFn f s)).trans hp))
      simpa [TFn.paramTys] using this
    | succ i =>
      simp only [List.getElem?_cons_succ] at hf ⊢
      exact elab_sig hT first fs (afterFn f s) gs' hp hgs i f' hf
where
  param_tys {S : Sem} {T : List STy} (hT : VarsOk S T) :
      ∀ (ps : List (String × Ty)) (s : Scope), (declareParams ps s).tys <+: T →
        (List.range' s.tys.length ps.length).map S.varTy = ps.map (·.2)
    | [], s, _ => rfl
    | p :: ps, s, hp => by
      rw [declareParams] at hp
      have h4 := param_tys hT ps (s.declare p.1 (.scalar p.2)) hp
      have hl : (s.declare p.1 (.scalar p.2)).tys.length = s.tys.length + 1 := by simp [Scope.declare]
      rw [hl] at h4
      have hv : S.varTy s.tys.length = p.2 := by
        obtain ⟨z, hz⟩ := (params_prefix ps _).trans hp
        refine hT _ _ ?_
        rw [← hz]
        simp [Scope.declare]
      simp [List.range', hv, h4]

/-- What the scope of a file says. -/
theorem declareFns_env : ∀ (fs : List TFn) (n : Nat) (s : Scope) (x : String) (d : Entry),
    (declareFns n fs s).env x = some d →
    s.env x = some d ∨ ∃ k f, fs[k]? = some f ∧ d = .fn (n + k) f.paramTys f.ret
  | [], n, s, x, d, h => .inl h
  | f :: fs, n, s, x, d, h => by
    rw [declareFns] at h
    rcases declareFns_env fs (n + 1) _ x d h with h | ⟨k, f', hk, rfl⟩
    · simp only at h
      split at h
      · simp only [Option.some.injEq] at h
        exact .inr ⟨0, f, rfl, h.symm⟩
      · exact .inl h
    · exact .inr ⟨k + 1, f', by simpa using hk, by rw [Nat.add_assoc, Nat.add_comm 1 k]⟩

/-- A file that passes the checks and is settled: its typed program is well-typed and the lowering is that of the typed
program. -/
theorem file_ok (fs : List TFn) (p : Program) (hc : typeChecks fs = true) (hs : settled fs = true)
    (he : elabFile fs = some p) (o : Opts) :
    (∀ g ∈ p.fns, g.2.ok p.sem = true) ∧ lowerFile o fs = p.fns.mapM fun g => lowerFn o p.sem g.1 g.2 := by
  simp only [elabFile, Option.map_eq_some_iff] at he
  obtain ⟨gs, hg, rfl⟩ := he
  have hT : VarsOk (Program.sem ⟨varTys (afterFns fs (fileScope fs)).tys, gs⟩) (afterFns fs (fileScope fs)).tys := by
    intro i t hi
    simp [Program.sem, varTys, hi]
  refine fns_ok hT o (firstRet fs) fs (fileScope fs) gs ⟨fun x i t hx => ?_, fun x i ps r hx => ?_⟩ (List.prefix_refl _) hc hs hg
  · rcases declareFns_env fs 0 _ x _ hx with h | ⟨k, f, _, h⟩ <;> simp at h
  · rcases declareFns_env fs 0 _ x _ hx with h | ⟨k, f, hk, h⟩
    · simp at h
    · simp only [Entry.fn.injEq, Nat.zero_add] at h
      obtain ⟨rfl, rfl, rfl⟩ := h
      obtain ⟨g, h1, h2, h3⟩ := elab_sig hT (firstRet fs) fs (fileScope fs) gs (List.prefix_refl _) hg i f hk
      simp only [Program.sem] at h2 ⊢
      simp [h1, h2, h3]

end CairoM.Syntax
