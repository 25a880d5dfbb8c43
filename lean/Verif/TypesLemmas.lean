import Verif.TypesLower

/-!
# Lemmas: the checks, the elaboration and the lowering agree on settled programs
-/

namespace CairoM.Syntax

open Lang Mir Source Lower

/-- What the typed language knows agrees with the names in scope. -/
structure SemOk (S : Sem) (env : TEnv) : Prop where
  var : ∀ x i t, env x = some (.var i (.scalar t)) → S.varTy i = t
  fn : ∀ x i ps r, env x = some (.fn i ps r) → S.sig i = some (ps, retTys r)

theorem compatible_scalar {a b : Ty} : compatible (.scalar a) (.scalar b) = true ↔ a = b := by
  simp [compatible]

theorem unary_ok (op : UnaryOp) (t : Ty)
    (h : (unarySigs.any fun s => decide (s.1 = op ∧ STy.scalar t = .scalar s.2.1)) = true)
    (hn : ¬ (op = .neg ∧ STy.scalar t = .scalar .u32)) (S : Sem) (e : Source.Expr) (he : e.ty S = some t) :
    unaryResult op (.scalar t) = .scalar t ∧ (Source.Expr.un op.source e).ty S = some t := by
  cases op <;> cases t <;> first | (exfalso; revert h; decide) | (exfalso; exact hn ⟨rfl, rfl⟩) | skip
  all_goals exact ⟨by decide, by simp [UnaryOp.source, Source.Expr.ty, he]⟩

theorem binary_ok (op : BinaryOp) (a b : Ty)
    (h : (binarySigs.any fun s => decide (s.1 = op ∧ STy.scalar a = .scalar s.2.1 ∧ STy.scalar b = .scalar s.2.1)) = true) :
    a = b ∧ ∃ r, binaryResult op (.scalar a) (.scalar b) = .scalar r ∧ binTy op.source a = some r := by
  have hab : a = b := by
    obtain ⟨s, _, hs⟩ := List.any_eq_true.1 h
    simp only [STy.scalar.injEq, decide_eq_true_eq] at hs
    exact hs.2.1.trans hs.2.2.symm
  subst hab
  refine ⟨rfl, ?_⟩
  cases op <;> cases a <;> first | (exfalso; revert h; decide) | exact ⟨_, rfl, rfl⟩

theorem varOf_some {env : TEnv} {x : String} {i : Nat} {t : Ty} (h : varOf env x = some (i, t)) :
    env x = some (.var i (.scalar t)) ∧ nameType env x = .scalar t := by
  unfold varOf at h
  unfold nameType
  split at h
  · simp at h
  · next hx =>
    split at h
    · next j u hv =>
      simp only [Option.some.injEq, Prod.mk.injEq] at h
      obtain ⟨rfl, rfl⟩ := h
      simp [hx, hv, Entry.ty]
    · simp at h

theorem fnOf_some {env : TEnv} {f : Expr} {i : Nat} {ps : List Ty} {r : Ty} (h : fnOf env f = some (i, ps, r)) :
    ∃ x, f = .ident x ∧ x ≠ "assert" ∧ env x = some (.fn i ps r) := by
  cases f with
  | ident x =>
    simp only [fnOf] at h
    split at h
    · simp at h
    · next hx =>
      split at h
      · next j qs q hv =>
        simp only [Option.some.injEq, Prod.mk.injEq] at h
        obtain ⟨rfl, rfl, rfl⟩ := h
        exact ⟨x, rfl, hx, hv⟩
      · simp at h
  | _ => simp [fnOf] at h

theorem literalType_scalar (hint : Option Ty) (ctx : Option STy) (s : Option String) :
    literalType hint ctx s = .scalar .u32 ∨ literalType hint ctx s = .scalar .felt := by
  unfold literalType
  split
  · exact .inl rfl
  · exact .inr rfl
  · split
    · exact .inl rfl
    · exact .inr rfl
    · split
      · exact .inl rfl
      · exact .inr rfl

theorem operandTypes_eq (env : TEnv) (hint : Option Ty) (op : BinaryOp) (l r : Expr) (ctx : Option STy) :
    operandTypes (literalFirst op l r) ctx (typeOf env hint l) (typeOf env hint r) =
      (typeOf env hint l (leftCtx env hint op l r ctx), typeOf env hint r (rightCtx env hint op l r ctx)) := by
  unfold operandTypes leftCtx rightCtx
  split <;> rfl

theorem typeOf_call {env : TEnv} {hint : Option Ty} {f : Expr} {i : Nat} {ps : List Ty} {r : Ty}
    (h : fnOf env f = some (i, ps, r)) :
    f.isAssert = false ∧ typeOf env hint f none = .fn ps r ∧ (∀ args ctx, typeOf env hint (.call f args) ctx = .scalar r) ∧
      ∀ k, argCtx env f k = ps[k]?.map .scalar := by
  obtain ⟨x, rfl, hx, hv⟩ := fnOf_some h
  have h1 : Expr.isAssert (.ident x) = false := by simp [Expr.isAssert, hx]
  have h2 : typeOf env hint (.ident x) none = .fn ps r := by simp [typeOf, nameType, hx, hv, Entry.ty]
  refine ⟨h1, h2, fun args ctx => ?_, fun k => ?_⟩
  · rw [typeOf, h1, h2]; rfl
  · simp [argCtx, hv]

mutual
/-- An expression that passes the checks and is settled is well-typed. -/
theorem elab_typed {S : Sem} {env : TEnv} (hS : SemOk S env) (hint : Option Ty) :
    ∀ (e : Expr) (ctx oc : Option STy) (e' : Source.Expr), checkExpr env hint e = true →
      settledE env hint e ctx oc = true → elabExpr env hint e ctx = some e' →
      (∃ t, typeOf env hint e ctx = .scalar t ∧ e'.ty S = some t) ∧ e'.small = true
  | .literal n s, ctx, oc, e', _, hs, he => by
    simp only [settledE, decide_eq_true_eq] at hs
    simp only [elabExpr] at he
    rw [typeOf]
    rcases literalType_scalar hint ctx s with h | h <;> rw [h] at he ⊢ <;>
      (simp only [Option.some.injEq] at he; subst he;
       exact ⟨⟨_, rfl, rfl⟩, by simpa [Source.Expr.small] using hs⟩)
  | .boolean b, ctx, oc, e', _, _, he => by
    simp only [elabExpr, Option.some.injEq] at he
    subst he
    exact ⟨⟨.bool, rfl, rfl⟩, rfl⟩
  | .paren e, ctx, oc, e', hc, hs, he => by
    rw [checkExpr] at hc; rw [settledE] at hs; rw [elabExpr] at he
    rw [typeOf]
    exact elab_typed hS hint e ctx none e' hc hs he
  | .ident x, ctx, oc, e', _, _, he => by
    simp only [elabExpr, Option.map_eq_some_iff] at he
    obtain ⟨⟨i, t⟩, hv, rfl⟩ := he
    obtain ⟨h1, h2⟩ := varOf_some hv
    exact ⟨⟨t, by rw [typeOf, h2], by simp [Source.Expr.ty, hS.var _ _ _ h1]⟩, rfl⟩
  | .unary op e, ctx, oc, e', hc, hs, he => by
    simp only [checkExpr, Bool.and_eq_true] at hc
    simp only [settledE, Bool.and_eq_true, decide_eq_true_eq, Bool.not_eq_true', decide_eq_false_iff_not] at hs
    simp only [elabExpr, Option.map_eq_some_iff] at he
    obtain ⟨a, ha, rfl⟩ := he
    obtain ⟨⟨t, h1, h2⟩, h3⟩ := elab_typed hS hint e ctx none a hc.2 hs.2 ha
    have h0 := hs.1.1.1
    rw [h1] at h0
    have hc1 := hc.1
    have hn := hs.1.2
    rw [← h0] at hc1 hn
    obtain ⟨h4, h5⟩ := unary_ok op t hc1 hn S a h2
    exact ⟨⟨t, by rw [typeOf, h1, h4], h5⟩, by simpa [Source.Expr.small] using h3⟩
  | .binary op l r, ctx, oc, e', hc, hs, he => by
    simp only [checkExpr, Bool.and_eq_true] at hc
    simp only [settledE, Bool.and_eq_true, decide_eq_true_eq] at hs
    simp only [elabExpr, Option.bind_eq_some_iff, Option.map_eq_some_iff] at he
    obtain ⟨a, ha, b, hb, rfl⟩ := he
    obtain ⟨⟨t, h1, h2⟩, h3⟩ := elab_typed hS hint l _ none a hc.1.2 hs.1.2 ha
    obtain ⟨⟨u, h4, h5⟩, h6⟩ := elab_typed hS hint r _ none b hc.2 hs.2 hb
    have hops := hs.1.1.1.1
    have hc1 := hc.1.1
    rw [← hops, operandTypes_eq, h1, h4] at hc1
    simp only [reduceCtorEq, or_self, decide_false, Bool.false_or] at hc1
    obtain ⟨hab, q, hq1, hq2⟩ := binary_ok op t u hc1
    subst hab
    refine ⟨⟨q, ?_, ?_⟩, ?_⟩
    · simp only [typeOf, operandTypes_eq, h1, h4, hq1]
    · simp [Source.Expr.ty, h2, h5, hq2]
    · simp [Source.Expr.small, h3, h6]
  | .call f args, ctx, oc, e', hc, hs, he => by
    simp only [elabExpr, Option.bind_eq_some_iff] at he
    obtain ⟨⟨i, ps, r⟩, hf, he⟩ := he
    simp only at he
    split at he
    · simp at he
    next hr =>
    simp only [Option.map_eq_some_iff] at he
    obtain ⟨as, ha, rfl⟩ := he
    obtain ⟨h1, h2, h3, h4⟩ := typeOf_call (hint := hint) hf
    obtain ⟨x, rfl, hx, hv⟩ := fnOf_some hf
    simp only [checkExpr, h1, h2, Bool.and_eq_true, Bool.false_eq_true, if_false] at hc
    simp only [settledE] at hs
    have := elab_args_typed hS hint (.ident x) ps args [] ps as rfl h4 hc.2 (by
      have := hc.1.1
      simp only [argsCompatible, Bool.and_eq_true] at this
      exact this.2) hs ha
    refine ⟨⟨r, h3 _ _, ?_⟩, by simpa [Source.Expr.small] using this.2⟩
    have hrt : retTys r = [r] := by cases r <;> first | rfl | exact absurd rfl hr
    simp [Source.Expr.ty, hS.fn _ _ _ _ hv, hrt, this.1]
  | .cast e t, ctx, oc, e', hc, hs, he => by
    simp only [checkExpr, Bool.and_eq_true, decide_eq_true_eq] at hc
    simp only [settledE] at hs
    simp only [elabExpr, Option.bind_eq_some_iff, Option.map_eq_some_iff] at he
    obtain ⟨t', ht, a, ha, rfl⟩ := he
    obtain ⟨⟨u, h1, h2⟩, h3⟩ := elab_typed hS hint e none none a hc.2 hs ha
    rw [hc.1.2] at ht
    simp only [Option.some.injEq] at ht
    subst ht
    rw [hc.1.1, STy.scalar.injEq] at h1
    subst h1
    exact ⟨⟨.felt, by simp [typeOf, hc.1.2], by simp [Source.Expr.ty, h2]⟩, by simpa [Source.Expr.small] using h3⟩
  | .member .., _, _, _, _, _, he | .index .., _, _, _, _, _, he | .structLit .., _, _, _, _, _, he
  | .tuple _, _, _, _, _, _, he | .tupleIndex .., _, _, _, _, _, he | .array _, _, _, _, _, _, he
  | .arrayRepeat .., _, _, _, _, _, he | .new .., _, _, _, _, _, he => by
    simp [elabExpr] at he
/-- The same for the arguments of a call. -/
theorem elab_args_typed {S : Sem} {env : TEnv} (hS : SemOk S env) (hint : Option Ty) (f : Expr) (all : List Ty) :
    ∀ (es : List Expr) (pre ps : List Ty) (es' : List Source.Expr), all = pre ++ ps →
      (∀ k, argCtx env f k = all[k]?.map .scalar) → checkExprs env hint es = true →
      (List.zipWith (fun p a => compatible (a (some (.scalar p))) (.scalar p)) ps (es.map (typeOf env hint))).all id = true →
      settledAs env hint f es pre.length = true → elabArgs env hint es ps = some es' →
      Source.Expr.tys S es' = some ps ∧ Source.Expr.smalls es' = true
  | [], pre, [], es', _, _, _, _, _, he => by
    simp only [elabArgs, Option.some.injEq] at he
    subst he
    exact ⟨rfl, rfl⟩
  | [], _, _ :: _, _, _, _, _, _, _, he => by simp [elabArgs] at he
  | _ :: _, _, [], _, _, _, _, _, _, he => by simp [elabArgs] at he
  | e :: es, pre, p :: ps, es', hall, hctx, hc, hz, hs, he => by
    simp only [checkExprs, Bool.and_eq_true] at hc
    simp only [settledAs, Bool.and_eq_true] at hs
    simp only [List.map_cons, List.zipWith_cons_cons, List.all_cons, id, Bool.and_eq_true] at hz
    simp only [elabArgs, Option.bind_eq_some_iff, Option.map_eq_some_iff] at he
    obtain ⟨a, ha, as, has, rfl⟩ := he
    have hk : argCtx env f pre.length = some (.scalar p) := by rw [hctx, hall]; simp
    rw [hk] at hs
    obtain ⟨⟨t, h1, h2⟩, h3⟩ := elab_typed hS hint e _ _ a hc.1 hs.1 ha
    have hz1 := hz.1
    rw [h1, compatible_scalar] at hz1
    subst hz1
    have := elab_args_typed hS hint f all es (pre ++ [t]) ps as (by simp [hall]) hctx hc.2 hz.2
      (by simpa using hs.2) has
    exact ⟨by simp [Source.Expr.tys, h2, this.1], by simp [Source.Expr.smalls, h3, this.2]⟩
end

mutual
/-- On a settled expression the lowering of the syntax tree is that of the typed expression. -/
theorem lowerE_eq {S : Sem} {env : TEnv} (hS : SemOk S env) (o : Opts) (hint : Option Ty) :
    ∀ (e : Expr) (ctx oc : Option STy) (e' : Source.Expr) (st : St), checkExpr env hint e = true →
      settledE env hint e ctx oc = true → elabExpr env hint e ctx = some e' →
      lowerE o env hint e oc st = lowerExpr o S e' st
  | .literal n s, ctx, oc, e', st, _, hs, he => by
    simp only [elabExpr] at he
    rcases literalType_scalar hint ctx s with h | h <;> rw [h] at he <;>
      (simp only [Option.some.injEq] at he; subst he; rw [lowerE, lowerExpr])
  | .boolean b, ctx, oc, e', st, _, _, he => by
    simp only [elabExpr, Option.some.injEq] at he
    subst he
    rw [lowerE, lowerExpr]
  | .paren e, ctx, oc, e', st, hc, hs, he => by
    rw [checkExpr] at hc; rw [settledE] at hs; rw [elabExpr] at he
    rw [lowerE]
    exact lowerE_eq hS o hint e ctx none e' st hc hs he
  | .ident x, ctx, oc, e', st, _, _, he => by
    simp only [elabExpr, Option.map_eq_some_iff] at he
    obtain ⟨⟨i, t⟩, hv, rfl⟩ := he
    rw [lowerE, lowerExpr, hv]
    rfl
  | .unary op e, ctx, oc, e', st, hc, hs, he => by
    obtain ⟨⟨t, h1, h2⟩, _⟩ := elab_typed hS hint (.unary op e) ctx oc e' hc hs he
    simp only [checkExpr, Bool.and_eq_true] at hc
    simp only [settledE, Bool.and_eq_true, decide_eq_true_eq, Bool.not_eq_true', decide_eq_false_iff_not] at hs
    simp only [elabExpr, Option.map_eq_some_iff] at he
    obtain ⟨a, ha, rfl⟩ := he
    have hq := hs.1.1.2
    rw [h1] at hq
    rw [lowerE, lowerExpr, hq, h2, lowerE_eq hS o hint e ctx none a st hc.2 hs.2 ha]
    rfl
  | .binary op l r, ctx, oc, e', st, hc, hs, he => by
    obtain ⟨⟨t, h1, h2⟩, _⟩ := elab_typed hS hint (.binary op l r) ctx oc e' hc hs he
    simp only [checkExpr, Bool.and_eq_true] at hc
    simp only [settledE, Bool.and_eq_true, decide_eq_true_eq] at hs
    simp only [elabExpr, Option.bind_eq_some_iff, Option.map_eq_some_iff] at he
    obtain ⟨a, ha, b, hb, rfl⟩ := he
    obtain ⟨⟨u, h4, h5⟩, _⟩ := elab_typed hS hint l _ none a hc.1.2 hs.1.2 ha
    have hq := hs.1.1.2
    rw [h1] at hq
    have hl := hs.1.1.1.2
    rw [h4] at hl
    rw [lowerE, lowerExpr, hq, h2, h5, hl, lowerE_eq hS o hint l _ none a st hc.1.2 hs.1.2 ha]
    simp only [STy.mir, operator, Option.bind_eq_bind, Option.bind_some]
    congr 1
    funext p
    obtain ⟨x, st'⟩ := p
    simp only
    rw [lowerE_eq hS o hint r _ none b st' hc.2 hs.2 hb]
  | .call f args, ctx, oc, e', st, hc, hs, he => by
    obtain ⟨⟨t, h1', h2'⟩, _⟩ := elab_typed hS hint (.call f args) ctx oc e' hc hs he
    simp only [elabExpr, Option.bind_eq_some_iff] at he
    obtain ⟨⟨i, ps, r⟩, hf, he⟩ := he
    simp only at he
    split at he
    · simp at he
    next hr =>
    simp only [Option.map_eq_some_iff] at he
    obtain ⟨as, ha, rfl⟩ := he
    obtain ⟨h1, h2, h3, h4⟩ := typeOf_call (hint := hint) hf
    obtain ⟨x, rfl, hx, hv⟩ := fnOf_some hf
    simp only [checkExpr, h1, h2, Bool.and_eq_true, Bool.false_eq_true, if_false] at hc
    simp only [settledE] at hs
    rw [h3, STy.scalar.injEq] at h1'
    subst h1'
    have := fun st => lowerAs_eq hS o hint (.ident x) ps args [] ps as st rfl h4 hc.2 hs ha
    simp only [List.length_nil] at this
    rw [lowerE, lowerExpr, hf, h2', hS.fn _ _ _ _ hv, this]
    simp [hr]
  | .cast e t, ctx, oc, e', st, hc, hs, he => by
    simp only [checkExpr, Bool.and_eq_true, decide_eq_true_eq] at hc
    simp only [settledE] at hs
    simp only [elabExpr, Option.bind_eq_some_iff, Option.map_eq_some_iff] at he
    obtain ⟨t', ht, a, ha, rfl⟩ := he
    obtain ⟨⟨u, h1, h2⟩, h3⟩ := elab_typed hS hint e none none a hc.2 hs ha
    rw [lowerE, lowerExpr, h1, h2, ht, lowerE_eq hS o hint e none none a st hc.2 hs ha]
    rfl
  | .member .., _, _, _, _, _, _, he | .index .., _, _, _, _, _, _, he | .structLit .., _, _, _, _, _, _, he
  | .tuple _, _, _, _, _, _, _, he | .tupleIndex .., _, _, _, _, _, _, he | .array _, _, _, _, _, _, _, he
  | .arrayRepeat .., _, _, _, _, _, _, he | .new .., _, _, _, _, _, _, he => by
    simp [elabExpr] at he
/-- The same for the arguments of a call. -/
theorem lowerAs_eq {S : Sem} {env : TEnv} (hS : SemOk S env) (o : Opts) (hint : Option Ty) (f : Expr) (all : List Ty) :
    ∀ (es : List Expr) (pre ps : List Ty) (es' : List Source.Expr) (st : St), all = pre ++ ps →
      (∀ k, argCtx env f k = all[k]?.map .scalar) → checkExprs env hint es = true →
      settledAs env hint f es pre.length = true → elabArgs env hint es ps = some es' →
      lowerAs o env hint f es pre.length st = lowerArgs o S es' st
  | [], pre, [], es', st, _, _, _, _, he => by
    simp only [elabArgs, Option.some.injEq] at he
    subst he
    rw [lowerAs, lowerArgs]
  | [], _, _ :: _, _, _, _, _, _, _, he => by simp [elabArgs] at he
  | _ :: _, _, [], _, _, _, _, _, _, he => by simp [elabArgs] at he
  | e :: es, pre, p :: ps, es', st, hall, hctx, hc, hs, he => by
    simp only [checkExprs, Bool.and_eq_true] at hc
    simp only [settledAs, Bool.and_eq_true] at hs
    simp only [elabArgs, Option.bind_eq_some_iff, Option.map_eq_some_iff] at he
    obtain ⟨a, ha, as, has, rfl⟩ := he
    have hk : argCtx env f pre.length = some (.scalar p) := by rw [hctx, hall]; simp
    rw [hk] at hs
    have := fun st => lowerAs_eq hS o hint f all es (pre ++ [p]) ps as st (by simp [hall]) hctx hc.2
      (by simpa using hs.2) has
    simp only [List.length_append, List.length_cons, List.length_nil, Nat.zero_add] at this
    rw [lowerAs, lowerArgs, hk, lowerE_eq hS o hint e _ _ a st hc.1 hs.1 ha]
    simp only [this]
end

end CairoM.Syntax
