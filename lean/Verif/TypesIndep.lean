import Verif.Types

/-!
# C82: what the checks of a function depend on

The specification: the names an expression or statement mentions, and the signature a name has in a file, which is that
of the last function with this name.
-/

namespace CairoM.Syntax

open Lang

mutual
/-- The names an expression mentions. -/
def Expr.mentions : Expr → List String
  | .ident x => [x]
  | .paren e | .unary _ e | .cast e _ => e.mentions
  | .binary _ l r => l.mentions ++ r.mentions
  | .call f args => f.mentions ++ Expr.mentionsAll args
  | _ => []
/-- The same for a list. -/
def Expr.mentionsAll : List Expr → List String
  | [] => []
  | e :: es => e.mentions ++ Expr.mentionsAll es
end

mutual
/-- The names a statement mentions. -/
def Stmt.mentions : Stmt → List String
  | .let_ _ _ e | .expr e | .return_ (some e) => e.mentions
  | .assign l r => l.mentions ++ r.mentions
  | .if_ c t none => c.mentions ++ t.mentions
  | .if_ c t (some e) => c.mentions ++ t.mentions ++ e.mentions
  | .block ss => Stmt.mentionsAll ss
  | .loop_ b => b.mentions
  | .while_ c b => c.mentions ++ b.mentions
  | .for_ i c st b => i.mentions ++ c.mentions ++ st.mentions ++ b.mentions
  | _ => []
/-- The same for a list. -/
def Stmt.mentionsAll : List Stmt → List String
  | [] => []
  | t :: ts => t.mentions ++ Stmt.mentionsAll ts
end

/-- The signature of a name in a file. -/
def signatureOf (fs : List TFn) (x : String) : Option (List Ty × Ty) :=
  ((fs.filter fun f => f.name == x).getLast?).map fun f => (f.paramTys, f.ret)

/-- The checks accept function `f` in a file. -/
def accepts (fs : List TFn) (f : TFn) : Bool :=
  checkStmts (firstRet fs) f.ret f.body (declareParams f.params (fileScope fs))

/-- The type does not depend on a context: no literal without suffix decides it. -/
def fixed : Expr → Bool
  | .literal _ s => s == some "u32" || s == some "felt"
  | .paren e | .unary _ e => fixed e
  | .binary op l r => if literalFirst op l r then fixed r else fixed l
  | _ => true

mutual
/-- The types of the returned expressions do not depend on a context. -/
def fixedS : Stmt → Bool
  | .return_ (some e) => fixed e
  | .if_ _ t none => fixedS t
  | .if_ _ t (some e) => fixedS t && fixedS e
  | .block ss => fixedSs ss
  | .loop_ b | .while_ _ b => fixedS b
  | .for_ i _ st b => fixedS i && fixedS st && fixedS b
  | _ => true
/-- The same for a list. -/
def fixedSs : List Stmt → Bool
  | [] => true
  | t :: ts => fixedS t && fixedSs ts
end

/-! ### Types of expressions -/

/-- An entry without its number. -/
def Entry.view : Entry → Entry
  | .var _ t => .var 0 t
  | .fn _ ps r => .fn 0 ps r

/-- Two environments have the same entries, up to numbers, for the names in `P`. -/
def SameView (P : String → Prop) (e e' : TEnv) : Prop := ∀ x, P x → (e x).map Entry.view = (e' x).map Entry.view

theorem view_ty {a b : Entry} (h : a.view = b.view) : a.ty = b.ty := by
  cases a <;> cases b <;> simp_all [Entry.view, Entry.ty]

theorem nameType_agree {P e e'} (h : SameView P e e') {x : String} (hx : P x) : nameType e x = nameType e' x := by
  have := h x hx
  unfold nameType
  split
  · rfl
  · cases h1 : e x <;> cases h2 : e' x <;> simp only [h1, h2, Option.map_none, Option.map_some, reduceCtorEq] at this ⊢
    exact view_ty (Option.some.inj this)

theorem argCtx_agree {P e e'} (h : SameView P e e') {f : Expr} (hf : ∀ x ∈ f.mentions, P x) (i : Nat) :
    argCtx e f i = argCtx e' f i := by
  cases f with
  | ident x =>
    have := h x (hf x (by simp [Expr.mentions]))
    simp only [argCtx]
    cases h1 : e x with
    | none => cases h2 : e' x <;> simp_all
    | some a =>
      cases h2 : e' x with
      | none => simp_all
      | some b => cases a <;> cases b <;> simp_all [Entry.view]
  | _ => simp only [argCtx]

theorem typeOf_agree {P e e'} (h : SameView P e e') (hint : Option Ty) :
    ∀ (a : Expr), (∀ x ∈ a.mentions, P x) → ∀ ctx, typeOf e hint a ctx = typeOf e' hint a ctx
  | .ident x, hm, ctx => by
    rw [typeOf, typeOf]
    exact nameType_agree h (hm x (by simp [Expr.mentions]))
  | .paren a, hm, ctx => by
    rw [typeOf, typeOf]
    exact typeOf_agree h hint a (by simpa [Expr.mentions] using hm) ctx
  | .unary op a, hm, ctx => by
    rw [typeOf, typeOf, typeOf_agree h hint a (by simpa [Expr.mentions] using hm) ctx]
  | .binary op l r, hm, ctx => by
    simp only [Expr.mentions, List.mem_append] at hm
    have hl := typeOf_agree h hint l (fun x hx => hm x (.inl hx))
    have hr := typeOf_agree h hint r (fun x hx => hm x (.inr hx))
    simp only [typeOf, funext hl, funext hr]
  | .call f args, hm, ctx => by
    simp only [Expr.mentions, List.mem_append] at hm
    have hf := typeOf_agree h hint f (fun x hx => hm x (.inl hx)) none
    simp only [typeOf, hf]
  | .literal .., _, _ | .boolean _, _, _ | .cast .., _, _ | .member .., _, _ | .index .., _, _ | .structLit .., _, _
  | .tuple _, _, _ | .tupleIndex .., _, _ | .array _, _, _ | .arrayRepeat .., _, _ | .new .., _, _ => by simp only [typeOf]

theorem types_agree {P e e'} (h : SameView P e e') (hint : Option Ty) :
    ∀ as : List Expr, (∀ x ∈ Expr.mentionsAll as, P x) → as.map (typeOf e hint) = as.map (typeOf e' hint)
  | [], _ => rfl
  | a :: as, hm => by
    simp only [Expr.mentionsAll, List.mem_append] at hm
    simp only [List.map_cons]
    rw [funext (typeOf_agree h hint a (fun x hx => hm x (.inl hx))), types_agree h hint as (fun x hx => hm x (.inr hx))]

mutual
theorem checkExpr_agree {P e e'} (h : SameView P e e') (hint : Option Ty) :
    ∀ (a : Expr), (∀ x ∈ a.mentions, P x) → checkExpr e hint a = checkExpr e' hint a
  | .ident x, hm => by
    have := h x (hm x (by simp [Expr.mentions]))
    rw [checkExpr, checkExpr]
    cases h1 : e x <;> cases h2 : e' x <;> simp_all
  | .paren a, hm => by
    rw [checkExpr, checkExpr]
    exact checkExpr_agree h hint a (by simpa [Expr.mentions] using hm)
  | .unary op a, hm => by
    have hm : ∀ x ∈ a.mentions, P x := by simpa [Expr.mentions] using hm
    simp only [checkExpr, typeOf_agree h hint a hm, checkExpr_agree h hint a hm]
  | .binary op l r, hm => by
    simp only [Expr.mentions, List.mem_append] at hm
    have hml := fun x hx => hm x (.inl hx)
    have hmr := fun x hx => hm x (.inr hx)
    simp only [checkExpr, funext (typeOf_agree h hint l hml), funext (typeOf_agree h hint r hmr),
      checkExpr_agree h hint l hml, checkExpr_agree h hint r hmr]
  | .call f args, hm => by
    simp only [Expr.mentions, List.mem_append] at hm
    have hmf := fun x hx => hm x (.inl hx)
    have hma := fun x hx => hm x (.inr hx)
    simp only [checkExpr, typeOf_agree h hint f hmf, checkExpr_agree h hint f hmf, checkExprs_agree h hint args hma,
      types_agree h hint args hma]
    cases args with
    | nil => rfl
    | cons a as =>
      simp only [Expr.mentionsAll, List.mem_append] at hma
      simp only [argCtx_agree h hmf, typeOf_agree h hint a (fun x hx => hma x (.inl hx))]
  | .cast a t, hm => by
    have hm : ∀ x ∈ a.mentions, P x := by simpa [Expr.mentions] using hm
    simp only [checkExpr, typeOf_agree h hint a hm, checkExpr_agree h hint a hm]
  | .literal .., _ | .boolean _, _ | .member .., _ | .index .., _ | .structLit .., _
  | .tuple _, _ | .tupleIndex .., _ | .array _, _ | .arrayRepeat .., _ | .new .., _ => by simp only [checkExpr]
theorem checkExprs_agree {P e e'} (h : SameView P e e') (hint : Option Ty) :
    ∀ (as : List Expr), (∀ x ∈ Expr.mentionsAll as, P x) → checkExprs e hint as = checkExprs e' hint as
  | [], _ => rfl
  | a :: as, hm => by
    simp only [Expr.mentionsAll, List.mem_append] at hm
    simp only [checkExprs, checkExpr_agree h hint a (fun x hx => hm x (.inl hx)),
      checkExprs_agree h hint as (fun x hx => hm x (.inr hx))]
end

theorem fixed_type {e : TEnv} {hint : Option Ty} (c c' : Option STy) :
    ∀ a : Expr, fixed a = true → typeOf e hint a c = typeOf e hint a c'
  | .literal n s, h => by
    simp only [fixed, Bool.or_eq_true, beq_iff_eq] at h
    rcases h with rfl | rfl <;> simp [typeOf, literalType]
  | .paren a, h => by
    rw [typeOf, typeOf]
    exact fixed_type c c' a (by simpa [fixed] using h)
  | .unary op a, h => by
    rw [typeOf, typeOf, fixed_type c c' a (by simpa [fixed] using h)]
  | .binary op l r, h => by
    simp only [fixed] at h
    simp only [typeOf, operandTypes]
    split
    · next hf =>
      rw [if_pos hf] at h
      rw [fixed_type c c' r h]
    · next hf =>
      rw [if_neg hf] at h
      rw [fixed_type c c' l h]
  | .boolean _, _ | .ident _, _ | .call .., _ | .cast .., _ | .member .., _ | .index .., _ | .structLit .., _
  | .tuple _, _ | .tupleIndex .., _ | .array _, _ | .arrayRepeat .., _ | .new .., _ => by simp only [typeOf]

/-! ### Statements -/

theorem letType_agree {P e e'} (h : SameView P e e') (ty : Option TypeExpr) {a : Expr} (hm : ∀ x ∈ a.mentions, P x) :
    letType e ty a = letType e' ty a := by
  cases ty with
  | none => exact typeOf_agree h none a hm none
  | some t => rfl

theorem declare_agree {P} {s s' : Scope} (h : SameView P s.env s'.env) (x : String) (t : STy) :
    SameView P (s.declare x t).env (s'.declare x t).env := by
  intro y hy
  simp only [Scope.declare]
  split
  · rfl
  · exact h y hy

mutual
theorem after_agree {P} :
    ∀ (t : Stmt) (s s' : Scope), SameView P s.env s'.env → (∀ x ∈ t.mentions, P x) →
      SameView P (afterStmt t s).env (afterStmt t s').env
  | .let_ p ty a, s, s', h, hm => by
    have hm : ∀ x ∈ a.mentions, P x := by simpa [Stmt.mentions] using hm
    cases p with
    | ident x =>
      simp only [afterStmt, letType_agree h ty hm]
      exact declare_agree h x _
    | tuple _ => simpa only [afterStmt] using h
  | .if_ c t none, s, s', h, hm => by simpa only [afterStmt, Scope.leave] using h
  | .if_ c t (some a), s, s', h, hm => by simpa only [afterStmt, Scope.leave] using h
  | .block ss, s, s', h, hm => by simpa only [afterStmt, Scope.leave] using h
  | .loop_ b, s, s', h, hm => by simpa only [afterStmt, Scope.leave] using h
  | .while_ c b, s, s', h, hm => by simpa only [afterStmt, Scope.leave] using h
  | .for_ i c st b, s, s', h, hm => by simpa only [afterStmt, Scope.leave] using h
  | .assign .., s, s', h, hm => by simpa only [afterStmt] using h
  | .return_ _, s, s', h, hm => by simpa only [afterStmt] using h
  | .const _, s, s', h, hm => by simpa only [afterStmt] using h
  | .break_, s, s', h, hm => by simpa only [afterStmt] using h
  | .continue_, s, s', h, hm => by simpa only [afterStmt] using h
  | .expr _, s, s', h, hm => by simpa only [afterStmt] using h
end

mutual
theorem checkStmt_agree {P} (first first' : Option Ty) (ret : Ty) :
    ∀ (t : Stmt) (s s' : Scope), SameView P s.env s'.env → (∀ x ∈ t.mentions, P x) →
      (first = first' ∨ fixedS t = true) → checkStmt first ret t s = checkStmt first' ret t s'
  | .let_ p ty a, s, s', h, hm, hf => by
    have hm : ∀ x ∈ a.mentions, P x := by simpa [Stmt.mentions] using hm
    simp only [checkStmt, checkExpr_agree h _ a hm, typeOf_agree h _ a hm]
  | .const _, s, s', h, hm, hf => by simp only [checkStmt]
  | .break_, s, s', h, hm, hf => by simp only [checkStmt]
  | .continue_, s, s', h, hm, hf => by simp only [checkStmt]
  | .assign l r, s, s', h, hm, hf => by
    simp only [Stmt.mentions, List.mem_append] at hm
    have hml := fun x hx => hm x (.inl hx)
    have hmr := fun x hx => hm x (.inr hx)
    simp only [checkStmt, checkExpr_agree h _ l hml, typeOf_agree h _ l hml, checkExpr_agree h _ r hmr, typeOf_agree h _ r hmr]
  | .return_ none, s, s', h, hm, hf => by simp only [checkStmt]
  | .return_ (some a), s, s', h, hm, hf => by
    have hm : ∀ x ∈ a.mentions, P x := by simpa [Stmt.mentions] using hm
    simp only [checkStmt, checkExpr_agree h _ a hm, typeOf_agree h _ a hm]
    rcases hf with rfl | hf
    · rfl
    · rw [fixed_type _ (first'.map .scalar) a (by simpa [fixedS] using hf)]
  | .expr a, s, s', h, hm, hf => by
    have hm : ∀ x ∈ a.mentions, P x := by simpa [Stmt.mentions] using hm
    simp only [checkStmt, checkExpr_agree h _ a hm]
  | .if_ c t none, s, s', h, hm, hf => by
    simp only [Stmt.mentions, List.mem_append] at hm
    have hmc := fun x hx => hm x (.inl hx)
    simp only [fixedS] at hf
    simp only [checkStmt, checkExpr_agree h _ c hmc, typeOf_agree h _ c hmc,
      checkStmt_agree first first' ret t s s' h (fun x hx => hm x (.inr hx)) hf]
  | .if_ c t (some a), s, s', h, hm, hf => by
    simp only [Stmt.mentions, List.mem_append] at hm
    have hmc := fun x hx => hm x (.inl (.inl hx))
    simp only [fixedS, Bool.and_eq_true] at hf
    simp only [checkStmt, checkExpr_agree h _ c hmc, typeOf_agree h _ c hmc,
      checkStmt_agree first first' ret t s s' h (fun x hx => hm x (.inl (.inr hx))) (hf.imp id (·.1)),
      checkStmt_agree first first' ret a (s.leave (afterStmt t s)) (s'.leave (afterStmt t s')) h
        (fun x hx => hm x (.inr hx)) (hf.imp id (·.2))]
  | .block ss, s, s', h, hm, hf => by
    rw [checkStmt, checkStmt]
    exact checkStmts_agree first first' ret ss s s' h (by simpa [Stmt.mentions] using hm) (by simpa [fixedS] using hf)
  | .loop_ b, s, s', h, hm, hf => by
    rw [checkStmt, checkStmt]
    exact checkStmt_agree first first' ret b s s' h (by simpa [Stmt.mentions] using hm) (by simpa [fixedS] using hf)
  | .while_ c b, s, s', h, hm, hf => by
    simp only [Stmt.mentions, List.mem_append] at hm
    have hmc := fun x hx => hm x (.inl hx)
    simp only [fixedS] at hf
    simp only [checkStmt, checkExpr_agree h _ c hmc, typeOf_agree h _ c hmc,
      checkStmt_agree first first' ret b s s' h (fun x hx => hm x (.inr hx)) hf]
  | .for_ i c st b, s, s', h, hm, hf => by
    simp only [Stmt.mentions, List.mem_append] at hm
    have hmi := fun x hx => hm x (.inl (.inl (.inl hx)))
    have hmc := fun x hx => hm x (.inl (.inl (.inr hx)))
    have hms := fun x hx => hm x (.inl (.inr hx))
    have hmb := fun x hx => hm x (.inr hx)
    simp only [fixedS, Bool.and_eq_true] at hf
    have h1 := after_agree i s s' h hmi
    have h2 := after_agree b _ _ h1 hmb
    simp only [checkStmt, checkExpr_agree h1 _ c hmc, typeOf_agree h1 _ c hmc,
      checkStmt_agree first first' ret i s s' h hmi (hf.imp id (·.1.1)),
      checkStmt_agree first first' ret b _ _ h1 hmb (hf.imp id (·.2)),
      checkStmt_agree first first' ret st _ _ h2 hms (hf.imp id (·.1.2))]
theorem checkStmts_agree {P} (first first' : Option Ty) (ret : Ty) :
    ∀ (ts : List Stmt) (s s' : Scope), SameView P s.env s'.env → (∀ x ∈ Stmt.mentionsAll ts, P x) →
      (first = first' ∨ fixedSs ts = true) → checkStmts first ret ts s = checkStmts first' ret ts s'
  | [], _, _, _, _, _ => by simp only [checkStmts]
  | t :: ts, s, s', h, hm, hf => by
    simp only [Stmt.mentionsAll, List.mem_append] at hm
    simp only [fixedSs, Bool.and_eq_true] at hf
    have hmt := fun x hx => hm x (.inl hx)
    simp only [checkStmts, checkStmt_agree first first' ret t s s' h hmt (hf.imp id (·.1)),
      checkStmts_agree first first' ret ts _ _ (after_agree t s s' h hmt) (fun x hx => hm x (.inr hx)) (hf.imp id (·.2))]
end

/-! ### Files -/

theorem params_agree {P} : ∀ (ps : List (String × Ty)) (s s' : Scope), SameView P s.env s'.env →
    SameView P (declareParams ps s).env (declareParams ps s').env
  | [], _, _, h => h
  | p :: ps, _, _, h => params_agree ps _ _ (declare_agree h p.1 _)

theorem declareFns_view (x : String) : ∀ (fs : List TFn) (n : Nat) (s : Scope),
    ((declareFns n fs s).env x).map Entry.view =
      match signatureOf fs x with
      | some (ps, r) => some (.fn 0 ps r)
      | none => (s.env x).map Entry.view
  | [], n, s => by simp [declareFns, signatureOf]
  | f :: fs, n, s => by
    simp only [declareFns]
    rw [declareFns_view x fs (n + 1)]
    simp only [signatureOf, List.filter_cons]
    by_cases hx : f.name = x
    · subst hx
      cases hl : (fs.filter fun g => g.name == f.name) with
      | nil => simp [Entry.view]
      | cons g gs =>
        obtain ⟨y, hy⟩ : ∃ y, (g :: gs).getLast? = some y := ⟨_, List.getLast?_eq_some_getLast (by simp)⟩
        simp [hy, List.getLast?_cons_cons]
    · simp [hx, Ne.symm hx]

theorem checkFns_all (first : Option Ty) (s0 : Scope) : ∀ (fs : List TFn) (s : Scope), s.env = s0.env →
    checkFns first fs s = fs.all fun f => checkStmts first f.ret f.body (declareParams f.params s0)
  | [], s, h => by simp [checkFns]
  | f :: fs, s, h => by
    have hag : SameView (fun _ => True) s.env s0.env := fun x _ => by rw [h]
    simp only [checkFns, List.all_cons]
    rw [checkFns_all first s0 fs (afterFn f s) (by simpa only [afterFn, Scope.leave] using h),
      checkStmts_agree first first f.ret f.body _ _ (params_agree f.params s s0 hag) (fun _ _ => trivial) (.inl rfl)]

/-! ### C82 -/

/-- A file is accepted if every function in it is. -/
theorem C82_each (fs : List TFn) : typeChecks fs = fs.all (accepts fs) := checkFns_all _ _ fs _ rfl

/-- **C82 (partial).** Two files that give the same signature to every name a function mentions agree on whether the
function is accepted. Partial: the files have first functions with the same return type, or no literal without suffix
decides the type of a returned expression; see `C82_violated`. -/
theorem C82_independent_partial (fs fs' : List TFn) (f : TFn)
    (hsig : ∀ x ∈ Stmt.mentionsAll f.body, signatureOf fs x = signatureOf fs' x)
    (hret : firstRet fs = firstRet fs' ∨ fixedSs f.body = true) : accepts fs f = accepts fs' f := by
  refine checkStmts_agree (P := (· ∈ Stmt.mentionsAll f.body)) _ _ f.ret f.body _ _ (params_agree _ _ _ ?_)
    (fun _ h => h) hret
  intro x hx
  simp only [fileScope, declareFns_view, hsig x hx]

/-- `fn f() -> u32 { return 5; }` -/
private def five : TFn := ⟨"f", [], .u32, [.return_ (some (.literal 5 none))]⟩

/-- `fn g(b: bool) -> felt { return 1felt; }` -/
private def other : TFn := ⟨"g", [("b", .bool)], .felt, [.return_ (some (.literal 1 (some "felt")))]⟩

/-- **C82 (violated).** The function `five` is accepted alone and before `other`, and rejected after it, although it
mentions no name: the return type of the first function in the file decides the type of the returned literal. -/
theorem C82_violated : accepts [five] five = true ∧ typeChecks [five, other] = true ∧
    accepts [other, five] five = false ∧ typeChecks [other, five] = false ∧ Stmt.mentionsAll five.body = [] := by
  decide +kernel

/-- `fn h(b: bool) -> bool { let x: felt = 3; return 3 + x == g(b); }` -/
private def user : TFn :=
  ⟨"h", [("b", .bool)], .bool, [.let_ (.ident "x") (some (.named .felt)) (.literal 3 none),
    .return_ (some (.binary .eq (.binary .add (.literal 3 none) (.ident "x")) (.call (.ident "g") [.ident "b"])))]⟩

example : fixedSs user.body = true ∧ Stmt.mentionsAll user.body = ["x", "g", "b"] ∧
    accepts [user, other] user = true ∧ signatureOf [user, other] "g" = signatureOf [five, other, user] "g" := by
  decide +kernel

example : accepts [five, other, user] user = true := by
  rw [← C82_independent_partial [user, other] [five, other, user] user (by decide +kernel) (.inr (by decide +kernel))]
  decide +kernel

end CairoM.Syntax
