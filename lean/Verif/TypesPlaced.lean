import Verif.TypesStmt

/-!
# Where literals without suffix are safe

A condition on the text of a program under which the lowering sees the types of the checks: a literal without suffix
stands alone, or as the right operand of an operator, as an argument, as the right side of an assignment, as a returned
value, or anywhere in a `let` annotated with `felt` or `u32`; but not as the left operand where the context could decide
its type.
-/

namespace CairoM.Syntax

open Lang Mir Source Lower

/-- An integer literal, perhaps in parentheses. -/
def Expr.number : Expr → Bool
  | .literal .. => true
  | .paren e => e.number
  | _ => false

mutual
/-- The type does not depend on the context. With `h` the literals get their type from the annotation of a `let`. -/
def firm (h : Bool) : Expr → Bool
  | .literal _ s => h || s == some "u32" || s == some "felt"
  | .paren e | .unary _ e => firm h e
  | .binary _ l r => firm h l && (firm h r || r.number)
  | .call _ args => firmArgs h args
  | .cast e _ => free h e
  | _ => true
/-- Every argument is a literal, or its type does not depend on the context. -/
def firmArgs (h : Bool) : List Expr → Bool
  | [] => true
  | e :: es => (firm h e || e.number) && firmArgs h es
/-- An expression in a place without a context. -/
def free (h : Bool) : Expr → Bool
  | .paren e | .unary _ e | .cast e _ => free h e
  | .binary op l r => (h || !literalFirst op l r) && free h l && (firm h r || r.number)
  | .call _ args => firmArgs h args
  | _ => true
end

/-- An expression in a place with a context. -/
def placed (e : Expr) : Bool := firm false e || e.number

/-- The annotation is `felt` or `u32`. -/
def isNumber : Option Ty → Bool
  | some .felt | some .u32 => true
  | _ => false

mutual
/-- The literals of a statement are in safe places. -/
def placedS : Stmt → Bool
  | .let_ _ ty e => free (isNumber (hintOf ty)) e
  | .assign _ e | .return_ (some e) => placed e
  | .expr e => free false e
  | .if_ c t none => placed c && placedS t
  | .if_ c t (some e) => placed c && placedS t && placedS e
  | .block ss => placedSs ss
  | .loop_ b => placedS b
  | .while_ c b => placed c && placedS b
  | .for_ i c st b => placedS i && placed c && placedS b && placedS st
  | _ => true
/-- The same for a list. -/
def placedSs : List Stmt → Bool
  | [] => true
  | t :: ts => placedS t && placedSs ts
end

mutual
/-- Literals are below `2^32` and unary minus is not applied to `u32`. -/
def tameE (env : TEnv) (hint : Option Ty) : Expr → Bool
  | .literal n _ => decide (n < 2 ^ 32)
  | .paren e | .cast e _ => tameE env hint e
  | .unary op e => !decide (op = .neg ∧ typeOf env hint e none = .scalar .u32) && tameE env hint e
  | .binary _ l r => tameE env hint l && tameE env hint r
  | .call _ args => tameEs env hint args
  | _ => true
/-- The same for a list. -/
def tameEs (env : TEnv) (hint : Option Ty) : List Expr → Bool
  | [] => true
  | e :: es => tameE env hint e && tameEs env hint es
end

mutual
/-- The same for the expressions of a statement. -/
def tameS : Stmt → Scope → Bool
  | .let_ _ ty e, s => tameE s.env (hintOf ty) e
  | .assign _ e, s | .return_ (some e), s | .expr e, s => tameE s.env none e
  | .if_ c t none, s => tameE s.env none c && tameS t s
  | .if_ c t (some e), s => tameE s.env none c && tameS t s && tameS e (s.leave (afterStmt t s))
  | .block ss, s => tameSs ss s
  | .loop_ b, s => tameS b s
  | .while_ c b, s => tameE s.env none c && tameS b s
  | .for_ i c st b, s =>
    tameS i s && tameE (afterStmt i s).env none c && tameS b (afterStmt i s) && tameS st (afterStmt b (afterStmt i s))
  | _, _ => true
/-- The same for a list. -/
def tameSs : List Stmt → Scope → Bool
  | [], _ => true
  | t :: ts, s => tameS t s && tameSs ts (afterStmt t s)
end

/-- The same for the functions of a file. -/
def tameFs : List TFn → Scope → Bool
  | [], _ => true
  | f :: fs, s => tameSs f.body (declareParams f.params s) && tameFs fs (afterFn f s)

/-! ### Such expressions are settled -/

theorem literal_hint {hint : Option Ty} (h : isNumber hint = true) (s : Option String) (c : Option STy) :
    literalType hint c s = literalType hint none s := by
  unfold literalType
  split <;> try rfl
  cases hint with
  | none => simp [isNumber] at h
  | some t => cases t <;> simp_all [isNumber]

theorem number_type {env : TEnv} {hint : Option Ty} (h : isNumber hint = true) (c : Option STy) :
    ∀ e : Expr, e.number = true → typeOf env hint e c = typeOf env hint e none
  | .literal n s, _ => by rw [typeOf, typeOf, literal_hint h]
  | .paren e, hn => by rw [typeOf, typeOf]; exact number_type h c e hn
  | .boolean _, hn | .ident _, hn | .unary .., hn | .binary .., hn | .call .., hn | .member .., hn | .index .., hn
  | .structLit .., hn | .tuple _, hn | .tupleIndex .., hn | .array _, hn | .arrayRepeat .., hn | .cast .., hn
  | .new .., hn => by simp [Expr.number] at hn

theorem firm_type {env : TEnv} {hint : Option Ty} {h : Bool} (hh : h = true → isNumber hint = true) (c : Option STy) :
    ∀ e : Expr, firm h e = true → typeOf env hint e c = typeOf env hint e none
  | .literal n s, hf => by
    simp only [firm, Bool.or_eq_true, beq_iff_eq] at hf
    rw [typeOf, typeOf]
    rcases hf with (hf | rfl) | rfl
    · exact literal_hint (hh hf) _ _
    · rfl
    · rfl
  | .paren e, hf => by
    rw [typeOf, typeOf]
    exact firm_type hh c e (by simpa [firm] using hf)
  | .unary op e, hf => by
    rw [typeOf, typeOf, firm_type hh c e (by simpa [firm] using hf)]
  | .binary op l r, hf => by
    simp only [firm, Bool.and_eq_true, Bool.or_eq_true] at hf
    have hl := fun c => firm_type (env := env) hh c l hf.1
    simp only [typeOf, operandTypes]
    split
    · next hlf =>
      have hb : l.bare = true := by
        simp only [literalFirst, Bool.and_eq_true] at hlf
        exact hlf.1.2
      have hn : isNumber hint = true := by
        refine hh ?_
        cases l with
        | literal n s =>
          cases s with
          | none => simpa [firm] using hf.1
          | some s => simp [Expr.bare] at hb
        | _ => simp [Expr.bare] at hb
      have hr : typeOf env hint r c = typeOf env hint r none := by
        rcases hf.2 with h2 | h2
        · exact firm_type hh c r h2
        · exact number_type hn c r h2
      rw [hr, hl]
    · rw [hl c]
  | .boolean _, _ => by rw [typeOf, typeOf]
  | .ident _, _ => by rw [typeOf, typeOf]
  | .call f args, _ => by rw [typeOf, typeOf]
  | .cast e t, _ => by rw [typeOf, typeOf]
  | .member .., _ | .index .., _ | .structLit .., _ | .tuple _, _ | .tupleIndex .., _ | .array _, _
  | .arrayRepeat .., _ | .new .., _ => by simp only [typeOf]

theorem settled_number {env : TEnv} {hint : Option Ty} :
    ∀ (e : Expr) (c oc : Option STy), e.number = true → tameE env hint e = true → settledE env hint e c oc = true
  | .literal n s, c, oc, _, ht => by simpa [settledE, tameE] using ht
  | .paren e, c, oc, hn, ht => by
    rw [settledE]
    exact settled_number e c none hn (by simpa [tameE] using ht)
  | .boolean _, _, _, hn, _ | .ident _, _, _, hn, _ | .unary .., _, _, hn, _ | .binary .., _, _, hn, _ | .call .., _, _, hn, _
  | .member .., _, _, hn, _ | .index .., _, _, hn, _ | .structLit .., _, _, hn, _ | .tuple _, _, _, hn, _
  | .tupleIndex .., _, _, hn, _ | .array _, _, _, hn, _ | .arrayRepeat .., _, _, hn, _ | .cast .., _, _, hn, _
  | .new .., _, _, hn, _ => by simp [Expr.number] at hn

mutual
theorem settled_firm {env : TEnv} {hint : Option Ty} {h : Bool} (hh : h = true → isNumber hint = true) :
    ∀ (e : Expr) (c oc : Option STy), firm h e = true → tameE env hint e = true → settledE env hint e c oc = true
  | .literal n s, c, oc, _, ht => by simpa [settledE, tameE] using ht
  | .paren e, c, oc, hf, ht => by
    rw [settledE]
    exact settled_firm hh e c none (by simpa [firm] using hf) (by simpa [tameE] using ht)
  | .unary op e, c, oc, hf, ht => by
    have hfe : firm h e = true := by simpa [firm] using hf
    simp only [tameE, Bool.and_eq_true] at ht
    simp only [settledE, Bool.and_eq_true, decide_eq_true_eq]
    refine ⟨⟨⟨firm_type hh c e hfe, ?_⟩, ht.1⟩, settled_firm hh e c none hfe ht.2⟩
    rw [firm_type hh oc _ hf, firm_type hh c _ hf]
  | .binary op l r, c, oc, hf, ht => by
    have hnode := fun c => firm_type (env := env) hh c _ hf
    simp only [firm, Bool.and_eq_true, Bool.or_eq_true] at hf
    simp only [tameE, Bool.and_eq_true] at ht
    have hl := fun c => firm_type (env := env) hh c l hf.1
    simp only [settledE, Bool.and_eq_true, decide_eq_true_eq]
    refine ⟨⟨⟨⟨?_, (hl _).symm⟩, by rw [hnode oc, hnode c]⟩, settled_firm hh l _ none hf.1 ht.1⟩, ?_⟩
    · simp only [operandTypes]
      split
      · next hlf =>
        have hb : l.bare = true := by
          simp only [literalFirst, Bool.and_eq_true] at hlf
          exact hlf.1.2
        have hn : isNumber hint = true := by
          refine hh ?_
          cases l with
          | literal n s =>
            cases s with
            | none => simpa [firm] using hf.1
            | some s => simp [Expr.bare] at hb
          | _ => simp [Expr.bare] at hb
        have hr : typeOf env hint r c = typeOf env hint r none := by
          rcases hf.2 with h2 | h2
          · exact firm_type hh c r h2
          · exact number_type hn c r h2
        rw [hr, hl]
      · rw [hl c]
    · rcases hf.2 with h2 | h2
      · exact settled_firm hh r _ none h2 ht.2
      · exact settled_number r _ none h2 ht.2
  | .call f args, c, oc, hf, ht => by
    rw [settledE]
    exact settled_args hh f args 0 (by simpa [firm] using hf) (by simpa [tameE] using ht)
  | .cast e t, c, oc, hf, ht => by
    rw [settledE]
    exact settled_free hh e (by simpa [firm] using hf) (by simpa [tameE] using ht)
  | .boolean _, _, _, _, _ | .ident _, _, _, _, _ | .member .., _, _, _, _ | .index .., _, _, _, _ | .structLit .., _, _, _, _
  | .tuple _, _, _, _, _ | .tupleIndex .., _, _, _, _ | .array _, _, _, _, _ | .arrayRepeat .., _, _, _, _
  | .new .., _, _, _, _ => by simp [settledE]
theorem settled_args {env : TEnv} {hint : Option Ty} {h : Bool} (hh : h = true → isNumber hint = true) (f : Expr) :
    ∀ (es : List Expr) (i : Nat), firmArgs h es = true → tameEs env hint es = true → settledAs env hint f es i = true
  | [], i, _, _ => by simp [settledAs]
  | e :: es, i, hf, ht => by
    simp only [firmArgs, Bool.and_eq_true, Bool.or_eq_true] at hf
    simp only [tameEs, Bool.and_eq_true] at ht
    simp only [settledAs, Bool.and_eq_true]
    refine ⟨?_, settled_args hh f es (i + 1) hf.2 ht.2⟩
    rcases hf.1 with h2 | h2
    · exact settled_firm hh e _ _ h2 ht.1
    · exact settled_number e _ _ h2 ht.1
theorem settled_free {env : TEnv} {hint : Option Ty} {h : Bool} (hh : h = true → isNumber hint = true) :
    ∀ e : Expr, free h e = true → tameE env hint e = true → settledE env hint e none none = true
  | .literal n s, _, ht => by simpa [settledE, tameE] using ht
  | .paren e, hf, ht => by
    rw [settledE]
    exact settled_free hh e (by simpa [free] using hf) (by simpa [tameE] using ht)
  | .unary op e, hf, ht => by
    simp only [tameE, Bool.and_eq_true] at ht
    simp only [settledE, Bool.and_eq_true, decide_eq_true_eq]
    exact ⟨⟨⟨trivial, trivial⟩, ht.1⟩, settled_free hh e (by simpa [free] using hf) ht.2⟩
  | .binary op l r, hf, ht => by
    simp only [free, Bool.and_eq_true, Bool.or_eq_true, Bool.not_eq_true'] at hf
    simp only [tameE, Bool.and_eq_true] at ht
    simp only [settledE, Bool.and_eq_true, decide_eq_true_eq]
    have hctx : typeOf env hint l none = typeOf env hint l (leftCtx env hint op l r none) ∧
        settledE env hint l (leftCtx env hint op l r none) none = true := by
      unfold leftCtx
      split
      · next hlf =>
        have hb : l.bare = true := by
          simp only [literalFirst, Bool.and_eq_true] at hlf
          exact hlf.1.2
        have hn : isNumber hint = true := by
          refine hh ?_
          rcases hf.1.1 with h1 | h1
          · exact h1
          · rw [hlf] at h1; simp at h1
        cases l with
        | literal n s =>
          refine ⟨?_, by simpa [settledE, tameE] using ht.1⟩
          rw [typeOf, typeOf, literal_hint hn _ (some _)]
        | _ => simp [Expr.bare] at hb
      · exact ⟨rfl, settled_free hh l hf.1.2 ht.1⟩
    refine ⟨⟨⟨⟨trivial, hctx.1⟩, trivial⟩, hctx.2⟩, ?_⟩
    rcases hf.2 with h2 | h2
    · exact settled_firm hh r _ none h2 ht.2
    · exact settled_number r _ none h2 ht.2
  | .call f args, hf, ht => by
    rw [settledE]
    exact settled_args hh f args 0 (by simpa [free] using hf) (by simpa [tameE] using ht)
  | .cast e t, hf, ht => by
    rw [settledE]
    exact settled_free hh e (by simpa [free] using hf) (by simpa [tameE] using ht)
  | .boolean _, _, _ | .ident _, _, _ | .member .., _, _ | .index .., _, _ | .structLit .., _, _ | .tuple _, _, _
  | .tupleIndex .., _, _ | .array _, _, _ | .arrayRepeat .., _, _ | .new .., _, _ => by simp [settledE]
end

theorem settled_placed {env : TEnv} {e : Expr} (c oc : Option STy) (hp : placed e = true) (ht : tameE env none e = true) :
    settledE env none e c oc = true := by
  simp only [placed, Bool.or_eq_true] at hp
  rcases hp with h | h
  · exact settled_firm (fun h => by simp at h) e c oc h ht
  · exact settled_number e c oc h ht

mutual
theorem settled_placedS (first : Option Ty) :
    ∀ (t : Stmt) (s : Scope), placedS t = true → tameS t s = true → settledS first t s = true
  | .let_ p ty e, s, hp, ht => by
    rw [settledS]
    exact settled_free (fun h => h) e (by simpa [placedS] using hp) (by simpa [tameS] using ht)
  | .assign l e, s, hp, ht => by
    rw [settledS]
    exact settled_placed _ _ (by simpa [placedS] using hp) (by simpa [tameS] using ht)
  | .return_ none, s, _, _ | .const _, s, _, _ | .break_, s, _, _ | .continue_, s, _, _ => by simp [settledS]
  | .return_ (some e), s, hp, ht => by
    rw [settledS]
    exact settled_placed _ _ (by simpa [placedS] using hp) (by simpa [tameS] using ht)
  | .expr e, s, hp, ht => by
    rw [settledS]
    exact settled_free (h := false) (fun h => by simp at h) e (by simpa [placedS] using hp) (by simpa [tameS] using ht)
  | .if_ c t none, s, hp, ht => by
    simp only [placedS, Bool.and_eq_true] at hp
    simp only [tameS, Bool.and_eq_true] at ht
    simp only [settledS, Bool.and_eq_true]
    exact ⟨settled_placed _ _ hp.1 ht.1, settled_placedS first t s hp.2 ht.2⟩
  | .if_ c t (some e), s, hp, ht => by
    simp only [placedS, Bool.and_eq_true] at hp
    simp only [tameS, Bool.and_eq_true] at ht
    simp only [settledS, Bool.and_eq_true]
    exact ⟨⟨settled_placed _ _ hp.1.1 ht.1.1, settled_placedS first t s hp.1.2 ht.1.2⟩,
      settled_placedS first e _ hp.2 ht.2⟩
  | .block ss, s, hp, ht => by
    rw [settledS]
    exact settled_placedSs first ss s (by simpa [placedS] using hp) (by simpa [tameS] using ht)
  | .loop_ b, s, hp, ht => by
    rw [settledS]
    exact settled_placedS first b s (by simpa [placedS] using hp) (by simpa [tameS] using ht)
  | .while_ c b, s, hp, ht => by
    simp only [placedS, Bool.and_eq_true] at hp
    simp only [tameS, Bool.and_eq_true] at ht
    simp only [settledS, Bool.and_eq_true]
    exact ⟨settled_placed _ _ hp.1 ht.1, settled_placedS first b s hp.2 ht.2⟩
  | .for_ i c st b, s, hp, ht => by
    simp only [placedS, Bool.and_eq_true] at hp
    simp only [tameS, Bool.and_eq_true] at ht
    simp only [settledS, Bool.and_eq_true]
    exact ⟨⟨⟨settled_placedS first i s hp.1.1.1 ht.1.1.1, settled_placed _ _ hp.1.1.2 ht.1.1.2⟩,
      settled_placedS first b _ hp.1.2 ht.1.2⟩, settled_placedS first st _ hp.2 ht.2⟩
theorem settled_placedSs (first : Option Ty) :
    ∀ (ts : List Stmt) (s : Scope), placedSs ts = true → tameSs ts s = true → settledSs first ts s = true
  | [], s, _, _ => by simp [settledSs]
  | t :: ts, s, hp, ht => by
    simp only [placedSs, Bool.and_eq_true] at hp
    simp only [tameSs, Bool.and_eq_true] at ht
    simp only [settledSs, Bool.and_eq_true]
    exact ⟨settled_placedS first t s hp.1 ht.1, settled_placedSs first ts _ hp.2 ht.2⟩
end

theorem settled_placedFs (first : Option Ty) : ∀ (fs : List TFn) (s : Scope), (∀ f ∈ fs, placedSs f.body = true) →
    tameFs fs s = true → settledFs first fs s = true
  | [], s, _, _ => by simp [settledFs]
  | f :: fs, s, hp, ht => by
    simp only [tameFs, Bool.and_eq_true] at ht
    simp only [settledFs, Bool.and_eq_true]
    exact ⟨settled_placedSs first f.body _ (hp f (by simp)) ht.1,
      settled_placedFs first fs _ (fun g hg => hp g (by simp [hg])) ht.2⟩

end CairoM.Syntax
