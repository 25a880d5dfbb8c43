import Verif.ParserSound

/-!
# C74: operators group by precedence and associativity

The specification is `SyntaxSpec.lean`: how trees are written as tokens, and which trees need no further parentheses.
-/

namespace CairoM.Syntax

/-! ## The documented precedence -/

/-- Precedence by the documented table. -/
def Expr.documentedPrec : Expr → Nat
  | .binary op _ _ => op.documentedPrec
  | .cast _ _ => 6
  | .unary _ _ => 7
  | .call _ _ | .member _ _ | .index _ _ | .tupleIndex _ _ => 8
  | _ => 9

def Expr.isAnd : Expr → Bool
  | .binary .and _ _ => true
  | _ => false

mutual
/-- The tree needs no parentheses by the documented table. -/
def Expr.documented : Expr → Bool
  | .literal _ _ | .boolean _ | .ident _ => true
  | .unary _ e => 7 ≤ e.documentedPrec && e.documented
  | .binary op l r => op.documentedPrec ≤ l.documentedPrec && op.documentedPrec < r.documentedPrec && l.documented
      && r.documented
  | .call f es => 8 ≤ f.documentedPrec && f.documented && exprsDocumented es
  | .member e _ => 8 ≤ e.documentedPrec && e.documented
  | .index e i => 8 ≤ e.documentedPrec && e.documented && i.documented
  | .structLit _ fs => fieldsDocumented fs
  | .tuple es => exprsDocumented es
  | .tupleIndex e _ => 8 ≤ e.documentedPrec && e.documented
  | .array es => exprsDocumented es
  | .arrayRepeat e _ => e.documented
  | .cast e t => 6 ≤ e.documentedPrec && e.documented && t.isNamed && t.shaped
  | .new t n => t.noArray && t.shaped && n.documented
  | .paren e => e.documented
def exprsDocumented : List Expr → Bool
  | [] => true
  | e :: es => e.documented && exprsDocumented es
def fieldsDocumented : List (String × Expr) → Bool
  | [] => true
  | (_, e) :: fs => e.documented && fieldsDocumented fs
end

mutual
/-- No `||` has an unparenthesised `&&` as its right operand. -/
def Expr.unmixed : Expr → Bool
  | .literal _ _ | .boolean _ | .ident _ => true
  | .unary _ e => e.unmixed
  | .binary op l r => !(op = .or && r.isAnd) && l.unmixed && r.unmixed
  | .call f es => f.unmixed && exprsUnmixed es
  | .member e _ => e.unmixed
  | .index e i => e.unmixed && i.unmixed
  | .structLit _ fs => fieldsUnmixed fs
  | .tuple es => exprsUnmixed es
  | .tupleIndex e _ => e.unmixed
  | .array es => exprsUnmixed es
  | .arrayRepeat e _ => e.unmixed
  | .cast e _ => e.unmixed
  | .new _ n => n.unmixed
  | .paren e => e.unmixed
def exprsUnmixed : List Expr → Bool
  | [] => true
  | e :: es => e.unmixed && exprsUnmixed es
def fieldsUnmixed : List (String × Expr) → Bool
  | [] => true
  | (_, e) :: fs => e.unmixed && fieldsUnmixed fs
end

/-- The two tables differ only in `&&`. -/
theorem documented_le {e : Expr} {k : Nat} (h : k + 1 ≤ e.documentedPrec) : k ≤ e.prec := by
  cases e with
  | binary op l r => cases op <;> simp [Expr.documentedPrec, BinaryOp.documentedPrec, Expr.prec, BinaryOp.prec] at h ⊢ <;> omega
  | _ => simp [Expr.documentedPrec, Expr.prec] at h ⊢ <;> omega

theorem documented_binary {op : BinaryOp} {l r : Expr} (h1 : op.documentedPrec ≤ l.documentedPrec)
    (h2 : op.documentedPrec < r.documentedPrec) (h3 : ¬ (op = .or ∧ r.isAnd = true)) :
    op.prec ≤ l.prec ∧ op.prec < r.prec := by
  have key : ∀ e : Expr, e.documentedPrec = e.prec + 1 ∨ (e.documentedPrec = 0 ∧ e.prec = 0) := by
    intro e
    cases e with
    | binary op l r => cases op <;> simp [Expr.documentedPrec, BinaryOp.documentedPrec, Expr.prec, BinaryOp.prec]
    | _ => simp [Expr.documentedPrec, Expr.prec]
  have kl := key l
  have kr := key r
  cases op with
  | or =>
    have hr : r.isAnd = false := by simpa using h3
    refine ⟨by simp [BinaryOp.prec], ?_⟩
    cases r with
    | binary o a b => cases o <;> simp [Expr.isAnd, BinaryOp.prec, Expr.prec, Expr.documentedPrec,
        BinaryOp.documentedPrec] at hr h2 ⊢
    | _ => simp [BinaryOp.prec, Expr.prec]
  | _ => simp [BinaryOp.documentedPrec, BinaryOp.prec] at h1 h2 ⊢ <;> omega

mutual
theorem documented_shaped : ∀ (e : Expr), e.documented = true → e.unmixed = true → e.shaped = true
  | .literal _ _, _, _ | .boolean _, _, _ | .ident _, _, _ => by simp [Expr.shaped]
  | .unary _ e, h, hu => by
    simp only [Expr.documented, Expr.unmixed, Expr.shaped, Bool.and_eq_true, decide_eq_true_eq] at h hu ⊢
    exact ⟨documented_le h.1, documented_shaped e h.2 hu⟩
  | .binary op l r, h, hu => by
    simp only [Expr.documented, Expr.unmixed, Expr.shaped, Bool.and_eq_true, decide_eq_true_eq, Bool.not_eq_true',
      Bool.and_eq_false_iff, decide_eq_false_iff_not] at h hu ⊢
    have := documented_binary h.1.1.1 h.1.1.2 (by rintro ⟨h1, h2⟩; rcases hu.1.1 with h | h <;> simp_all)
    exact ⟨⟨this, documented_shaped l h.1.2 hu.1.2⟩, documented_shaped r h.2 hu.2⟩
  | .call f es, h, hu => by
    simp only [Expr.documented, Expr.unmixed, Expr.shaped, Bool.and_eq_true, decide_eq_true_eq] at h hu ⊢
    exact ⟨⟨documented_le h.1.1, documented_shaped f h.1.2 hu.1⟩, documented_exprs es h.2 hu.2⟩
  | .member e _, h, hu => by
    simp only [Expr.documented, Expr.unmixed, Expr.shaped, Bool.and_eq_true, decide_eq_true_eq] at h hu ⊢
    exact ⟨documented_le h.1, documented_shaped e h.2 hu⟩
  | .index e i, h, hu => by
    simp only [Expr.documented, Expr.unmixed, Expr.shaped, Bool.and_eq_true, decide_eq_true_eq] at h hu ⊢
    exact ⟨⟨documented_le h.1.1, documented_shaped e h.1.2 hu.1⟩, documented_shaped i h.2 hu.2⟩
  | .structLit _ fs, h, hu => by
    simp only [Expr.documented, Expr.unmixed, Expr.shaped] at h hu ⊢
    exact documented_fields fs h hu
  | .tuple es, h, hu => by
    simp only [Expr.documented, Expr.unmixed, Expr.shaped] at h hu ⊢
    exact documented_exprs es h hu
  | .tupleIndex e _, h, hu => by
    simp only [Expr.documented, Expr.unmixed, Expr.shaped, Bool.and_eq_true, decide_eq_true_eq] at h hu ⊢
    exact ⟨documented_le h.1, documented_shaped e h.2 hu⟩
  | .array es, h, hu => by
    simp only [Expr.documented, Expr.unmixed, Expr.shaped] at h hu ⊢
    exact documented_exprs es h hu
  | .arrayRepeat e _, h, hu => by
    simp only [Expr.documented, Expr.unmixed, Expr.shaped] at h hu ⊢
    exact documented_shaped e h hu
  | .cast e _, h, hu => by
    simp only [Expr.documented, Expr.unmixed, Expr.shaped, Bool.and_eq_true, decide_eq_true_eq] at h hu ⊢
    exact ⟨⟨⟨documented_le h.1.1.1, documented_shaped e h.1.1.2 hu⟩, h.1.2⟩, h.2⟩
  | .new _ n, h, hu => by
    simp only [Expr.documented, Expr.unmixed, Expr.shaped, Bool.and_eq_true] at h hu ⊢
    exact ⟨h.1, documented_shaped n h.2 hu⟩
  | .paren e, h, hu => by
    simp only [Expr.documented, Expr.unmixed, Expr.shaped] at h hu ⊢
    exact documented_shaped e h hu
theorem documented_exprs : ∀ (es : List Expr), exprsDocumented es = true → exprsUnmixed es = true → exprsShaped es = true
  | [], _, _ => by simp [exprsShaped]
  | e :: es, h, hu => by
    simp only [exprsDocumented, exprsUnmixed, exprsShaped, Bool.and_eq_true] at h hu ⊢
    exact ⟨documented_shaped e h.1 hu.1, documented_exprs es h.2 hu.2⟩
theorem documented_fields : ∀ (fs : List (String × Expr)), fieldsDocumented fs = true → fieldsUnmixed fs = true →
    fieldsShaped fs = true
  | [], _, _ => by simp [fieldsShaped]
  | (_, e) :: fs, h, hu => by
    simp only [fieldsDocumented, fieldsUnmixed, fieldsShaped, Bool.and_eq_true] at h hu ⊢
    exact ⟨documented_shaped e h.1 hu.1, documented_fields fs h.2 hu.2⟩
end

/-! ## The property -/

/-- Expressions: any tree that needs no further parentheses is read back from its tokens, whatever follows, if the
next token does not continue the expression and does not make a struct literal of a final name. The bound on the
recursion is any number that is at least the number of tokens. -/
theorem C74_expression (e : Expr) (h : e.shaped = true) (rest : List Token)
    (hrest : ∀ t, rest.head? = some t → t.cont = none) (hstruct : e.endsIdent = true → structAhead rest = false)
    (n : Nat) (hn : e.toks.length ≤ n) : parseExpr n (e.toks ++ rest) = some (e, rest) :=
  expr_run h hn (fun t ht j hj => by rw [hrest t ht] at hj; simp at hj) hstruct

/-- Conversely every expression that is read needs no further parentheses: the trees that are returned are exactly
those that are read back, and they have the names, literals and operators of the text, in its order. -/
theorem C74_expression_conv (n : Nat) (ts rest : List Token) (e : Expr) (h : parseExpr n ts = some (e, rest)) :
    e.shaped = true ∧
      ts.filter Token.significant = e.toks.filter Token.significant ++ rest.filter Token.significant :=
  ⟨(good_expr n ts e rest h).1.1, (good_expr n ts e rest h).2⟩

/-- Whole programs: any program whose expressions need no further parentheses (and whose types, patterns and
statements can be written) is read back from its tokens. -/
theorem C74_program (is : List Item) (h : programShaped is = true) : parseTokens (programToks is) = some is :=
  program_run h

/-- Conversely every program that is read is of this kind and has the names, literals, keywords and operators of the
text, in its order: only commas, parentheses and the arrow before a unit return type can be lost. -/
theorem C74_program_conv (ts : List Token) (is : List Item) (h : parseTokens ts = some is) :
    programShaped is = true ∧ ts.filter Token.significant = (programToks is).filter Token.significant :=
  good_program h

/-- Reading is stable: the tokens of the program that was read are read as the same program. -/
theorem C74_stable (ts : List Token) (is : List Item) (h : parseTokens ts = some is) :
    parseTokens (programToks is) = some is :=
  program_run (good_program h).1

/-- Two programs with the same tokens are the same program. -/
theorem C74_unambiguous (is js : List Item) (hi : programShaped is = true) (hj : programShaped js = true)
    (h : programToks is = programToks js) : is = js := by
  have h1 := program_run hi
  have h2 := program_run hj
  rw [h, h2] at h1
  simpa using h1.symm

/-- The recursion bound of the model does not influence the result: expressions, types, patterns and items are read
the same way with every bound above the number of tokens. -/
theorem C74_bound (ts : List Token) (n m : Nat) (hn : ts.length < n) (hm : ts.length < m) :
    parseExpr n ts = parseExpr m ts ∧ parseType n ts = parseType m ts ∧ parsePattern n ts = parsePattern m ts ∧
      item n ts = item m ts :=
  ⟨expr_agree _ n m hn hm ts (Nat.lt_succ_self _), type_agree _ n m hn hm ts (Nat.lt_succ_self _),
    pattern_agree _ n m hn hm ts (Nat.lt_succ_self _), item_agree hn hm ts (Nat.lt_succ_self _)⟩

/-- The documented table, for the expressions in which no `||` has an unparenthesised `&&` to its right. -/
theorem C74_documented_partial (e : Expr) (h : e.documented = true) (hu : e.unmixed = true) (rest : List Token)
    (hrest : ∀ t, rest.head? = some t → t.cont = none) (hstruct : e.endsIdent = true → structAhead rest = false)
    (n : Nat) (hn : e.toks.length ≤ n) : parseExpr n (e.toks ++ rest) = some (e, rest) :=
  C74_expression e (documented_shaped e h hu) rest hrest hstruct n hn

/-- `a || b && c` -/
def orAnd : Expr := .binary .or (.ident "a") (.binary .and (.ident "b") (.ident "c"))

/-- By the documented table `a || b && c` is `a || (b && c)`. It is read as `(a || b) && c`. -/
theorem C74_violated_or_and : orAnd.documented = true ∧
    parseExpr 10 orAnd.toks = some (.binary .and (.binary .or (.ident "a") (.ident "b")) (.ident "c"), []) ∧
    parseExpr 10 orAnd.toks ≠ some (orAnd, []) := by
  have h : (Expr.binary .and (.binary .or (.ident "a") (.ident "b")) (.ident "c")).shaped = true := by decide +kernel
  have h1 : parseExpr 10 orAnd.toks
      = some (.binary .and (.binary .or (.ident "a") (.ident "b")) (.ident "c"), []) := by
    have := C74_expression _ h [] (by simp) (by simp [structAhead]) 10 (by decide)
    simpa [Expr.toks, orAnd] using this
  refine ⟨by decide +kernel, h1, ?_⟩
  rw [h1]
  simp [orAnd]

/-! ## The hypotheses hold for ordinary programs -/

/-- `-a.x * f(b, 3)[0] + (c as u32) < d && !e` -/
def exampleExpr : Expr :=
  .binary .and
    (.binary .less
      (.binary .add
        (.binary .mul (.unary .neg (.member (.ident "a") "x"))
          (.index (.call (.ident "f") [.ident "b", .literal 3 none]) (.literal 0 none)))
        (.paren (.cast (.ident "c") (.named .u32))))
      (.ident "d"))
    (.unary .not (.ident "e"))

example : exampleExpr.shaped = true ∧ exampleExpr.documented = true ∧ exampleExpr.unmixed = true := by decide +kernel

/-- `-(a + b)` without its parentheses would be another expression. -/
example : (Expr.unary .neg (.binary .add (.ident "a") (.ident "b"))).shaped = false := by decide +kernel

/-- `fn f(n: felt) -> felt { let x = n; while x != 0 { x = x - 1; } if x == 0 { return 1; } else { return x; } }` -/
def exampleProgram : List Item :=
  [.use ["lib"] (.list ["a", "b"]),
    .struct "P" [("x", .named .felt), ("y", .pointer (.named .u32))],
    .function ⟨"f", [("n", .named .felt)], .named .felt,
      [.let_ (.ident "x") none (.ident "n"),
        .while_ (.binary .neq (.ident "x") (.literal 0 none))
          (.block [.assign (.ident "x") (.binary .sub (.ident "x") (.literal 1 none))]),
        .if_ (.binary .eq (.ident "x") (.literal 0 none)) (.block [.return_ (some (.literal 1 none))])
          (some (.block [.return_ (some (.ident "x"))]))]⟩]

example : programShaped exampleProgram = true := by decide +kernel

/-- A program that is not written as `programToks` writes it is read too. -/
example : ∃ is, parseTokens [.const_, .identifier "x", .eq_, .lParen, .number 1 none, .comma, .number 2 none, .comma,
    .rParen, .semicolon] = some is := ⟨[.const ⟨"x", none, .tuple [.literal 1 none, .literal 2 none]⟩], by rfl⟩

end CairoM.Syntax
