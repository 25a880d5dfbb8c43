import Verif.FormatReads

/-!
# Formatted types and expressions
-/

namespace CairoM.Syntax

theorem safeStart_append {ps qs : List Piece} (h1 : safeStart ps = true) (h2 : safeStart qs = true) :
    safeStart (ps ++ qs) = true := by
  cases ps with
  | nil => exact h2
  | cons p ps =>
    cases p with
    | gap => rfl
    | word w =>
      cases w with
      | nil => rfl
      | cons c cs => exact h1

theorem p_lparen : (Doc.str "(").pieces = [.word ['(']] := rfl
theorem p_rparen : (Doc.str ")").pieces = [.word [')']] := rfl
theorem p_lbrack : (Doc.str "[").pieces = [.word ['[']] := rfl
theorem p_rbrack : (Doc.str "]").pieces = [.word [']']] := rfl
theorem p_lbrace : (Doc.str "{").pieces = [.word ['{']] := rfl
theorem p_rbrace : (Doc.str "}").pieces = [.word ['}']] := rfl
theorem p_dot : (Doc.str ".").pieces = [.word ['.']] := rfl
theorem p_star : (Doc.str "*").pieces = [.word ['*']] := rfl
theorem p_comma : (Doc.str ", ").pieces = [.word [','], .gap] := rfl
theorem p_semi : (Doc.str "; ").pieces = [.word [';'], .gap] := rfl
theorem p_colon : (Doc.str ": ").pieces = [.word [':'], .gap] := rfl
theorem p_space : (Doc.str " ").pieces = [.gap] := rfl
theorem p_as : (Doc.str " as ").pieces = [.gap, .word ['a', 's'], .gap] := rfl
theorem p_new : (Doc.str "new ").pieces = [.word ['n', 'e', 'w'], .gap] := rfl
theorem p_true : (Doc.str "true").pieces = [.word ['t', 'r', 'u', 'e']] := rfl
theorem p_false : (Doc.str "false").pieces = [.word ['f', 'a', 'l', 's', 'e']] := rfl

theorem piecesAll_append (ds es : List Doc) : piecesAll (ds ++ es) = piecesAll ds ++ piecesAll es := by
  induction ds with
  | nil => rfl
  | cons d ds ih => simp [piecesAll, ih]

/-- Normal form of pieces and tokens. -/
macro "norm" : tactic => `(tactic| simp only [Doc.pieces, piecesAll, piecesAll_append, parens, braces, commaSeparated, Doc.join,
  p_lparen, p_rparen, p_lbrack, p_rbrack, p_lbrace, p_rbrace, p_dot, p_star, p_comma, p_semi, p_colon, p_space, p_as, p_new,
  p_true, p_false, List.flatMap_cons, List.flatMap_nil, List.cons_append, List.nil_append, List.append_nil,
  List.append_assoc])

/-- A name as a word. -/
theorem writes_named {n : NamedType} (h : Writable (.identifier n.name)) : (fmtNamed n).pieces = [.word n.name.toList] := by
  cases n with
  | custom s => exact (writes_ident h).1
  | _ => rfl

theorem type_toks_two (t t' : TypeExpr) (ts : List TypeExpr) :
    (TypeExpr.tuple (t :: t' :: ts)).toks = .lParen :: t.toks ++ typesToks (t' :: ts) ++ [.rParen] := by
  simp [TypeExpr.toks]

theorem expr_toks_two (e e' : Expr) (es : List Expr) :
    (Expr.tuple (e :: e' :: es)).toks = .lParen :: e.toks ++ exprsToks (e' :: es) ++ [.rParen] := by
  simp [Expr.toks]

mutual
theorem type_writes : ∀ (t : TypeExpr), t.plain = true → (∀ x ∈ t.toks, Writable x) → Writes (fmtType t).pieces t.toks
  | .named n, _, hw => by
    have h := hw (.identifier n.name) (by simp [TypeExpr.toks])
    obtain ⟨_, h2, h3⟩ := writes_ident h
    rw [fmtType, writes_named h, TypeExpr.toks]
    exact .word h2 h3 .nil rfl
  | .pointer t, hp, hw => by
    rw [TypeExpr.plain] at hp
    rw [TypeExpr.toks] at hw ⊢
    rw [fmtType]
    norm
    exact .append (type_writes t hp (fun x hx => hw x (by simp [hx]))) (.closed rfl rfl .nil) rfl
  | .tuple [], _, _ => by
    rw [fmtType, TypeExpr.toks, fmtTypes]
    norm
    exact .closed rfl rfl (.closed rfl rfl .nil)
  | .tuple [_], hp, _ => by simp [TypeExpr.plain] at hp
  | .tuple (t :: t' :: ts), hp, hw => by
    simp only [TypeExpr.plain, typesPlain, Bool.and_eq_true] at hp
    rw [type_toks_two] at hw ⊢
    obtain ⟨h1, h2⟩ := types_writes (t' :: ts) (by simp [typesPlain, hp]) (fun x hx => hw x (by simp [hx]))
    rw [fmtType, fmtTypes]
    norm
    exact .closed rfl rfl (.append (type_writes t hp.2.1 (fun x hx => hw x (by simp [hx])))
      (.append h1 (.closed rfl rfl .nil) rfl) (safeStart_append h2 rfl))
  | .fixedArray t n, hp, hw => by
    rw [TypeExpr.plain] at hp
    rw [TypeExpr.toks] at hw ⊢
    have hn := writes_number (hw (.number n none) (by simp))
    simp only [suffixChars, List.append_nil] at hn
    rw [fmtType]
    norm
    rw [hn.1]
    exact .closed rfl rfl (.append (type_writes t hp (fun x hx => hw x (by simp [hx])))
      (.closed rfl rfl (.gap (.word hn.2.1 hn.2.2 (.closed rfl rfl .nil) rfl))) rfl)
theorem types_writes : ∀ (ts : List TypeExpr), typesPlain ts = true → (∀ x ∈ typesToks ts, Writable x) →
    Writes (piecesAll ((fmtTypes ts).flatMap (fun x => [.str ", ", x]))) (typesToks ts) ∧
      safeStart (piecesAll ((fmtTypes ts).flatMap (fun x => [.str ", ", x]))) = true
  | [], _, _ => ⟨.nil, rfl⟩
  | t :: ts, hp, hw => by
    simp only [typesPlain, Bool.and_eq_true] at hp
    rw [typesToks] at hw ⊢
    obtain ⟨h1, h2⟩ := types_writes ts hp.2 (fun x hx => hw x (by simp [hx]))
    rw [fmtTypes]
    norm
    exact ⟨.closed rfl rfl (.gap (.append (type_writes t hp.1 (fun x hx => hw x (by simp [hx]))) h1 h2)), rfl⟩
end

/-! ## Expressions -/

/-- The first character cannot merge with a prefix operator. -/
def startOk : List Piece → Bool
  | .word (c :: _) :: _ => c != '=' && c != '>'
  | _ => false

theorem startOk_append {ps qs : List Piece} (h : startOk ps = true) : startOk (ps ++ qs) = true := by
  cases ps with
  | nil => simp [startOk] at h
  | cons p ps =>
    cases p with
    | gap => simp [startOk] at h
    | word w =>
      cases w with
      | nil => simp [startOk] at h
      | cons c cs => exact h

theorem startOk_word {w : List Char} {ps : List Piece} (hne : w ≠ []) (h : ∀ c ∈ w, isWord c = true) :
    startOk (.word w :: ps) = true := by
  cases w with
  | nil => exact absurd rfl hne
  | cons c cs =>
    have := h c (by simp)
    simp only [startOk, Bool.and_eq_true, bne_iff_ne, ne_eq]
    constructor <;> rintro rfl <;> simp [isWord] at this

theorem ident_start {s : String} (h : Writable (.identifier s)) : startOk (Doc.str s).pieces = true := by
  rw [(writes_ident h).1]
  exact startOk_word (writes_ident h).2.2 (writable_ident h).2.2.1

theorem expr_start : ∀ (e : Expr), (∀ x ∈ e.toks, Writable x) → startOk (fmtExpr e).pieces = true
  | .literal n s, hw => by
    have h := writes_number (hw (.number n s) (by simp [Expr.toks]))
    have e : (fmtExpr (.literal n s)).pieces = splitWords (decimal n ++ suffixChars s) := by
      cases s <;> rfl
    rw [e, h.1]
    cases hd : decimal n with
    | nil => exact absurd hd (decimal_ne n)
    | cons c cs =>
      have h1 := decimal_digits n c (by simp [hd])
      simp only [List.cons_append, startOk, Bool.and_eq_true, bne_iff_ne, ne_eq]
      constructor <;> rintro rfl <;> simp at h1
  | .boolean b, _ => by cases b <;> decide
  | .ident s, hw => by
    rw [fmtExpr]
    exact ident_start (hw _ (by simp [Expr.toks]))
  | .unary op e, _ => by
    rw [fmtExpr, Doc.pieces, piecesAll]
    apply startOk_append
    cases op <;> decide
  | .binary op l r, hw => by
    rw [fmtExpr, Doc.pieces, Doc.pieces, piecesAll]
    exact startOk_append (expr_start l (fun x hx => hw x (by simp [Expr.toks, hx])))
  | .call f es, hw => by
    rw [fmtExpr, Doc.pieces, piecesAll]
    exact startOk_append (expr_start f (fun x hx => hw x (by cases es <;> simp [Expr.toks, hx])))
  | .member e f, hw => by
    rw [fmtExpr, Doc.pieces, piecesAll]
    exact startOk_append (expr_start e (fun x hx => hw x (by simp [Expr.toks, hx])))
  | .index e i, hw => by
    rw [fmtExpr, Doc.pieces, piecesAll]
    exact startOk_append (expr_start e (fun x hx => hw x (by simp [Expr.toks, hx])))
  | .structLit n fs, hw => by
    rw [fmtExpr, Doc.pieces, piecesAll]
    refine startOk_append (ident_start (hw _ ?_))
    cases fs with
    | nil => simp [Expr.toks]
    | cons f fs => simp [Expr.toks]
  | .tuple es, _ => by
    rw [fmtExpr]
    norm
    rfl
  | .tupleIndex e i, hw => by
    rw [fmtExpr, Doc.pieces, piecesAll]
    exact startOk_append (expr_start e (fun x hx => hw x (by simp [Expr.toks, hx])))
  | .array es, _ => by
    rw [fmtExpr]
    norm
    rfl
  | .arrayRepeat e n, _ => by
    rw [fmtExpr]
    norm
    rfl
  | .cast e t, hw => by
    rw [fmtExpr, Doc.pieces, piecesAll]
    exact startOk_append (expr_start e (fun x hx => hw x (by simp [Expr.toks, hx])))
  | .new t n, _ => by
    rw [fmtExpr]
    norm
    rfl
  | .paren e, _ => by
    rw [fmtExpr]
    norm
    rfl

theorem layout_startOk {ps : List Piece} {s r : List Char} (h : startOk ps = true) (hl : Layout ps s) (d : Char)
    (hd : (s ++ r).head? = some d) : d ≠ '=' ∧ d ≠ '>' := by
  cases hl with
  | nil => simp [startOk] at h
  | @word w ps s h1 h2 _ =>
    cases w with
    | nil => exact absurd rfl h2
    | cons c cs =>
      simp at hd
      subst hd
      simpa [startOk] using h
  | gap => simp [startOk] at h
  | space h1 _ =>
    simp at hd
    subst hd
    constructor <;> rintro rfl <;> simp [isBlank] at h1

theorem unary_no_glue {op : UnaryOp} {w : List Char} (hw : op.tok.symbol = some w) {d : Char} (h : d ≠ '=' ∧ d ≠ '>') :
    ¬ Glues w d := by
  have e : ∃ c, w = [c] ∧ isWord c = false ∧ c ≠ '/' := by
    cases op <;> simp [UnaryOp.tok, Token.symbol] at hw <;> subst hw <;> exact ⟨_, rfl, by decide, by decide⟩
  obtain ⟨c, rfl, hc, hc2⟩ := e
  rintro (⟨t', ht'⟩ | h1 | ⟨⟨x, hx, hxw⟩, _⟩)
  · rcases symbol_cases ht' with h1 | ⟨a, b, hab, h1⟩ | ⟨a, ha, h1⟩
    · have := (keywords_word _ (lookup_mem h1)).2 c (by simp)
      rw [hc] at this; simp at this
    · have h2 : twoChar.all (fun x => (x.1.1 != '!' && x.1.1 != '-') || x.1.2 == '=' || x.1.2 == '>') = true := by
        decide +kernel
      have h3 := List.all_eq_true.1 h2 _ (lookup_mem h1)
      simp at hab
      obtain ⟨rfl, rfl⟩ := hab
      cases op <;> simp [UnaryOp.tok, Token.symbol] at hw <;> subst hw <;> simp [h] at h3
    · simp at ha
  · simp at h1
    exact hc2 h1.1
  · simp at hx
    subst hx
    rw [hc] at hxw; simp at hxw

theorem unary_pieces (op : UnaryOp) : ∃ w, op.tok.symbol = some w ∧ (fmtUnaryOp op).pieces = [.word w] := by
  cases op <;> exact ⟨_, rfl, rfl⟩

theorem binary_pieces (op : BinaryOp) : ∃ w, op.tok.symbol = some w ∧ w ≠ [] ∧ (fmtBinaryOp op).pieces = [.word w] := by
  cases op <;> exact ⟨_, rfl, by decide, rfl⟩

/-- `name: …`, the colon cannot merge with the name. -/
theorem writes_typed {w : List Char} {s : String} {ps : List Piece} {ts : List Token} (h : Spells w (.identifier s))
    (hne : w ≠ []) (hr : Writes ps ts) : Writes (.word w :: .word [':'] :: .gap :: ps) (.identifier s :: .colon :: ts) := by
  refine .word' h (.word (.symbol rfl) (by simp) (.gap hr) rfl) ?_
  intro s' r hl _ d hd
  obtain ⟨c, hc, hcw⟩ : ∃ c, w.head? = some c ∧ isWord c = true := by
    generalize ht : Token.identifier s = t at h
    cases h with
    | symbol h => subst ht; simp [Token.symbol] at h
    | name h =>
      obtain ⟨⟨c, hc, _⟩, hall, _⟩ := h
      exact ⟨c, hc, hall c (List.mem_of_mem_head? hc)⟩
    | number => simp at ht
  have hd' : isWord d = false ∧ d ≠ '/' := by
    obtain ⟨b, s'', rfl, hb, _, _⟩ := layout_word hl
    cases b with
    | nil => simp at hd; subst hd; decide
    | cons x b =>
      simp at hd
      subst hd
      have := hb x (by simp)
      simp only [isBlank, Bool.or_eq_true, beq_iff_eq] at this
      rcases this with ((rfl | rfl) | rfl) | rfl <;> decide
  rintro (⟨t, ht⟩ | h1 | ⟨_, h2⟩)
  · have := symbol_word ht ⟨c, List.mem_of_mem_head? hc, hcw⟩
    rw [hd'.1] at this; simp at this
  · have : d = '/' := by
      have := congrArg List.getLast? h1
      simpa using this
    exact hd'.2 this
  · rw [hd'.1] at h2; simp at h2

mutual
theorem expr_writes : ∀ (e : Expr), e.plain = true → (∀ x ∈ e.toks, Writable x) → Writes (fmtExpr e).pieces e.toks
  | .literal n s, _, hw => by
    have h := writes_number (hw (.number n s) (by simp [Expr.toks]))
    have e : (fmtExpr (.literal n s)).pieces = splitWords (decimal n ++ suffixChars s) := by
      cases s <;> rfl
    rw [e, h.1, Expr.toks]
    exact .word h.2.1 h.2.2 .nil rfl
  | .boolean b, _, _ => by
    rw [fmtExpr, Expr.toks]
    cases b
    · simp only [Bool.false_eq_true, if_false, p_false]
      exact .word (.symbol rfl) (by simp) .nil rfl
    · simp only [if_true, p_true]
      exact .word (.symbol rfl) (by simp) .nil rfl
  | .ident s, _, hw => by
    have h := writes_ident (hw (.identifier s) (by simp [Expr.toks]))
    rw [fmtExpr, Expr.toks, h.1]
    exact .word h.2.1 h.2.2 .nil rfl
  | .unary op e, hp, hw => by
    rw [Expr.plain] at hp
    rw [Expr.toks] at hw ⊢
    have hwe : ∀ x ∈ e.toks, Writable x := fun x hx => hw x (by simp [hx])
    obtain ⟨w, hs, hpc⟩ := unary_pieces op
    rw [fmtExpr]
    norm
    rw [hpc]
    exact .word' (.symbol hs) (expr_writes e hp hwe)
      (fun s r hl _ d hd => unary_no_glue hs (layout_startOk (expr_start e hwe) hl d hd))
  | .binary op l r, hp, hw => by
    simp only [Expr.plain, Bool.and_eq_true] at hp
    rw [Expr.toks] at hw ⊢
    obtain ⟨w, hs, hne, hpc⟩ := binary_pieces op
    rw [fmtExpr]
    norm
    rw [hpc]
    exact .append (expr_writes l hp.1 (fun x hx => hw x (by simp [hx])))
      (.gap (.word (.symbol hs) hne (.gap (expr_writes r hp.2 (fun x hx => hw x (by simp [hx])))) rfl)) rfl
  | .call f [], hp, hw => by
    simp only [Expr.plain, Bool.and_eq_true] at hp
    rw [Expr.toks] at hw ⊢
    rw [fmtExpr, fmtExprs]
    norm
    exact .append (expr_writes f hp.1 (fun x hx => hw x (by simp [hx]))) (.closed rfl rfl (.closed rfl rfl .nil)) rfl
  | .call f (e :: es), hp, hw => by
    simp only [Expr.plain, exprsPlain, Bool.and_eq_true] at hp
    rw [Expr.toks] at hw ⊢
    obtain ⟨h1, h2⟩ := exprs_writes es hp.2.2 (fun x hx => hw x (by simp [hx]))
    rw [fmtExpr, fmtExprs]
    norm
    exact .append (expr_writes f hp.1 (fun x hx => hw x (by simp [hx])))
      (.closed rfl rfl (.append (expr_writes e hp.2.1 (fun x hx => hw x (by simp [hx])))
        (.append h1 (.closed rfl rfl .nil) rfl) (safeStart_append h2 rfl))) rfl
  | .member e f, hp, hw => by
    rw [Expr.plain] at hp
    rw [Expr.toks] at hw ⊢
    have h := writes_ident (hw (.identifier f) (by simp))
    rw [fmtExpr]
    norm
    rw [h.1]
    exact .append (expr_writes e hp (fun x hx => hw x (by simp [hx]))) (.closed rfl rfl (.word h.2.1 h.2.2 .nil rfl)) rfl
  | .index e i, hp, hw => by
    simp only [Expr.plain, Bool.and_eq_true] at hp
    rw [Expr.toks] at hw ⊢
    rw [fmtExpr]
    norm
    exact .append (expr_writes e hp.1 (fun x hx => hw x (by simp [hx])))
      (.closed rfl rfl (.append (expr_writes i hp.2 (fun x hx => hw x (by simp [hx]))) (.closed rfl rfl .nil) rfl)) rfl
  | .structLit n [], _, hw => by
    rw [Expr.toks] at hw ⊢
    have h := writes_ident (hw (.identifier n) (by simp))
    rw [fmtExpr, fmtFields]
    norm
    rw [h.1]
    exact .word h.2.1 h.2.2 (.gap (.closed rfl rfl (.closed rfl rfl .nil))) rfl
  | .structLit n ((f, e) :: fs), hp, hw => by
    simp only [Expr.plain, fieldsPlain, Bool.and_eq_true] at hp
    rw [Expr.toks] at hw ⊢
    have h := writes_ident (hw (.identifier n) (by simp))
    have h' := writes_ident (hw (.identifier f) (by simp))
    obtain ⟨h1, h2⟩ := fields_writes fs hp.2 (fun x hx => hw x (by simp [hx]))
    rw [fmtExpr, fmtFields]
    norm
    rw [h.1, h'.1]
    exact .word h.2.1 h.2.2 (.gap (.closed rfl rfl (writes_typed h'.2.1 h'.2.2
      (.append (expr_writes e hp.1 (fun x hx => hw x (by simp [hx])))
        (.append h1 (.closed rfl rfl .nil) rfl) (safeStart_append h2 rfl))))) rfl
  | .tuple [], _, _ => by
    rw [fmtExpr, Expr.toks, fmtExprs]
    norm
    exact .closed rfl rfl (.closed rfl rfl .nil)
  | .tuple [_], hp, _ => by simp [Expr.plain] at hp
  | .tuple (e :: e' :: es), hp, hw => by
    simp only [Expr.plain, exprsPlain, Bool.and_eq_true] at hp
    rw [expr_toks_two] at hw ⊢
    obtain ⟨h1, h2⟩ := exprs_writes (e' :: es) (by simp [exprsPlain, hp]) (fun x hx => hw x (by simp [hx]))
    rw [fmtExpr, fmtExprs]
    norm
    exact .closed rfl rfl (.append (expr_writes e hp.2.1 (fun x hx => hw x (by simp [hx])))
      (.append h1 (.closed rfl rfl .nil) rfl) (safeStart_append h2 rfl))
  | .tupleIndex e i, hp, hw => by
    rw [Expr.plain] at hp
    rw [Expr.toks] at hw ⊢
    have hn := writes_number (hw (.number i none) (by simp))
    simp only [suffixChars, List.append_nil] at hn
    rw [fmtExpr]
    norm
    rw [hn.1]
    exact .append (expr_writes e hp (fun x hx => hw x (by simp [hx]))) (.closed rfl rfl (.word hn.2.1 hn.2.2 .nil rfl)) rfl
  | .array [], _, _ => by
    rw [fmtExpr, Expr.toks, fmtExprs]
    norm
    exact .closed rfl rfl (.closed rfl rfl .nil)
  | .array (e :: es), hp, hw => by
    simp only [Expr.plain, exprsPlain, Bool.and_eq_true] at hp
    rw [Expr.toks] at hw ⊢
    obtain ⟨h1, h2⟩ := exprs_writes es hp.2 (fun x hx => hw x (by simp [hx]))
    rw [fmtExpr, fmtExprs]
    norm
    exact .closed rfl rfl (.append (expr_writes e hp.1 (fun x hx => hw x (by simp [hx])))
      (.append h1 (.closed rfl rfl .nil) rfl) (safeStart_append h2 rfl))
  | .arrayRepeat e n, hp, hw => by
    rw [Expr.plain] at hp
    rw [Expr.toks] at hw ⊢
    have hn := writes_number (hw (.number n none) (by simp))
    simp only [suffixChars, List.append_nil] at hn
    rw [fmtExpr]
    norm
    rw [hn.1]
    exact .closed rfl rfl (.append (expr_writes e hp (fun x hx => hw x (by simp [hx])))
      (.closed rfl rfl (.gap (.word hn.2.1 hn.2.2 (.closed rfl rfl .nil) rfl))) rfl)
  | .cast e t, hp, hw => by
    simp only [Expr.plain, Bool.and_eq_true] at hp
    rw [Expr.toks] at hw ⊢
    rw [fmtExpr]
    norm
    exact .append (expr_writes e hp.1 (fun x hx => hw x (by simp [hx])))
      (.gap (.word (.symbol rfl) (by simp) (.gap (type_writes t hp.2 (fun x hx => hw x (by simp [hx])))) rfl)) rfl
  | .new t n, hp, hw => by
    simp only [Expr.plain, Bool.and_eq_true] at hp
    rw [Expr.toks] at hw ⊢
    rw [fmtExpr]
    norm
    exact .word (.symbol rfl) (by simp) (.gap (.append (type_writes t hp.1 (fun x hx => hw x (by simp [hx])))
      (.closed rfl rfl (.append (expr_writes n hp.2 (fun x hx => hw x (by simp [hx]))) (.closed rfl rfl .nil) rfl)) rfl)) rfl
  | .paren e, hp, hw => by
    rw [Expr.plain] at hp
    rw [Expr.toks] at hw ⊢
    rw [fmtExpr]
    norm
    exact .closed rfl rfl (.append (expr_writes e hp (fun x hx => hw x (by simp [hx]))) (.closed rfl rfl .nil) rfl)
theorem exprs_writes : ∀ (es : List Expr), exprsPlain es = true → (∀ x ∈ exprsToks es, Writable x) →
    Writes (piecesAll ((fmtExprs es).flatMap (fun x => [.str ", ", x]))) (exprsToks es) ∧
      safeStart (piecesAll ((fmtExprs es).flatMap (fun x => [.str ", ", x]))) = true
  | [], _, _ => ⟨.nil, rfl⟩
  | e :: es, hp, hw => by
    simp only [exprsPlain, Bool.and_eq_true] at hp
    rw [exprsToks] at hw ⊢
    obtain ⟨h1, h2⟩ := exprs_writes es hp.2 (fun x hx => hw x (by simp [hx]))
    rw [fmtExprs]
    norm
    exact ⟨.closed rfl rfl (.gap (.append (expr_writes e hp.1 (fun x hx => hw x (by simp [hx]))) h1 h2)), rfl⟩
theorem fields_writes : ∀ (fs : List (String × Expr)), fieldsPlain fs = true → (∀ x ∈ fieldsToks fs, Writable x) →
    Writes (piecesAll ((fmtFields fs).flatMap (fun x => [.str ", ", x]))) (fieldsToks fs) ∧
      safeStart (piecesAll ((fmtFields fs).flatMap (fun x => [.str ", ", x]))) = true
  | [], _, _ => ⟨.nil, rfl⟩
  | (f, e) :: fs, hp, hw => by
    simp only [fieldsPlain, Bool.and_eq_true] at hp
    rw [fieldsToks] at hw ⊢
    have h' := writes_ident (hw (.identifier f) (by simp))
    obtain ⟨h1, h2⟩ := fields_writes fs hp.2 (fun x hx => hw x (by simp [hx]))
    rw [fmtFields]
    norm
    rw [h'.1]
    exact ⟨.closed rfl rfl (.gap (writes_typed h'.2.1 h'.2.2 (.append (expr_writes e hp.1 (fun x hx => hw x (by simp [hx]))) h1 h2))), rfl⟩
end

end CairoM.Syntax
