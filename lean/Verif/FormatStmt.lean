import Verif.FormatExpr

/-!
# What the rendering of a program spells
-/

namespace CairoM.Syntax

theorem Writes.split {w v : List Char} {ps : List Piece} {ts : List Token} (hw : w ≠ []) (hv : v ≠ [])
    (h : Writes (.word w :: .word v :: ps) ts) : Writes (.word (w ++ v) :: ps) ts := by
  intro s hl
  refine h s ?_
  clear h
  generalize hp : Piece.word (w ++ v) :: ps = qs at hl
  induction hl with
  | nil => simp at hp
  | word h1 h2 h3 =>
    simp at hp
    obtain ⟨rfl, rfl⟩ := hp
    rw [List.append_assoc]
    exact .word (fun c hc => h1 c (by simp [hc])) hw (.word (fun c hc => h1 c (by simp [hc])) hv h3)
  | gap => simp at hp
  | space h1 _ ih => exact .space h1 (ih hp)

/-- A name and a colon do not merge. -/
theorem writes_ident_colon {w : List Char} {s : String} {cs : List Char} {ps : List Piece} {ts : List Token}
    (h : Spells w (.identifier s)) (hr : Writes (.word (':' :: cs) :: ps) ts) :
    Writes (.word w :: .word (':' :: cs) :: ps) (.identifier s :: ts) := by
  refine .word' h hr ?_
  intro s' r hl _ d hd
  obtain ⟨c, hc, hcw⟩ : ∃ c, w.head? = some c ∧ isWord c = true := by
    generalize ht : Token.identifier s = t at h
    cases h with
    | symbol h => subst ht; simp [Token.symbol] at h
    | name h =>
      obtain ⟨⟨c, hc, _⟩, hall, _⟩ := h
      exact ⟨c, hc, hall c (List.mem_of_mem_head? hc)⟩
    | number => simp at ht
  have hd' : isWord d = false ∧ d ≠ '/' := by
    obtain ⟨b, s'', rfl, hb, _, _⟩ := layout_word hl
    cases b with
    | nil => simp at hd; subst hd; decide
    | cons x b =>
      simp at hd
      subst hd
      have := hb x (by simp)
      simp only [isBlank, Bool.or_eq_true, beq_iff_eq] at this
      rcases this with ((rfl | rfl) | rfl) | rfl <;> decide
  rintro (⟨t, ht⟩ | h1 | ⟨_, h2⟩)
  · have := symbol_word ht ⟨c, List.mem_of_mem_head? hc, hcw⟩
    rw [hd'.1] at this; simp at this
  · have : d = '/' := by
      have := congrArg List.getLast? h1
      simpa using this
    exact hd'.2 this
  · rw [hd'.1] at h2; simp at h2

/-! ## Patterns -/

mutual
theorem pattern_writes : ∀ (p : Pattern), p.shaped = true → (∀ x ∈ p.toks, Writable x) →
    Writes (fmtPattern p).pieces p.toks
  | .ident s, _, hw => by
    have h := writes_ident (hw (.identifier s) (by simp [Pattern.toks]))
    rw [fmtPattern, Pattern.toks, h.1]
    exact .word h.2.1 h.2.2 .nil rfl
  | .tuple [], hp, _ => by simp [Pattern.shaped] at hp
  | .tuple (p :: ps), hp, hw => by
    simp only [Pattern.shaped, patternsShaped, Bool.and_eq_true] at hp
    rw [Pattern.toks] at hw ⊢
    obtain ⟨h1, h2⟩ := patterns_writes ps hp.2.2 (fun x hx => hw x (by simp [hx]))
    rw [fmtPattern, fmtPatterns]
    norm
    exact .closed rfl rfl (.append (pattern_writes p hp.2.1 (fun x hx => hw x (by simp [hx])))
      (.append h1 (.closed rfl rfl .nil) rfl) (safeStart_append h2 rfl))
theorem patterns_writes : ∀ (ps : List Pattern), patternsShaped ps = true → (∀ x ∈ patternsToks ps, Writable x) →
    Writes (piecesAll ((fmtPatterns ps).flatMap (fun x => [.str ", ", x]))) (patternsToks ps) ∧
      safeStart (piecesAll ((fmtPatterns ps).flatMap (fun x => [.str ", ", x]))) = true
  | [], _, _ => ⟨.nil, rfl⟩
  | p :: ps, hp, hw => by
    simp only [patternsShaped, Bool.and_eq_true] at hp
    rw [patternsToks] at hw ⊢
    obtain ⟨h1, h2⟩ := patterns_writes ps hp.2 (fun x hx => hw x (by simp [hx]))
    rw [fmtPatterns]
    norm
    exact ⟨.closed rfl rfl (.gap (.append (pattern_writes p hp.1 (fun x hx => hw x (by simp [hx]))) h1 h2)), rfl⟩
end

/-- A pattern and a type annotation. -/
theorem pattern_colon (p : Pattern) (hp : p.shaped = true) (hw : ∀ x ∈ p.toks, Writable x) {ps : List Piece}
    {ts : List Token} (h : Writes ps ts) :
    Writes ((fmtPattern p).pieces ++ .word [':'] :: .gap :: ps) (p.toks ++ .colon :: ts) := by
  have h' : Writes (.word [':'] :: .gap :: ps) (.colon :: ts) := .word (.symbol rfl) (by simp) (.gap h) rfl
  match p with
  | .ident s =>
    have h1 := writes_ident (hw (.identifier s) (by simp [Pattern.toks]))
    rw [fmtPattern, Pattern.toks, h1.1]
    exact writes_ident_colon h1.2.1 h'
  | .tuple [] => simp [Pattern.shaped] at hp
  | .tuple (p :: ps) =>
    simp only [Pattern.shaped, patternsShaped, Bool.and_eq_true] at hp
    rw [Pattern.toks] at hw ⊢
    obtain ⟨h1, h2⟩ := patterns_writes ps hp.2.2 (fun x hx => hw x (by simp [hx]))
    rw [fmtPattern, fmtPatterns]
    norm
    exact .closed rfl rfl (.append (pattern_writes p hp.2.1 (fun x hx => hw x (by simp [hx])))
      (.append h1 (.closed rfl rfl h') rfl) (safeStart_append h2 rfl))

/-! ## Statements -/

theorem p_let : (Doc.str "let").pieces = [.word ['l', 'e', 't']] := rfl
theorem p_const : (Doc.str "const").pieces = [.word ['c', 'o', 'n', 's', 't']] := rfl
theorem p_return : (Doc.str "return").pieces = [.word ['r', 'e', 't', 'u', 'r', 'n']] := rfl
theorem p_if : (Doc.str "if").pieces = [.word ['i', 'f']] := rfl
theorem p_else : (Doc.str "else").pieces = [.word ['e', 'l', 's', 'e']] := rfl
theorem p_loop : (Doc.str "loop").pieces = [.word ['l', 'o', 'o', 'p']] := rfl
theorem p_while : (Doc.str "while").pieces = [.word ['w', 'h', 'i', 'l', 'e']] := rfl
theorem p_for : (Doc.str "for").pieces = [.word ['f', 'o', 'r']] := rfl
theorem p_fn : (Doc.str "fn").pieces = [.word ['f', 'n']] := rfl
theorem p_struct : (Doc.str "struct").pieces = [.word ['s', 't', 'r', 'u', 'c', 't']] := rfl
theorem p_use : (Doc.str "use").pieces = [.word ['u', 's', 'e']] := rfl
theorem p_break : (Doc.str "break;").pieces = [.word (['b', 'r', 'e', 'a', 'k'] ++ [';'])] := rfl
theorem p_continue : (Doc.str "continue;").pieces = [.word (['c', 'o', 'n', 't', 'i', 'n', 'u', 'e'] ++ [';'])] := rfl
theorem p_eq : (Doc.str " = ").pieces = [.gap, .word ['='], .gap] := rfl
theorem p_semicolon : (Doc.str ";").pieces = [.word [';']] := rfl
theorem p_arrow : (Doc.str " -> ").pieces = [.gap, .word ['-', '>'], .gap] := rfl
theorem p_open : (Doc.str " {").pieces = [.gap, .word ['{']] := rfl
theorem p_path : (Doc.str "::").pieces = [.word [':', ':']] := rfl
theorem p_sep : (Doc.str ",").pieces = [.word [',']] := rfl

/-- Normal form, with the words of statements and items. -/
macro "norm'" : tactic => `(tactic| simp only [Doc.pieces, piecesAll, piecesAll_append, parens, braces, commaSeparated, Doc.join,
  p_lparen, p_rparen, p_lbrack, p_rbrack, p_lbrace, p_rbrace, p_dot, p_star, p_comma, p_semi, p_colon, p_space, p_as, p_new,
  p_true, p_false, p_let, p_const, p_return, p_if, p_else, p_loop, p_while, p_for, p_fn, p_struct, p_use, p_break, p_continue,
  p_eq, p_semicolon, p_arrow, p_open, p_path, p_sep,
  List.flatMap_cons, List.flatMap_nil, List.cons_append, List.nil_append, List.append_nil,
  List.append_assoc])

theorem const_writes (c : ConstDef) (hp : c.plain = true) (hw : ∀ x ∈ c.toks, Writable x) :
    Writes (fmtConst c).pieces c.toks := by
  simp only [ConstDef.plain, Bool.and_eq_true, Option.isNone_iff_eq_none] at hp
  simp only [ConstDef.toks, hp.1, annotToks, List.cons_append, List.nil_append] at hw ⊢
  have h := writes_ident (hw (.identifier c.name) (by simp))
  rw [fmtConst]
  norm'
  rw [h.1]
  exact .word (.symbol rfl) (by simp) (.gap (.word h.2.1 h.2.2 (.gap (.word (.symbol rfl) (by simp)
    (.gap (.append (expr_writes _ hp.2 (fun x hx => hw x (by simp [hx]))) (.closed rfl rfl .nil) rfl)) rfl)) rfl)) rfl

/-- The statements of a block. -/
def linesOf (ds : List Doc) : List Piece := piecesAll (ds.map (fun d => .concat [.line, d]))

theorem linesOf_cons (d : Doc) (ds : List Doc) : linesOf (d :: ds) = .gap :: d.pieces ++ linesOf ds := by
  simp [linesOf, piecesAll, Doc.pieces]

theorem linesOf_safe (ds : List Doc) : safeStart (linesOf ds) = true := by
  cases ds with
  | nil => rfl
  | cons d ds => rw [linesOf_cons]; rfl

theorem block_writes {k : Nat} {opening : String} {ps : List Piece} (ho : (Doc.str opening).pieces = ps ++ [.word ['{']])
    (hps : ps = [] ∨ ps = [.gap]) {ds : List Doc} {ts : List Token} (h : Writes (linesOf ds) ts) :
    Writes (piecesAll (fmtBlock k opening ds)) (.lBrace :: ts ++ [.rBrace]) := by
  have e : ∃ g, (g = [] ∨ g = [.gap]) ∧
      piecesAll (fmtBlock k opening ds) = ps ++ .word ['{'] :: (linesOf ds ++ g ++ [.word ['}']]) := by
    cases ds with
    | nil => exact ⟨[], .inl rfl, by simp [fmtBlock, piecesAll, ho, linesOf]; rfl⟩
    | cons d ds =>
      refine ⟨[.gap], .inr rfl, ?_⟩
      simp [fmtBlock, piecesAll, ho, linesOf, Doc.pieces]
      rfl
  obtain ⟨g, hg, e⟩ := e
  rw [e]
  have h1 : Writes (g ++ [.word ['}']]) [.rBrace] := by
    rcases hg with rfl | rfl
    · exact .closed rfl rfl .nil
    · exact .gap (.closed rfl rfl .nil)
  have h2 : Writes (.word ['{'] :: (linesOf ds ++ g ++ [.word ['}']])) (.lBrace :: ts ++ [.rBrace]) := by
    refine .closed rfl rfl ?_
    rw [List.append_assoc]
    refine .append h h1 ?_
    rcases hg with rfl | rfl <;> rfl
  rcases hps with rfl | rfl
  · exact h2
  · exact .gap h2

theorem condToks_plain {c : Expr} {b : List Token} (h : needsParens c b = false) : condToks c b = c.toks ++ b := by
  simp [condToks, h]

/-- The part of a `for` between the second semicolon and the closing parenthesis. -/
def fmtStep (k : Nat) : Stmt → Doc
  | .expr e => fmtExpr e
  | s => (fmtStmt k s).stripSemicolon

theorem step_writes (k : Nat) (s : Stmt) (hs : s.isStep = true) (hp : s.plain = true)
    (hw : ∀ x ∈ s.toks.dropLast, Writable x) : Writes (fmtStep k s).pieces s.toks.dropLast := by
  cases s <;> simp [Stmt.isStep] at hs
  case assign l r =>
    simp only [Stmt.plain, Bool.and_eq_true] at hp
    have e : (Stmt.assign l r).toks.dropLast = l.toks ++ .eq_ :: r.toks := by
      rw [Stmt.toks, List.dropLast_concat]
    have e' : fmtStep k (.assign l r) = .concat [fmtExpr l, .str " = ", fmtExpr r] := by
      rw [fmtStep, fmtStmt] <;> first | rfl | simp
    rw [e] at hw ⊢
    rw [e']
    norm'
    exact .append (expr_writes l hp.1 (fun x hx => hw x (by simp [hx]))) (.gap (.word (.symbol rfl) (by simp)
      (.gap (expr_writes r hp.2 (fun x hx => hw x (by simp [hx])))) rfl)) rfl
  case expr e =>
    rw [Stmt.plain] at hp
    have h : (Stmt.expr e).toks.dropLast = e.toks := by rw [Stmt.toks, List.dropLast_concat]
    rw [h] at hw ⊢
    exact expr_writes e hp hw

mutual
theorem stmt_writes (k : Nat) : ∀ (s : Stmt), s.shaped = true → s.plain = true → (∀ x ∈ s.toks, Writable x) →
    Writes (fmtStmt k s).pieces s.toks
  | .let_ p none e, hs, hp, hw => by
    simp only [Stmt.shaped, Bool.and_eq_true] at hs
    simp only [Stmt.plain, Bool.and_eq_true] at hp
    simp only [Stmt.toks, annotToks, List.cons_append, List.append_nil] at hw ⊢
    rw [fmtStmt]
    norm'
    exact .word (.symbol rfl) (by simp) (.gap (.append (pattern_writes p hs.1.1 (fun x hx => hw x (by simp [hx])))
      (.gap (.word (.symbol rfl) (by simp) (.gap (.append (expr_writes e hp.2 (fun x hx => hw x (by simp [hx])))
        (.closed rfl rfl .nil) rfl)) rfl)) rfl)) rfl
  | .let_ p (some t) e, hs, hp, hw => by
    simp only [Stmt.shaped, Bool.and_eq_true] at hs
    simp only [Stmt.plain, Option.all_some, Bool.and_eq_true] at hp
    simp only [Stmt.toks, annotToks, List.cons_append, List.append_assoc] at hw ⊢
    rw [fmtStmt]
    norm'
    exact .word (.symbol rfl) (by simp) (.gap (pattern_colon p hs.1.1 (fun x hx => hw x (by simp [hx]))
      (.append (type_writes t hp.1 (fun x hx => hw x (by simp [hx])))
      (.gap (.word (.symbol rfl) (by simp) (.gap (.append (expr_writes e hp.2 (fun x hx => hw x (by simp [hx])))
        (.closed rfl rfl .nil) rfl)) rfl)) rfl))) rfl
  | .const c, _, hp, hw => by
    rw [Stmt.plain] at hp
    rw [Stmt.toks] at hw ⊢
    rw [fmtStmt]
    exact const_writes c hp hw
  | .assign l r, _, hp, hw => by
    simp only [Stmt.plain, Bool.and_eq_true] at hp
    simp only [Stmt.toks, List.cons_append, List.append_assoc] at hw ⊢
    rw [fmtStmt]
    norm'
    exact .append (expr_writes l hp.1 (fun x hx => hw x (by simp [hx]))) (.gap (.word (.symbol rfl) (by simp)
      (.gap (.append (expr_writes r hp.2 (fun x hx => hw x (by simp [hx]))) (.closed rfl rfl .nil) rfl)) rfl)) rfl
  | .return_ none, _, _, _ => by
    rw [fmtStmt, Stmt.toks]
    norm'
    exact .word (.symbol rfl) (by simp) (.closed rfl rfl .nil) rfl
  | .return_ (some e), _, hp, hw => by
    simp only [Stmt.plain, Option.all_some] at hp
    rw [Stmt.toks] at hw ⊢
    rw [fmtStmt]
    norm'
    exact .word (.symbol rfl) (by simp) (.gap (.append (expr_writes e hp (fun x hx => hw x (by simp [hx])))
      (.closed rfl rfl .nil) rfl)) rfl
  | .if_ c t none, hs, hp, hw => by
    simp only [Stmt.shaped, Bool.and_eq_true] at hs
    simp only [Stmt.plain, Bool.and_eq_true, Bool.not_eq_true'] at hp
    rw [Stmt.toks, condToks_plain hp.1.1] at hw ⊢
    rw [fmtStmt]
    norm'
    exact .word (.symbol rfl) (by simp) (.gap (.append (expr_writes c hp.1.2 (fun x hx => hw x (by simp [hx])))
      (.gap (stmt_writes k t hs.2 hp.2 (fun x hx => hw x (by simp [hx])))) rfl)) rfl
  | .if_ c t (some e), hs, hp, hw => by
    simp only [Stmt.shaped, Bool.and_eq_true] at hs
    simp only [Stmt.plain, Bool.and_eq_true, Bool.not_eq_true'] at hp
    rw [Stmt.toks, condToks_plain hp.1.1.1] at hw ⊢
    rw [fmtStmt]
    norm'
    exact .word (.symbol rfl) (by simp) (.gap (.append (expr_writes c hp.1.1.2 (fun x hx => hw x (by simp [hx])))
      (.gap (.append (stmt_writes k t hs.1.1.2 hp.1.2 (fun x hx => hw x (by simp [hx])))
        (.gap (.word (.symbol rfl) (by simp) (.gap (stmt_writes k e hs.2 hp.2 (fun x hx => hw x (by simp [hx])))) rfl))
        rfl)) rfl)) rfl
  | .expr e, _, hp, hw => by
    rw [Stmt.plain] at hp
    rw [Stmt.toks] at hw ⊢
    rw [fmtStmt]
    norm'
    exact .append (expr_writes e hp (fun x hx => hw x (by simp [hx]))) (.closed rfl rfl .nil) rfl
  | .block ss, hs, hp, hw => by
    rw [Stmt.shaped] at hs
    rw [Stmt.plain] at hp
    rw [Stmt.toks] at hw ⊢
    rw [fmtStmt, Doc.pieces]
    exact block_writes (ps := []) rfl (.inl rfl) (stmts_writes k ss hs hp (fun x hx => hw x (by simp [hx])))
  | .loop_ b, hs, hp, hw => by
    rw [Stmt.shaped] at hs
    rw [Stmt.plain] at hp
    rw [Stmt.toks] at hw ⊢
    rw [fmtStmt]
    norm'
    exact .word (.symbol rfl) (by simp) (.gap (stmt_writes k b hs hp (fun x hx => hw x (by simp [hx])))) rfl
  | .while_ c b, hs, hp, hw => by
    simp only [Stmt.shaped, Bool.and_eq_true] at hs
    simp only [Stmt.plain, Bool.and_eq_true, Bool.not_eq_true'] at hp
    rw [Stmt.toks, condToks_plain hp.1.1] at hw ⊢
    rw [fmtStmt]
    norm'
    exact .word (.symbol rfl) (by simp) (.gap (.append (expr_writes c hp.1.2 (fun x hx => hw x (by simp [hx])))
      (.gap (stmt_writes k b hs.2 hp.2 (fun x hx => hw x (by simp [hx])))) rfl)) rfl
  | .for_ i c s b, hs, hp, hw => by
    simp only [Stmt.shaped, Bool.and_eq_true] at hs
    simp only [Stmt.plain, Bool.and_eq_true] at hp
    simp only [Stmt.toks, List.cons_append, List.append_assoc] at hw ⊢
    have e : fmtStmt k (.for_ i c s b) = .concat [.str "for", .str " ", .str "(", fmtStmt k i, .str " ", fmtExpr c,
        .str ";", .str " ", fmtStep k s, .str ")", .str " ", fmtStmt k b] := by
      cases s <;> simp [fmtStmt, fmtStep]
    rw [e]
    norm'
    exact .word (.symbol rfl) (by simp) (.gap (.closed rfl rfl
      (.append (stmt_writes k i hs.1.1.1.1.2 hp.1.1.1 (fun x hx => hw x (by simp [hx])))
        (.gap (.append (expr_writes c hp.1.1.2 (fun x hx => hw x (by simp [hx])))
          (.closed rfl rfl (.gap (.append (step_writes k s hs.1.1.2 hp.1.2 (fun x hx => hw x (by simp [hx])))
            (.closed rfl rfl (.gap (stmt_writes k b hs.2 hp.2 (fun x hx => hw x (by simp [hx]))))) rfl))) rfl)) rfl))) rfl
  | .break_, _, _, _ => by
    rw [fmtStmt, Stmt.toks, p_break]
    exact .split (by simp) (by simp) (.word (.symbol rfl) (by simp) (.closed rfl rfl .nil) rfl)
  | .continue_, _, _, _ => by
    rw [fmtStmt, Stmt.toks, p_continue]
    exact .split (by simp) (by simp) (.word (.symbol rfl) (by simp) (.closed rfl rfl .nil) rfl)
theorem stmts_writes (k : Nat) : ∀ (ss : List Stmt), stmtsShaped ss = true → stmtsPlain ss = true →
    (∀ x ∈ stmtsToks ss, Writable x) → Writes (linesOf (fmtStmts k ss)) (stmtsToks ss)
  | [], _, _, _ => .nil
  | s :: ss, hs, hp, hw => by
    simp only [stmtsShaped, Bool.and_eq_true] at hs
    simp only [stmtsPlain, Bool.and_eq_true] at hp
    rw [stmtsToks] at hw ⊢
    rw [fmtStmts, linesOf_cons]
    exact .gap (.append (stmt_writes k s hs.1 hp.1 (fun x hx => hw x (by simp [hx])))
      (stmts_writes k ss hs.2 hp.2 (fun x hx => hw x (by simp [hx]))) (linesOf_safe _))
end

/-! ## Items -/

theorem typed_writes : ∀ (ps : List (String × TypeExpr)), ps.all (fun p => p.2.plain) = true →
    (∀ x ∈ typedToks ps, Writable x) →
    Writes (piecesAll ((ps.map fmtParam).flatMap (fun x => [.str ", ", x]))) (typedToks ps) ∧
      safeStart (piecesAll ((ps.map fmtParam).flatMap (fun x => [.str ", ", x]))) = true
  | [], _, _ => ⟨.nil, rfl⟩
  | (f, t) :: ps, hp, hw => by
    simp only [List.all_cons, Bool.and_eq_true] at hp
    rw [typedToks] at hw ⊢
    have h' := writes_ident (hw (.identifier f) (by simp))
    obtain ⟨h1, h2⟩ := typed_writes ps hp.2 (fun x hx => hw x (by simp [hx]))
    rw [List.map_cons, fmtParam]
    norm'
    rw [h'.1]
    exact ⟨.closed rfl rfl (.gap (writes_typed h'.2.1 h'.2.2
      (.append (type_writes t hp.1 (fun x hx => hw x (by simp [hx]))) h1 h2))), rfl⟩

theorem params_writes (ps : List (String × TypeExpr)) (hp : ps.all (fun p => p.2.plain) = true)
    (hw : ∀ x ∈ paramsToks ps, Writable x) :
    Writes (parens (commaSeparated (ps.map fmtParam))).pieces (.lParen :: paramsToks ps ++ [.rParen]) := by
  match ps with
  | [] =>
    rw [List.map_nil, paramsToks]
    norm'
    exact .closed rfl rfl (.closed rfl rfl .nil)
  | (f, t) :: ps =>
    simp only [List.all_cons, Bool.and_eq_true] at hp
    rw [paramsToks] at hw ⊢
    have h' := writes_ident (hw (.identifier f) (by simp))
    obtain ⟨h1, h2⟩ := typed_writes ps hp.2 (fun x hx => hw x (by simp [hx]))
    rw [List.map_cons, fmtParam]
    norm'
    rw [h'.1]
    exact .closed rfl rfl (writes_typed h'.2.1 h'.2.2 (.append (type_writes t hp.1 (fun x hx => hw x (by simp [hx])))
      (.append h1 (.closed rfl rfl .nil) rfl) (safeStart_append h2 rfl)))

theorem block_safe (k : Nat) (ds : List Doc) : safeStart (piecesAll (fmtBlock k " {" ds)) = true := by
  cases ds <;> rfl

theorem function_writes (k : Nat) (f : FunctionDef) (hs : (Item.function f).shaped = true)
    (hp : (Item.function f).plain = true) (hw : ∀ x ∈ f.toks, Writable x) :
    Writes (fmtFunction k f).pieces f.toks := by
  simp only [Item.shaped, Bool.and_eq_true] at hs
  simp only [Item.plain, Bool.and_eq_true] at hp
  rw [FunctionDef.toks] at hw ⊢
  have h := writes_ident (hw (.identifier f.name) (by simp))
  have hb : Writes (piecesAll (fmtBlock k " {" (fmtStmts k f.body))) (.lBrace :: stmtsToks f.body ++ [.rBrace]) :=
    block_writes (ps := [.gap]) rfl (.inr rfl) (stmts_writes k f.body hs.2 hp.2 (fun x hx => hw x (by simp [hx])))
  have hps := params_writes f.params hp.1.1 (fun x hx => hw x (by simp [hx]))
  have hr : Writes (piecesAll (match f.returnType with
        | .tuple [] => []
        | t => [.str " -> ", fmtType t]) ++ piecesAll (fmtBlock k " {" (fmtStmts k f.body)))
      ((if f.returnType.isUnit then [] else .arrow :: f.returnType.toks) ++ (.lBrace :: stmtsToks f.body ++ [.rBrace])) ∧
      safeStart (piecesAll (match f.returnType with
        | .tuple [] => []
        | t => [.str " -> ", fmtType t]) ++ piecesAll (fmtBlock k " {" (fmtStmts k f.body))) = true := by
    by_cases hu : f.returnType = .tuple []
    · rw [hu]
      exact ⟨hb, block_safe k _⟩
    · have hu' : f.returnType.isUnit = false := by
        unfold TypeExpr.isUnit
        split
        · exact absurd ‹_› hu
        · rfl
      have e : (match f.returnType with
        | .tuple [] => []
        | t => [.str " -> ", fmtType t]) = [.str " -> ", fmtType f.returnType] := by
        split
        · exact absurd ‹_› hu
        · rfl
      rw [e, hu']
      norm'
      simp only [Bool.false_eq_true, if_false, List.cons_append]
      refine ⟨.gap (.word (.symbol rfl) (by simp) (.gap (.append (type_writes _ hp.1.2 ?_) ?_ (block_safe k _))) rfl), rfl⟩
      · intro x hx
        exact hw x (by simp [hu', hx])
      · simpa using hb
  rw [fmtFunction, Doc.pieces, piecesAll_append, piecesAll_append]
  simp only [piecesAll, p_fn, p_space, h.1, List.cons_append, List.nil_append, List.append_nil, List.append_assoc]
  refine .word (.symbol rfl) (by simp) (.gap (.word h.2.1 h.2.2 ?_ (by rfl))) rfl
  have := hps.append hr.1 hr.2
  simp only [List.cons_append, List.append_assoc, List.nil_append] at this ⊢
  exact this

theorem struct_writes (k : Nat) (n : String) (fs : List (String × TypeExpr)) (hp : fs.all (fun p => p.2.plain) = true)
    (hw : ∀ x ∈ (Item.struct n fs).toks, Writable x) : Writes (fmtStruct k n fs).pieces (Item.struct n fs).toks := by
  rw [Item.toks] at hw ⊢
  have h := writes_ident (hw (.identifier n) (by simp))
  have hf : Writes (piecesAll (fs.map (fun p => .concat [.line, .str p.1, .str ": ", fmtType p.2, .str ","])))
      (structToks fs) := by
    have hw' : ∀ x ∈ structToks fs, Writable x := fun x hx => hw x (by simp [hx])
    clear h hw
    induction fs with
    | nil => exact .nil
    | cons p fs ih =>
      obtain ⟨f, t⟩ := p
      simp only [List.all_cons, Bool.and_eq_true] at hp
      rw [structToks] at hw' ⊢
      have h' := writes_ident (hw' (.identifier f) (by simp))
      rw [List.map_cons]
      norm'
      rw [h'.1]
      exact .gap (writes_typed h'.2.1 h'.2.2 (.append (type_writes t hp.1 (fun x hx => hw' x (by simp [hx])))
        (.closed rfl rfl (ih hp.2 (fun x hx => hw' x (by simp [hx])))) rfl))
  have e : ∃ g, (g = [] ∨ g = [.gap]) ∧ (fmtStruct k n fs).pieces = .word ['s', 't', 'r', 'u', 'c', 't'] :: .gap ::
      .word n.toList :: .gap :: .word ['{'] ::
        (piecesAll (fs.map (fun p => .concat [.line, .str p.1, .str ": ", fmtType p.2, .str ","])) ++ (g ++ [.word ['}']])) := by
    cases fs with
    | nil =>
      refine ⟨[], .inl rfl, ?_⟩
      rw [fmtStruct]
      norm'
      rw [h.1]
      rfl
    | cons p fs =>
      refine ⟨[.gap], .inr rfl, ?_⟩
      unfold fmtStruct
      norm'
      rw [h.1]
      simp [piecesAll, Doc.pieces]
  obtain ⟨g, hg, e⟩ := e
  rw [e]
  refine .word (.symbol rfl) (by simp) (.gap (.word h.2.1 h.2.2 (.gap (.closed rfl rfl ?_)) rfl)) rfl
  rcases hg with rfl | rfl
  · exact .append hf (.closed rfl rfl .nil) rfl
  · exact .append hf (.gap (.closed rfl rfl .nil)) rfl

theorem names_writes : ∀ (ns : List String), (∀ x ∈ namesToks ns, Writable x) →
    Writes (piecesAll ((ns.map Doc.str).flatMap (fun x => [.str ", ", x]))) (namesToks ns) ∧
      safeStart (piecesAll ((ns.map Doc.str).flatMap (fun x => [.str ", ", x]))) = true
  | [], _ => ⟨.nil, rfl⟩
  | n :: ns, hw => by
    rw [namesToks] at hw ⊢
    have h' := writes_ident (hw (.identifier n) (by simp))
    obtain ⟨h1, h2⟩ := names_writes ns (fun x hx => hw x (by simp [hx]))
    rw [List.map_cons]
    norm'
    rw [h'.1]
    exact ⟨.closed rfl rfl (.gap (.word h'.2.1 h'.2.2 h1 h2)), rfl⟩

theorem path_writes {ps : List Piece} {ts : List Token} (h : Writes ps ts) : ∀ (p : List String), p ≠ [] →
    (∀ x ∈ pathToks p, Writable x) → (splitWords (joinPath p) = [.word (joinPath p)] ∧ joinPath p ≠ [] ∧
      (∀ c ∈ joinPath p, isBlank c = false)) ∧
      Writes (.word (joinPath p) :: .word [':', ':'] :: ps) (pathToks p ++ ts)
  | [], hne, _ => absurd rfl hne
  | [s], _, hw => by
    have h' := writable_ident (hw (.identifier s) (by simp [pathToks]))
    have h'' := writes_ident (hw (.identifier s) (by simp [pathToks]))
    refine ⟨⟨(name_word h'.2).1, (name_word h'.2).2, fun c hc => word_not_blank (h'.2.2.1 c hc)⟩, ?_⟩
    simp only [pathToks, joinPath, List.cons_append, List.nil_append]
    exact writes_ident_colon h''.2.1 (.closed rfl rfl h)
  | s :: s' :: p, _, hw => by
    have h' := writable_ident (hw (.identifier s) (by simp [pathToks]))
    obtain ⟨⟨_, h2, h3⟩, h4⟩ := path_writes h (s' :: p) (by simp) (fun x hx => hw x (by rw [pathToks]; simp [hx]))
    have hb : ∀ c ∈ joinPath (s :: s' :: p), isBlank c = false := by
      intro c hc
      simp only [joinPath, List.mem_append] at hc
      rcases hc with (hc | hc) | hc
      · exact word_not_blank (h'.2.2.1 c hc)
      · simp at hc; subst hc; decide
      · exact h3 c hc
    have hne : joinPath (s :: s' :: p) ≠ [] := by simp [joinPath]
    refine ⟨⟨split_word hb hne, hne, hb⟩, ?_⟩
    rw [pathToks, joinPath, List.append_assoc]
    · exact .split (name_word h'.2).2 (by simp) (writes_ident_colon (cs := ':' :: joinPath (s' :: p)) h'.1
        (.split (w := [':', ':']) (by simp) h2 (.closed rfl rfl h4)))
    · simp

theorem use_writes (p : List String) (items : UseItems) (hp : p ≠ []) (hw : ∀ x ∈ (Item.use p items).toks, Writable x) :
    Writes (fmtUse p items).pieces (Item.use p items).toks := by
  rw [Item.toks] at hw ⊢
  have hi : Writes ((match items with
      | .single s => Doc.str s
      | .list names => braces (commaSeparated (names.map Doc.str))).pieces ++ [.word [';']]) (items.toks ++ [.semicolon]) := by
    match items with
    | .single s =>
      have h := writes_ident (hw (.identifier s) (by simp [UseItems.toks]))
      rw [h.1, UseItems.toks]
      exact .word h.2.1 h.2.2 (.closed rfl rfl .nil) rfl
    | .list [] =>
      rw [UseItems.toks]
      simp only [List.map_nil]
      norm'
      exact .closed rfl rfl (.closed rfl rfl (.closed rfl rfl .nil))
    | .list (n :: ns) =>
      rw [UseItems.toks] at hw ⊢
      have h := writes_ident (hw (.identifier n) (by simp))
      obtain ⟨h1, h2⟩ := names_writes ns (fun x hx => hw x (by simp [hx]))
      simp only [List.map_cons]
      norm'
      rw [h.1]
      simp only [List.cons_append, List.nil_append]
      exact .closed rfl rfl (.word h.2.1 h.2.2 (.append h1 (.closed rfl rfl (.closed rfl rfl .nil)) rfl)
        (safeStart_append h2 rfl))
  obtain ⟨⟨h1, _, _⟩, h2⟩ := path_writes hi p hp (fun x hx => hw x (by simp [hx]))
  have := Writes.word (w := ['u', 's', 'e']) (t := .use_) (.symbol rfl) (by simp) (.gap h2) rfl
  unfold fmtUse
  simp only [Doc.pieces, piecesAll, p_use, p_space, p_path, p_semicolon, h1, List.cons_append, List.append_assoc,
    List.nil_append, List.append_nil] at this ⊢
  exact this

theorem item_writes (k : Nat) (i : Item) (hs : i.shaped = true) (hp : i.plain = true) (hw : ∀ x ∈ i.toks, Writable x) :
    Writes (fmtItem k i).pieces i.toks := by
  cases i with
  | function f => exact function_writes k f hs hp hw
  | struct n fs => exact struct_writes k n fs hp hw
  | const c => exact const_writes c hp hw
  | use p items => exact use_writes p items (by simpa [Item.plain] using hp) hw

theorem items_writes (k : Nat) : ∀ (is : List Item), programShaped is = true → programPlain is = true →
    (∀ x ∈ programToks is, Writable x) →
    Writes (piecesAll (is.flatMap (fun i => [.line, .line, fmtItem k i]) ++ [.line])) (programToks is) ∧
      safeStart (piecesAll (is.flatMap (fun i => [.line, .line, fmtItem k i]) ++ [.line])) = true
  | [], _, _, _ => ⟨.gap .nil, rfl⟩
  | i :: is, hs, hp, hw => by
    simp only [programShaped, List.all_cons, Bool.and_eq_true] at hs
    simp only [programPlain, List.all_cons, Bool.and_eq_true] at hp
    rw [programToks] at hw ⊢
    obtain ⟨h1, h2⟩ := items_writes k is hs.2 hp.2 (fun x hx => hw x (by simp [hx]))
    rw [List.flatMap_cons, List.append_assoc]
    simp only [List.cons_append, List.nil_append, piecesAll, Doc.pieces]
    exact ⟨.gap (.gap (.append (item_writes k i hs.1 hp.1 (fun x hx => hw x (by simp [hx]))) h1 h2)), rfl⟩

theorem module_writes (k : Nat) (is : List Item) (hs : programShaped is = true) (hp : programPlain is = true)
    (hw : ∀ x ∈ programToks is, Writable x) : Writes (fmtModule k is).pieces (programToks is) := by
  match is with
  | [] => exact .nil
  | i :: is =>
    simp only [programShaped, List.all_cons, Bool.and_eq_true] at hs
    simp only [programPlain, List.all_cons, Bool.and_eq_true] at hp
    rw [programToks] at hw ⊢
    obtain ⟨h1, h2⟩ := items_writes k is hs.2 hp.2 (fun x hx => hw x (by simp [hx]))
    rw [fmtModule, Doc.pieces, List.cons_append, piecesAll]
    exact .append (item_writes k i hs.1 hp.1 (fun x hx => hw x (by simp [hx]))) h1 h2

end CairoM.Syntax
