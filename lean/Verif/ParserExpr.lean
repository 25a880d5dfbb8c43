import Verif.ParserTypes

/-!
# Reading back expressions
-/

namespace CairoM.Syntax

open P

/-- The next token continues an expression only at a level below `k`. -/
def Follow (k : Nat) (r : List Token) : Prop := ∀ t, r.head? = some t → ∀ j, t.cont = some j → j < k

theorem Follow.mono {k k' : Nat} {r : List Token} (h : Follow k r) (hk : k ≤ k') : Follow k' r :=
  fun t ht j hj => Nat.lt_of_lt_of_le (h t ht j hj) hk

theorem follow_cons {k : Nat} {t : Token} {r : List Token} : Follow k (t :: r) ↔ ∀ j, t.cont = some j → j < k := by
  simp [Follow]

/-- What may follow an expression that is nested in brackets or lists. -/
def Closed (r : List Token) : Prop := Follow 0 r ∧ structAhead r = false

theorem closed_comma (r : List Token) : Closed (.comma :: r) := ⟨by simp [follow_cons, Token.cont], rfl⟩
theorem closed_rParen (r : List Token) : Closed (.rParen :: r) := ⟨by simp [follow_cons, Token.cont], rfl⟩
theorem closed_rBrack (r : List Token) : Closed (.rBrack :: r) := ⟨by simp [follow_cons, Token.cont], rfl⟩
theorem closed_rBrace (r : List Token) : Closed (.rBrace :: r) := ⟨by simp [follow_cons, Token.cont], rfl⟩
theorem closed_semicolon (r : List Token) : Closed (.semicolon :: r) := ⟨by simp [follow_cons, Token.cont], rfl⟩
theorem closed_eq (r : List Token) : Closed (.eq_ :: r) := ⟨by simp [follow_cons, Token.cont], rfl⟩

/-! ## Heads of expressions -/

theorem Expr.head_starts : ∀ e : Expr, ∃ t x, e.toks = t :: x ∧ t.starts = true
  | .literal v s => ⟨_, _, by simp only [Expr.toks]; rfl, rfl⟩
  | .boolean b => ⟨_, _, by simp only [Expr.toks]; rfl, by cases b <;> rfl⟩
  | .ident s => ⟨_, _, by simp only [Expr.toks]; rfl, rfl⟩
  | .unary op e => ⟨_, _, by simp only [Expr.toks]; rfl, by cases op <;> rfl⟩
  | .binary op l r => by
    obtain ⟨t, x, h, hs⟩ := l.head_starts
    exact ⟨t, _, by simp only [Expr.toks, h]; rfl, hs⟩
  | .call f [] => by
    obtain ⟨t, x, h, hs⟩ := f.head_starts
    exact ⟨t, _, by simp only [Expr.toks, h]; rfl, hs⟩
  | .call f (e :: es) => by
    obtain ⟨t, x, h, hs⟩ := f.head_starts
    exact ⟨t, _, by simp only [Expr.toks, h]; rfl, hs⟩
  | .member e f => by
    obtain ⟨t, x, h, hs⟩ := e.head_starts
    exact ⟨t, _, by simp only [Expr.toks, h]; rfl, hs⟩
  | .index e i => by
    obtain ⟨t, x, h, hs⟩ := e.head_starts
    exact ⟨t, _, by simp only [Expr.toks, h]; rfl, hs⟩
  | .structLit n [] => ⟨_, _, by simp only [Expr.toks]; rfl, rfl⟩
  | .structLit n ((f, e) :: fs) => ⟨_, _, by simp only [Expr.toks]; rfl, rfl⟩
  | .tuple [] => ⟨_, _, by simp only [Expr.toks]; rfl, rfl⟩
  | .tuple [e] => ⟨_, _, by simp only [Expr.toks]; rfl, rfl⟩
  | .tuple (e :: e2 :: es) => ⟨_, _, by simp only [Expr.toks]; rfl, rfl⟩
  | .tupleIndex e i => by
    obtain ⟨t, x, h, hs⟩ := e.head_starts
    exact ⟨t, _, by simp only [Expr.toks, h]; rfl, hs⟩
  | .array [] => ⟨_, _, by simp only [Expr.toks]; rfl, rfl⟩
  | .array (e :: es) => ⟨_, _, by simp only [Expr.toks]; rfl, rfl⟩
  | .arrayRepeat e n => ⟨_, _, by simp only [Expr.toks]; rfl, rfl⟩
  | .cast e t => by
    obtain ⟨t, x, h, hs⟩ := e.head_starts
    exact ⟨t, _, by simp only [Expr.toks, h]; rfl, hs⟩
  | .new t n => ⟨_, _, by simp only [Expr.toks]; rfl, rfl⟩
  | .paren e => ⟨_, _, by simp only [Expr.toks]; rfl, rfl⟩

theorem Expr.toks_pos (e : Expr) : 0 < e.toks.length := by
  obtain ⟨t, x, h, _⟩ := e.head_starts
  simp [h]

theorem Expr.head_atom : ∀ e : Expr, e.shaped = true → 7 ≤ e.prec → ∃ t x, e.toks = t :: x ∧ t.startsAtom = true
  | .literal v s, _, _ => ⟨_, _, by simp only [Expr.toks]; rfl, rfl⟩
  | .boolean b, _, _ => ⟨_, _, by simp only [Expr.toks]; rfl, by cases b <;> rfl⟩
  | .ident s, _, _ => ⟨_, _, by simp only [Expr.toks]; rfl, rfl⟩
  | .unary op e, _, h => by simp [Expr.prec] at h
  | .binary op l r, _, h => by cases op <;> simp [Expr.prec, BinaryOp.prec] at h
  | .call f [], hs, _ => by
    simp only [Expr.shaped, Bool.and_eq_true, decide_eq_true_eq] at hs
    obtain ⟨t, x, h, hs⟩ := f.head_atom hs.1.2 hs.1.1
    exact ⟨t, _, by simp only [Expr.toks, h]; rfl, hs⟩
  | .call f (e :: es), hs, _ => by
    simp only [Expr.shaped, Bool.and_eq_true, decide_eq_true_eq] at hs
    obtain ⟨t, x, h, hs⟩ := f.head_atom hs.1.2 hs.1.1
    exact ⟨t, _, by simp only [Expr.toks, h]; rfl, hs⟩
  | .member e f, hs, _ => by
    simp only [Expr.shaped, Bool.and_eq_true, decide_eq_true_eq] at hs
    obtain ⟨t, x, h, hs⟩ := e.head_atom hs.2 hs.1
    exact ⟨t, _, by simp only [Expr.toks, h]; rfl, hs⟩
  | .index e i, hs, _ => by
    simp only [Expr.shaped, Bool.and_eq_true, decide_eq_true_eq] at hs
    obtain ⟨t, x, h, hs⟩ := e.head_atom hs.1.2 hs.1.1
    exact ⟨t, _, by simp only [Expr.toks, h]; rfl, hs⟩
  | .structLit n [], _, _ => ⟨_, _, by simp only [Expr.toks]; rfl, rfl⟩
  | .structLit n ((f, e) :: fs), _, _ => ⟨_, _, by simp only [Expr.toks]; rfl, rfl⟩
  | .tuple [], _, _ => ⟨_, _, by simp only [Expr.toks]; rfl, rfl⟩
  | .tuple [e], _, _ => ⟨_, _, by simp only [Expr.toks]; rfl, rfl⟩
  | .tuple (e :: e2 :: es), _, _ => ⟨_, _, by simp only [Expr.toks]; rfl, rfl⟩
  | .tupleIndex e i, hs, _ => by
    simp only [Expr.shaped, Bool.and_eq_true, decide_eq_true_eq] at hs
    obtain ⟨t, x, h, hs⟩ := e.head_atom hs.2 hs.1
    exact ⟨t, _, by simp only [Expr.toks, h]; rfl, hs⟩
  | .array [], _, _ => ⟨_, _, by simp only [Expr.toks]; rfl, rfl⟩
  | .array (e :: es), _, _ => ⟨_, _, by simp only [Expr.toks]; rfl, rfl⟩
  | .arrayRepeat e n, _, _ => ⟨_, _, by simp only [Expr.toks]; rfl, rfl⟩
  | .cast e t, _, h => by simp [Expr.prec] at h
  | .new t n, _, _ => ⟨_, _, by simp only [Expr.toks]; rfl, rfl⟩
  | .paren e, _, _ => ⟨_, _, by simp only [Expr.toks]; rfl, rfl⟩

/-! ## Steps and where they stop -/

theorem opOf_tok (op : BinaryOp) (r : List Token) : opOf (opsAt op.prec) (op.tok :: r) = some (op, r) := by
  cases op <;> rfl

theorem opOf_none {k : Nat} (hk : k ≤ 4) {r : List Token} (h : Follow k r) : opOf (opsAt k) r = none := by
  cases r with
  | nil =>
    match k, hk with
    | 0, _ => rfl
    | 1, _ => rfl
    | 2, _ => rfl
    | 3, _ => rfl
    | 4, _ => rfl
  | cons t r =>
    rw [follow_cons] at h
    match k, hk with
    | 0, _ => cases t <;> first | rfl | exact absurd (h _ rfl) (by decide)
    | 1, _ => cases t <;> first | rfl | exact absurd (h _ rfl) (by decide)
    | 2, _ => cases t <;> first | rfl | exact absurd (h _ rfl) (by decide)
    | 3, _ => cases t <;> first | rfl | exact absurd (h _ rfl) (by decide)
    | 4, _ => cases t <;> first | rfl | exact absurd (h _ rfl) (by decide)

theorem binStep_none {k : Nat} (hk : k ≤ 4) {lower : P Expr} {r : List Token} (h : Follow k r) :
    binStep (opsAt k) lower r = none := by
  rw [binStep, bind_none (opOf_none hk h)]

theorem castStep_none {r : List Token} (h : Follow 5 r) : castStep r = none := by
  cases r with
  | nil => rfl
  | cons t r =>
    rw [follow_cons] at h
    cases t <;> first | rfl | exact absurd (h _ rfl) (by decide)

theorem postOp_none {expr : P Expr} {r : List Token} (h : Follow 7 r) : postOp expr r = none := by
  cases r with
  | nil => rfl
  | cons t r =>
    rw [follow_cons] at h
    cases t <;> first | rfl | exact absurd (h _ rfl) (by decide)

/-! ## Levels -/

/-- At a level with repetition: a head and steps. At the other levels: a run of the parser. -/
def SpineAt (expr : P Expr) (alloc : P TypeExpr) (k : Nat) (ts : List Token) (e : Expr) (r : List Token) : Prop :=
  if k ≤ 4 then Spine (tierP expr alloc (k + 1)) (binStep (opsAt k) (tierP expr alloc (k + 1))) binFold ts e r
  else if k = 5 then Spine (tierP expr alloc 6) castStep (fun e t => .cast e t) ts e r
  else if k = 7 then Spine (tierP expr alloc 8) (postOp expr) applyPost ts e r
  else tierP expr alloc k ts = some (e, r)

theorem SpineAt.run {expr : P Expr} {alloc : P TypeExpr} {k : Nat} {ts r : List Token} {e : Expr}
    (h : SpineAt expr alloc k ts e r) (hr : Follow k r) : tierP expr alloc k ts = some (e, r) := by
  unfold SpineAt at h
  split at h
  · rename_i hk
    rw [tierP_bin hk]
    exact h.run (binStep_none hk hr)
  · split at h
    · rename_i hk
      subst hk
      rw [tierP_cast]
      exact h.run (castStep_none hr)
    · split at h
      · rename_i hk
        subst hk
        rw [tierP_call]
        exact h.run (postOp_none hr)
      · exact h

theorem SpineAt.lower {expr : P Expr} {alloc : P TypeExpr} {k : Nat} {ts r : List Token} {e : Expr}
    (h : tierP expr alloc (k + 1) ts = some (e, r)) (h6 : k ≠ 6) (h7 : k ≤ 7) : SpineAt expr alloc k ts e r := by
  unfold SpineAt
  split
  · exact .zero h
  · split
    · rename_i hk
      subst hk
      exact .zero h
    · split
      · rename_i hk
        subst hk
        exact .zero h
      · omega

theorem unary_skip {expr : P Expr} {alloc : P TypeExpr} {t : Token} {ts r : List Token} {e : Expr}
    (ht : t.startsAtom = true) (h : tierP expr alloc 7 (t :: ts) = some (e, r)) :
    tierP expr alloc 6 (t :: ts) = some (e, r) := by
  have hu : unaryOp (t :: ts) = none := unaryOp_none (by rintro rfl; simp [Token.startsAtom] at ht)
    (by rintro rfl; simp [Token.startsAtom] at ht)
  show unaryTier (tierP expr alloc 7) (t :: ts) = _
  rw [unaryTier, bind_some (many_none hu), bind_some h]
  rfl

theorem unaryOp_run (op : UnaryOp) (ts : List Token) : unaryOp (op.tok :: ts) = some (op, ts) := by
  cases op <;> rfl

theorem unary_more {lower : P Expr} {op : UnaryOp} {ts r : List Token} {e : Expr}
    (h : unaryTier lower ts = some (e, r)) : unaryTier lower (op.tok :: ts) = some (.unary op e, r) := by
  rw [unaryTier, bind_run] at h
  cases hm : many unaryOp ts with
  | none => rw [hm] at h; simp at h
  | some x =>
    obtain ⟨ops, mid⟩ := x
    rw [hm] at h
    simp only at h
    have hm' : many unaryOp (op.tok :: ts) = some (op :: ops, mid) := by
      have : manyN unaryOp ts.length ts = some (ops, mid) := hm
      simp [many, manyN, unaryOp_run, this]
    rw [unaryTier, bind_some hm', bind_run]
    rw [bind_run] at h
    cases hl : lower mid with
    | none => rw [hl] at h; simp at h
    | some y =>
      obtain ⟨e', r'⟩ := y
      rw [hl] at h
      simp only [pure_run, Option.some.injEq, Prod.mk.injEq] at h ⊢
      obtain ⟨h1, h2⟩ := h
      exact ⟨by simp [h1], h2⟩

/-- The expression is read back at every level it belongs to, whatever follows that does not bind tighter. -/
def Reads (e : Expr) : Prop :=
  ∀ m, e.toks.length ≤ m + 1 → ∀ k, k ≤ e.prec → ∀ r, Follow (k + 1) r →
    (e.endsIdent = true → structAhead r = false) → SpineAt (parseExpr m) (parseAlloc m) k (e.toks ++ r) e r

theorem Expr.prec_le (e : Expr) : e.prec ≤ 8 := by
  cases e with
  | binary op l r => cases op <;> simp [Expr.prec, BinaryOp.prec]
  | _ => simp [Expr.prec]

/-- It is enough to read the expression at its own level. -/
theorem reads_of_own {e : Expr} (hs : e.shaped = true)
    (h : ∀ m, e.toks.length ≤ m + 1 → ∀ r, Follow (e.prec + 1) r → (e.endsIdent = true → structAhead r = false) →
      SpineAt (parseExpr m) (parseAlloc m) e.prec (e.toks ++ r) e r) : Reads e := by
  intro m hm k hk r hr hi
  obtain ⟨d, hd⟩ : ∃ d, e.prec = k + d := ⟨e.prec - k, by omega⟩
  induction d generalizing k with
  | zero =>
    have : k = e.prec := by omega
    subst this
    exact h m hm r hr hi
  | succ d ih =>
    have h8 := e.prec_le
    have h1 : tierP (parseExpr m) (parseAlloc m) (k + 1) (e.toks ++ r) = some (e, r) :=
      (ih (k + 1) (by omega) (hr.mono (by omega)) (by omega)).run hr
    by_cases h6 : k = 6
    · subst h6
      obtain ⟨t, x, ht, hta⟩ := e.head_atom hs (by omega)
      unfold SpineAt
      simp only [Nat.reduceLeDiff, if_false, Nat.reduceEqDiff]
      rw [ht] at h1 ⊢
      exact unary_skip hta h1
    · exact .lower h1 h6 (by omega)

/-- A nested expression. -/
theorem Reads.nested {e : Expr} (h : Reads e) {m : Nat} (hm : e.toks.length ≤ m) {r : List Token} (hr : Closed r) :
    parseExpr m (e.toks ++ r) = some (e, r) := by
  have := e.toks_pos
  obtain ⟨m, rfl⟩ : ∃ k, m = k + 1 := ⟨m - 1, by omega⟩
  exact (h m hm 0 (by omega) r (hr.1.mono (by omega)) (fun _ => hr.2)).run hr.1

theorem Reads.at {e : Expr} (h : Reads e) {m k : Nat} (hm : e.toks.length ≤ m + 1) (hk : k ≤ e.prec)
    {r : List Token} (hr : Follow k r) (hi : e.endsIdent = true → structAhead r = false) :
    tierP (parseExpr m) (parseAlloc m) k (e.toks ++ r) = some (e, r) :=
  (h m hm k hk r (hr.mono (by omega)) hi).run hr

/-! ## The forms of expressions -/

theorem reads_binary {op : BinaryOp} {l r : Expr} (hs : (Expr.binary op l r).shaped = true) (hl : Reads l)
    (hr : Reads r) : Reads (.binary op l r) := by
  refine reads_of_own hs ?_
  intro m hm s hf hi
  simp only [Expr.shaped, Bool.and_eq_true, decide_eq_true_eq] at hs
  simp only [Expr.toks, List.length_append, List.length_cons] at hm
  simp only [Expr.prec, Expr.endsIdent] at hf hi ⊢
  have hop : op.prec ≤ 4 := by cases op <;> decide
  have hcont : op.tok.cont = some op.prec := by cases op <;> rfl
  have h1 := hl m (by omega) op.prec hs.1.1.1 (op.tok :: r.toks ++ s)
    (by rw [List.cons_append, follow_cons, hcont]; rintro j ⟨⟩; omega) (by intro; cases op <;> rfl)
  have h2 := hr.at (m := m) (k := op.prec + 1) (by omega) hs.1.1.2 hf hi
  unfold SpineAt at h1 ⊢
  simp only [hop, if_true] at h1 ⊢
  rw [show (Expr.binary op l r).toks ++ s = l.toks ++ (op.tok :: r.toks ++ s) by simp [Expr.toks]]
  refine h1.snoc (x := (op, r)) ?_ (by simp; omega)
  rw [binStep, List.cons_append, bind_some (opOf_tok op _), bind_some h2]
  rfl

theorem reads_unary {op : UnaryOp} {e : Expr} (hs : (Expr.unary op e).shaped = true) (he : Reads e) :
    Reads (.unary op e) := by
  refine reads_of_own hs ?_
  intro m hm s hf hi
  simp only [Expr.shaped, Bool.and_eq_true, decide_eq_true_eq] at hs
  simp only [Expr.toks, List.length_cons] at hm
  simp only [Expr.prec, Expr.endsIdent] at hf hi ⊢
  have h1 := he m (by omega) 6 hs.1 s hf hi
  unfold SpineAt at h1 ⊢
  simp only [Nat.reduceLeDiff, if_false, Nat.reduceEqDiff] at h1 ⊢
  rw [show (Expr.unary op e).toks ++ s = op.tok :: (e.toks ++ s) by simp [Expr.toks]]
  exact unary_more h1

theorem reads_cast {e : Expr} {t : TypeExpr} (hs : (Expr.cast e t).shaped = true) (he : Reads e) :
    Reads (.cast e t) := by
  refine reads_of_own hs ?_
  intro m hm s hf hi
  simp only [Expr.shaped, Bool.and_eq_true, decide_eq_true_eq] at hs
  simp only [Expr.toks, List.length_append, List.length_cons] at hm
  simp only [Expr.prec] at hf ⊢
  cases t with
  | named n =>
    have hn : n.shaped = true := by simpa [TypeExpr.shaped] using hs.2
    have h1 := he m (by omega) 5 hs.1.1.1 (.as_ :: .identifier n.name :: s)
      (by rw [follow_cons]; rintro j ⟨⟩; omega) (fun _ => rfl)
    unfold SpineAt at h1 ⊢
    simp only [Nat.reduceLeDiff, if_false, if_true] at h1 ⊢
    rw [show (Expr.cast e (.named n)).toks ++ s = e.toks ++ (.as_ :: .identifier n.name :: s) by
      simp [Expr.toks, TypeExpr.toks]]
    refine h1.snoc (x := TypeExpr.named n) ?_ (by simp; omega)
    rw [castStep, bind_some (just_same _ _), namedType_run hn]
  | _ => simp [TypeExpr.isNamed] at hs

/-- A postfix operator, given that it is read. -/
theorem reads_post {e f : Expr} {op : PostOp} {ts : List Token} (hs : e.shaped = true) (hprec : e.prec = 7)
    (hsub : 7 ≤ f.prec) (hf : Reads f) (htoks : e.toks = f.toks ++ ts) (happ : applyPost f op = e)
    (hlen : ts ≠ [])
    (hop : ∀ m r, e.toks.length ≤ m + 1 → postOp (parseExpr m) (ts ++ r) = some (op, r))
    (hst : ∀ r, structAhead (ts ++ r) = false) : Reads e := by
  refine reads_of_own hs ?_
  intro m hm s _ _
  rw [hprec]
  have hl : e.toks.length = f.toks.length + ts.length := by simp [htoks]
  have h1 := hf m (by omega) 7 hsub (ts ++ s) (by
    intro t ht j hj
    have : j ≤ 7 := by cases t <;> simp [Token.cont] at hj <;> omega
    omega) (fun _ => hst s)
  unfold SpineAt at h1 ⊢
  simp only [Nat.reduceLeDiff, if_false, if_true, Nat.reduceEqDiff] at h1 ⊢
  rw [htoks, List.append_assoc, ← happ]
  refine h1.snoc (hop m s hm) ?_
  have : 0 < ts.length := List.length_pos_iff.2 hlen
  simp [this]

/-- Elements of a list, each read by the parser of nested expressions. -/
theorem nested_list {es : List Expr} (h : ∀ e ∈ es, Reads e) {m : Nat} (hm : ∀ e ∈ es, e.toks.length ≤ m) :
    ∀ e ∈ es, ∀ r, Closed r → parseExpr m (e.toks ++ r) = some (e, r) :=
  fun e he _ hr => (h e he).nested (hm e he) hr

theorem exprs_length {e : Expr} {es : List Expr} {x : Expr} (h : x ∈ e :: es) :
    x.toks.length ≤ e.toks.length + (exprsToks es).length := by
  rw [List.mem_cons] at h
  rw [exprsToks_eq]
  rcases h with rfl | h
  · omega
  · have := length_lt_flatMap (pr := Expr.toks) h
    omega

theorem reads_call {f : Expr} {es : List Expr} (hs : (Expr.call f es).shaped = true) (hf : Reads f)
    (he : ∀ e ∈ es, Reads e) : Reads (.call f es) := by
  have hs' := hs
  simp only [Expr.shaped, Bool.and_eq_true, decide_eq_true_eq] at hs'
  match es with
  | [] =>
    refine reads_post (op := .call []) (ts := [.lParen, .rParen]) hs rfl hs'.1.1 hf (by simp only [Expr.toks]) rfl
      (by simp) ?_ (fun _ => rfl)
    intro m r _
    refine alt_left ?_
    rw [show ([Token.lParen, .rParen] ++ r) = .lParen :: (.rParen :: r) from rfl,
      bind_some (between_run (sepBy_nil (parseExpr_none rfl m)))]
    rfl
  | e :: es =>
    refine reads_post (op := .call (e :: es)) (ts := .lParen :: e.toks ++ exprsToks es ++ [.rParen]) hs rfl hs'.1.1 hf
      (by simp [Expr.toks]) rfl (by simp) ?_ (fun _ => rfl)
    intro m r hm
    refine alt_left ?_
    have hl : ∀ x ∈ e :: es, x.toks.length ≤ m := by
      intro x hx
      have := exprs_length hx
      simp only [Expr.toks, List.length_append, List.length_cons] at hm
      omega
    have h1 := sepBy_list (b := true) (r := .rParen :: r) (ok := Closed) closed_comma (nested_list he hl)
      (closed_rParen _) (just_ne (by decide) _)
    rw [← exprsToks_eq] at h1
    rw [show (.lParen :: e.toks ++ exprsToks es ++ [.rParen] ++ r)
      = .lParen :: (e.toks ++ exprsToks es ++ .rParen :: r) by simp, bind_some (between_run h1)]
    rfl

theorem reads_member {e : Expr} {f : String} (hs : (Expr.member e f).shaped = true) (he : Reads e) :
    Reads (.member e f) := by
  have hs' := hs
  simp only [Expr.shaped, Bool.and_eq_true, decide_eq_true_eq] at hs'
  exact reads_post (op := .member f) (ts := [.dot, .identifier f]) hs rfl hs'.1 he (by simp only [Expr.toks]) rfl
    (by simp) (fun m r _ => rfl) (fun _ => rfl)

theorem reads_tupleIndex {e : Expr} {i : Nat} (hs : (Expr.tupleIndex e i).shaped = true) (he : Reads e) :
    Reads (.tupleIndex e i) := by
  have hs' := hs
  simp only [Expr.shaped, Bool.and_eq_true, decide_eq_true_eq] at hs'
  exact reads_post (op := .tupleIndex i) (ts := [.dot, .number i none]) hs rfl hs'.1 he (by simp only [Expr.toks]) rfl
    (by simp) (fun m r _ => rfl) (fun _ => rfl)

theorem reads_index {e i : Expr} (hs : (Expr.index e i).shaped = true) (he : Reads e) (hi : Reads i) :
    Reads (.index e i) := by
  have hs' := hs
  simp only [Expr.shaped, Bool.and_eq_true, decide_eq_true_eq] at hs'
  refine reads_post (op := .index i) (ts := .lBrack :: i.toks ++ [.rBrack]) hs rfl hs'.1.1 he (by simp [Expr.toks]) rfl
    (by simp) ?_ (fun _ => rfl)
  intro m r hm
  simp only [Expr.toks, List.length_append, List.length_cons] at hm
  have h1 := hi.nested (m := m) (by omega) (closed_rBrack r)
  rw [show (.lBrack :: i.toks ++ [.rBrack] ++ r) = .lBrack :: (i.toks ++ .rBrack :: r) by simp]
  rw [postOp, alt_right (bind_none (between_none (by decide))), alt_right (bind_none (just_ne (by decide) _)),
    alt_right (bind_none (just_ne (by decide) _)), bind_some (between_run h1)]
  rfl

/-! ## Atoms -/

theorem reads_atom {e : Expr} (hs : e.shaped = true) (hprec : e.prec = 8)
    (h : ∀ m, e.toks.length ≤ m + 1 → ∀ r, (e.endsIdent = true → structAhead r = false) →
      atom (parseExpr m) (parseAlloc m) (e.toks ++ r) = some (e, r)) : Reads e := by
  refine reads_of_own hs ?_
  intro m hm r _ hi
  rw [hprec]
  exact h m hm r hi

theorem reads_literal {v : Nat} {s : Option String} : Reads (.literal v s) :=
  reads_atom (by simp [Expr.shaped]) rfl (fun m _ r _ => by simp only [Expr.toks]; rfl)

theorem reads_boolean {b : Bool} : Reads (.boolean b) :=
  reads_atom (by simp [Expr.shaped]) rfl (fun m _ r _ => by simp only [Expr.toks]; cases b <;> rfl)

theorem structFields_none {expr : P Expr} {r : List Token} (h : structAhead r = false) :
    structFields expr r = none := by
  match r with
  | [] => rfl
  | t :: r =>
    by_cases ht : t = .lBrace
    · subst ht
      have hitem : ∀ ts, structAhead (.lBrace :: ts) = false →
          (do let f ← ident; just .colon; let e ← expr; pure (f, e) : P (String × Expr)) ts = none := by
        intro ts hts
        match ts with
        | [] => rfl
        | t :: ts =>
          by_cases hti : ∃ s, t = .identifier s
          · obtain ⟨s, rfl⟩ := hti
            rw [bind_some (show ident (.identifier s :: ts) = some (s, ts) from rfl)]
            match ts with
            | [] => rfl
            | t2 :: ts =>
              refine bind_none (just_ne ?_ _)
              rintro rfl
              simp [structAhead] at hts
          · exact bind_none (ident_none (fun s hs => hti ⟨s, hs⟩))
      rw [structFields, between, bind_some (just_same _ _), bind_some (sepBy_nil (hitem r h))]
      match r with
      | [] => rfl
      | t :: r =>
        refine bind_none (just_ne ?_ _)
        rintro rfl
        simp [structAhead] at h
    · exact between_none ht

theorem reads_ident {s : String} : Reads (.ident s) := by
  refine reads_atom (by simp [Expr.shaped]) rfl (fun m _ r hi => ?_)
  have h1 : structLit (parseExpr m) (.identifier s :: r) = none := by
    rw [structLit, bind_some (show ident (.identifier s :: r) = some (s, r) from rfl),
      bind_none (structFields_none (hi rfl))]
  simp only [Expr.toks]
  show alt literal _ (.identifier s :: r) = _
  rw [alt_right (by rfl), alt_right (by rfl), alt_right (by rfl), alt_right h1, alt_right (by rfl), alt_right (by rfl)]
  rfl

theorem reads_structLit {n : String} {fs : List (String × Expr)} (hs : (Expr.structLit n fs).shaped = true)
    (he : ∀ x ∈ fs, Reads x.2) : Reads (.structLit n fs) := by
  refine reads_atom hs rfl (fun m hm r _ => ?_)
  have key : ∀ ts, structFields (parseExpr m) ts = some (fs, r) →
      atom (parseExpr m) (parseAlloc m) (.identifier n :: ts) = some (.structLit n fs, r) := by
    intro ts h
    rw [atom, alt_right (by rfl), alt_right (by rfl), alt_right (by rfl)]
    refine alt_left ?_
    rw [structLit, bind_some (show ident (.identifier n :: ts) = some (n, ts) from rfl), bind_some h]
    rfl
  match fs with
  | [] =>
    simp only [Expr.toks]
    exact key (.lBrace :: .rBrace :: r) (between_run (sepBy_nil (by rfl)))
  | (f, e) :: fs =>
    simp only [Expr.toks]
    rw [show (.identifier n :: .lBrace :: .identifier f :: .colon :: e.toks ++ fieldsToks fs ++ [.rBrace] ++ r)
      = .identifier n :: (.lBrace :: ((.identifier f :: .colon :: e.toks) ++ fieldsToks fs ++ .rBrace :: r)) by simp]
    refine key _ (between_run ?_)
    rw [fieldsToks_eq]
    refine sepBy_list (pr := fun x : String × Expr => .identifier x.1 :: .colon :: x.2.toks) (a := (f, e)) (ok := Closed)
      closed_comma ?_ (closed_rBrace _) (just_ne (by decide) _)
    intro x hx r hr
    have hl : x.2.toks.length ≤ m := by
      simp only [Expr.toks, fieldsToks_eq, List.length_append, List.length_cons] at hm
      rw [List.mem_cons] at hx
      rcases hx with rfl | hx
      · simp only; omega
      · have := length_lt_flatMap (pr := fun x : String × Expr => .identifier x.1 :: .colon :: x.2.toks) hx
        simp only [List.length_cons] at this
        omega
    rw [List.cons_append, List.cons_append, bind_some (show ident (.identifier x.1 :: _) = some (x.1, _) from rfl),
      bind_some (just_same _ _), bind_some ((he x hx).nested hl hr)]
    rfl

theorem atom_lBrack {expr : P Expr} {alloc : P TypeExpr} (ts : List Token) :
    atom expr alloc (.lBrack :: ts) = alt (arrayRepeat expr) (arrayLit expr) (.lBrack :: ts) := by
  rw [atom, alt_right (by rfl), alt_right (by rfl), alt_right (by rfl), alt_right (by rfl)]
  unfold alt
  cases arrayRepeat expr (.lBrack :: ts) with
  | some x => rfl
  | none =>
    cases arrayLit expr (.lBrack :: ts) with
    | some x => rfl
    | none => rfl

theorem reads_arrayRepeat {e : Expr} {n : Nat} (hs : (Expr.arrayRepeat e n).shaped = true) (he : Reads e) :
    Reads (.arrayRepeat e n) := by
  refine reads_atom hs rfl (fun m hm r _ => ?_)
  simp only [Expr.toks, List.length_append, List.length_cons] at hm ⊢
  rw [show (.lBrack :: e.toks ++ [.semicolon, .number n none, .rBrack] ++ r)
    = .lBrack :: (e.toks ++ .semicolon :: .number n none :: .rBrack :: r) by simp, atom_lBrack]
  refine alt_left (tryMap_some (a := (e, n, none)) ?_ rfl)
  rw [bind_some (just_same _ _), bind_some (he.nested (m := m) (by omega) (closed_semicolon _)),
    bind_some (just_same _ _)]
  rfl

theorem arrayRepeat_none {expr : P Expr} {ts mid : List Token} {e : Expr} {t : Token}
    (h : expr ts = some (e, t :: mid)) (ht : t ≠ .semicolon) : arrayRepeat expr (.lBrack :: ts) = none := by
  refine tryMap_none ?_
  rw [bind_some (just_same _ _), bind_some h, bind_none (just_ne ht _)]

theorem reads_array {es : List Expr} (hs : (Expr.array es).shaped = true) (he : ∀ e ∈ es, Reads e) :
    Reads (.array es) := by
  refine reads_atom hs rfl (fun m hm r _ => ?_)
  match es with
  | [] =>
    simp only [Expr.toks]
    show atom _ _ (.lBrack :: .rBrack :: r) = _
    have h0 : parseExpr m (.rBrack :: r) = none := parseExpr_none rfl m
    rw [atom_lBrack, alt_right]
    · rw [arrayLit, bind_some (between_run (sepBy_nil h0))]
      rfl
    · refine tryMap_none ?_
      rw [bind_some (just_same _ _), bind_none h0]
  | e :: es =>
    have hl : ∀ x ∈ e :: es, x.toks.length ≤ m := by
      intro x hx
      have := exprs_length hx
      simp only [Expr.toks, List.length_append, List.length_cons] at hm
      omega
    have h1 := sepBy_list (b := true) (r := .rBrack :: r) (ok := Closed) closed_comma (nested_list he hl)
      (closed_rBrack _) (just_ne (by decide) _)
    rw [← exprsToks_eq] at h1
    simp only [Expr.toks]
    rw [show (.lBrack :: e.toks ++ exprsToks es ++ [.rBrack] ++ r)
      = .lBrack :: (e.toks ++ exprsToks es ++ .rBrack :: r) by simp, atom_lBrack, alt_right]
    · rw [arrayLit, bind_some (between_run h1)]
      rfl
    · rw [List.append_assoc]
      match es with
      | [] => exact arrayRepeat_none (nested_list he hl e (by simp) _ (closed_rBrack _)) (by decide)
      | e2 :: es =>
        simp only [exprsToks, List.cons_append]
        exact arrayRepeat_none (nested_list he hl e (by simp) _ (closed_comma _)) (by decide)

theorem atom_lParen {expr : P Expr} {alloc : P TypeExpr} (ts : List Token) :
    atom expr alloc (.lParen :: ts) = parenOrTuple expr (.lParen :: ts) := by
  rw [atom, alt_right (by rfl), alt_right (by rfl), alt_right (by rfl), alt_right (by rfl), alt_right (by rfl),
    alt_right (by rfl), alt_right (by rfl)]

theorem paren_first {e : Expr} {ts : List Token} : ∃ t x, e.toks ++ ts = t :: x ∧ t ≠ .rParen := by
  obtain ⟨t, x, h, hs⟩ := e.head_starts
  refine ⟨t, x ++ ts, by rw [h]; rfl, ?_⟩
  rintro rfl
  simp [Token.starts] at hs

theorem reads_paren {e : Expr} (hs : (Expr.paren e).shaped = true) (he : Reads e) : Reads (.paren e) := by
  refine reads_atom hs rfl (fun m hm r _ => ?_)
  simp only [Expr.toks, List.length_append, List.length_cons] at hm ⊢
  rw [show (.lParen :: e.toks ++ [.rParen] ++ r) = .lParen :: (e.toks ++ .rParen :: r) by simp, atom_lParen,
    parenOrTuple, bind_some (just_same _ _)]
  have h0 : (do just .rParen; pure (Expr.tuple []) : P Expr) (e.toks ++ .rParen :: r) = none := by
    obtain ⟨t, x, h, hne⟩ := paren_first (e := e) (ts := .rParen :: r)
    rw [h]
    exact bind_none (just_ne hne _)
  rw [alt_right h0, bind_some (he.nested (m := m) (by omega) (closed_rParen _))]
  rfl

theorem reads_tuple {es : List Expr} (hs : (Expr.tuple es).shaped = true) (he : ∀ e ∈ es, Reads e) :
    Reads (.tuple es) := by
  refine reads_atom hs rfl (fun m hm r _ => ?_)
  -- The first component, the comma, and what follows it.
  have key : ∀ (e : Expr) (rest : List Expr) (ts tail : List Token), Reads e → e.toks.length ≤ m →
      Closed (.comma :: ts) →
      many (do just .comma; parseExpr m) (.comma :: ts) = some (rest, tail) →
      (do let _ ← opt (just .comma); just .rParen; pure (some rest) : P (Option (List Expr))) tail
        = some (some rest, r) →
      atom (parseExpr m) (parseAlloc m) (.lParen :: (e.toks ++ .comma :: ts)) = some (.tuple (e :: rest), r) := by
    intro e rest ts tail h1 h2 h3 h4 h5
    rw [atom_lParen, parenOrTuple, bind_some (just_same _ _)]
    have h0 : (do just .rParen; pure (Expr.tuple []) : P Expr) (e.toks ++ .comma :: ts) = none := by
      obtain ⟨t, x, h, hne⟩ := paren_first (e := e) (ts := .comma :: ts)
      rw [h]
      exact bind_none (just_ne hne _)
    rw [alt_right h0, bind_some (h1.nested h2 h3)]
    have h6 : (do
          peek .comma
          let rest ← many (do just .comma; parseExpr m)
          let _ ← opt (just .comma)
          just .rParen
          pure (some rest) : P (Option (List Expr))) (.comma :: ts) = some (some rest, r) := by
      rw [bind_some (show peek .comma (.comma :: ts) = some ((), .comma :: ts) from by simp [peek]), bind_some h4]
      exact h5
    rw [bind_some (alt_left h6)]
    rfl
  match es with
  | [] =>
    simp only [Expr.toks]
    show atom _ _ (.lParen :: .rParen :: r) = _
    rw [atom_lParen]
    rfl
  | [e] =>
    simp only [Expr.toks, List.length_append, List.length_cons] at hm ⊢
    rw [show (.lParen :: e.toks ++ [.comma, .rParen] ++ r) = .lParen :: (e.toks ++ .comma :: .rParen :: r) by simp]
    refine key e [] (.rParen :: r) (.comma :: .rParen :: r) (he e (by simp)) (by omega) (closed_comma _) ?_ rfl
    refine many_none ?_
    rw [bind_some (just_same _ _)]
    exact parseExpr_none rfl m
  | e :: e2 :: es =>
    have hl : ∀ x ∈ e :: e2 :: es, x.toks.length ≤ m := by
      intro x hx
      have := exprs_length hx
      simp only [Expr.toks, List.length_append, List.length_cons] at hm
      omega
    have h1 := steps_list (ok := Closed) closed_comma (r := .rParen :: r)
      (nested_list (es := e2 :: es) (fun x hx => he x (List.mem_cons_of_mem _ hx))
        (fun x hx => hl x (List.mem_cons_of_mem _ hx))) (closed_rParen _)
    rw [← exprsToks_eq] at h1
    simp only [Expr.toks]
    rw [show (.lParen :: e.toks ++ exprsToks (e2 :: es) ++ [.rParen] ++ r)
      = .lParen :: (e.toks ++ (exprsToks (e2 :: es) ++ .rParen :: r)) by simp]
    have h2 := h1.many (bind_none (just_ne (by decide) _))
    simp only [exprsToks, List.cons_append] at h2 ⊢
    exact key e (e2 :: es) _ (.rParen :: r) (he e (by simp)) (hl e (by simp)) (closed_comma _) h2 rfl

theorem reads_new {t : TypeExpr} {n : Expr} (hs : (Expr.new t n).shaped = true) (hn : Reads n) :
    Reads (.new t n) := by
  refine reads_atom hs rfl (fun m hm r _ => ?_)
  simp only [Expr.shaped, Bool.and_eq_true] at hs
  simp only [Expr.toks, List.length_append, List.length_cons] at hm ⊢
  have := n.toks_pos
  have := t.toks_pos
  obtain ⟨m, rfl⟩ : ∃ k, m = k + 1 := ⟨m - 1, by omega⟩
  rw [show (.new_ :: t.toks ++ .lBrack :: n.toks ++ [.rBrack] ++ r)
    = .new_ :: (t.toks ++ .lBrack :: (n.toks ++ .rBrack :: r)) by simp, atom, alt_right (by rfl), alt_right (by rfl)]
  refine alt_left ?_
  rw [newExpr, bind_some (just_same _ _),
    bind_some (alloc_run (m := m) hs.1.2 hs.1.1 (by omega) (by simp [NoStar])),
    bind_some (between_run (hn.nested (by omega) (closed_rBrack _)))]
  rfl

/-! ## All expressions -/

theorem reads_all : ∀ (N : Nat) (e : Expr), e.toks.length ≤ N → e.shaped = true → Reads e := by
  intro N
  induction N with
  | zero => intro e he; have := e.toks_pos; omega
  | succ N ih =>
    intro e hN hs
    have hs' := hs
    cases e with
    | literal v s => exact reads_literal
    | boolean b => exact reads_boolean
    | ident s => exact reads_ident
    | unary op e =>
      simp only [Expr.shaped, Bool.and_eq_true, Expr.toks, List.length_cons] at hs' hN
      exact reads_unary hs (ih e (by omega) hs'.2)
    | binary op l r =>
      simp only [Expr.shaped, Bool.and_eq_true, Expr.toks, List.length_append, List.length_cons] at hs' hN
      exact reads_binary hs (ih l (by omega) hs'.1.2) (ih r (by omega) hs'.2)
    | call f es =>
      simp only [Expr.shaped, Bool.and_eq_true, exprsShaped_iff] at hs'
      have hf : f.toks.length ≤ N := by
        cases es <;> simp only [Expr.toks, List.length_append, List.length_cons] at hN <;> omega
      refine reads_call hs (ih f hf hs'.1.2) (fun e he => ih e ?_ (hs'.2 e he))
      cases es with
      | nil => simp at he
      | cons x xs =>
        have := exprs_length he
        simp only [Expr.toks, List.length_append, List.length_cons] at hN
        omega
    | member e f =>
      simp only [Expr.shaped, Bool.and_eq_true, Expr.toks, List.length_append, List.length_cons] at hs' hN
      exact reads_member hs (ih e (by omega) hs'.2)
    | index e i =>
      simp only [Expr.shaped, Bool.and_eq_true, Expr.toks, List.length_append, List.length_cons] at hs' hN
      exact reads_index hs (ih e (by omega) hs'.1.2) (ih i (by omega) hs'.2)
    | structLit n fs =>
      simp only [Expr.shaped, fieldsShaped_iff] at hs'
      refine reads_structLit hs (fun x hx => ih x.2 ?_ (hs' x hx))
      cases fs with
      | nil => simp at hx
      | cons y ys =>
        obtain ⟨f, e⟩ := y
        simp only [Expr.toks, fieldsToks_eq, List.length_append, List.length_cons] at hN
        rw [List.mem_cons] at hx
        rcases hx with rfl | hx
        · simp only; omega
        · have := length_lt_flatMap (pr := fun x : String × Expr => .identifier x.1 :: .colon :: x.2.toks) hx
          simp only [List.length_cons] at this
          omega
    | tuple es =>
      simp only [Expr.shaped, exprsShaped_iff] at hs'
      refine reads_tuple hs (fun e he => ih e ?_ (hs' e he))
      match es with
      | [] => simp at he
      | [x] =>
        rw [List.mem_singleton] at he
        subst he
        simp only [Expr.toks, List.length_append, List.length_cons] at hN
        omega
      | x :: y :: ys =>
        have := exprs_length he
        simp only [Expr.toks, List.length_append, List.length_cons] at hN
        omega
    | tupleIndex e i =>
      simp only [Expr.shaped, Bool.and_eq_true, Expr.toks, List.length_append, List.length_cons] at hs' hN
      exact reads_tupleIndex hs (ih e (by omega) hs'.2)
    | array es =>
      simp only [Expr.shaped, exprsShaped_iff] at hs'
      refine reads_array hs (fun e he => ih e ?_ (hs' e he))
      cases es with
      | nil => simp at he
      | cons x xs =>
        have := exprs_length he
        simp only [Expr.toks, List.length_append, List.length_cons] at hN
        omega
    | arrayRepeat e n =>
      simp only [Expr.shaped, Expr.toks, List.length_append, List.length_cons] at hs' hN
      exact reads_arrayRepeat hs (ih e (by omega) hs')
    | cast e t =>
      simp only [Expr.shaped, Bool.and_eq_true, Expr.toks, List.length_append, List.length_cons] at hs' hN
      exact reads_cast hs (ih e (by omega) hs'.1.1.2)
    | new t n =>
      simp only [Expr.shaped, Bool.and_eq_true, Expr.toks, List.length_append, List.length_cons] at hs' hN
      exact reads_new hs (ih n (by omega) hs'.2)
    | paren e =>
      simp only [Expr.shaped, Expr.toks, List.length_append, List.length_cons] at hs' hN
      exact reads_paren hs (ih e (by omega) hs')

theorem Expr.reads {e : Expr} (h : e.shaped = true) : Reads e := reads_all _ e (Nat.le_refl _) h

/-- Expressions are read back. -/
theorem expr_run {e : Expr} (h : e.shaped = true) {n : Nat} (hn : e.toks.length ≤ n) {r : List Token}
    (hf : Follow 0 r) (hi : e.endsIdent = true → structAhead r = false) :
    parseExpr n (e.toks ++ r) = some (e, r) := by
  have := e.toks_pos
  obtain ⟨m, rfl⟩ : ∃ k, n = k + 1 := ⟨n - 1, by omega⟩
  exact (Expr.reads h).at hn (by omega) hf hi

end CairoM.Syntax
