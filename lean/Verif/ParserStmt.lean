import Verif.ParserExpr

/-!
# Reading back types, patterns, statements and items
-/

namespace CairoM.Syntax

open P

/-! ## Types -/

theorem parseType_none {t : Token} {r : List Token} (n : Nat) (h1 : ∀ s, t ≠ .identifier s)
    (h2 : t ≠ .lParen) (h3 : t ≠ .lBrack) : parseType n (t :: r) = none := by
  cases n with
  | zero => rfl
  | succ n =>
    show stars _ _ = none
    rw [stars_eq]
    refine chain_none ?_
    rw [alt_right, tupleType, bind_none (just_ne h2 _)]
    rw [alt_right (namedType_none h1), arrayType, bind_none (just_ne h3 _)]

theorem type_spine : ∀ (N : Nat) (t : TypeExpr), t.toks.length ≤ N → ∀ (m : Nat) (r : List Token),
    t.shaped = true → t.toks.length ≤ m + 1 →
    Spine (alt (alt namedType (arrayType (parseExpr m) (parseType m))) (tupleType (parseType m))) (just .mul) ptrFold
      (t.toks ++ r) t r := by
  intro N
  induction N with
  | zero => intro t ht; have := t.toks_pos; omega
  | succ N ih =>
    intro t ht m r hs hm
    have nested : ∀ t : TypeExpr, t.toks.length ≤ N → t.toks.length ≤ m → t.shaped = true → ∀ r, NoStar r →
        parseType m (t.toks ++ r) = some (t, r) := by
      intro t h1 h2 h3 r hr
      have := t.toks_pos
      obtain ⟨m, rfl⟩ : ∃ k, m = k + 1 := ⟨m - 1, by omega⟩
      exact (ih t h1 m r h3 h2).run (just_none_of_head hr)
    cases t with
    | named n =>
      simp only [TypeExpr.toks, TypeExpr.shaped] at hs ⊢
      exact .zero (alt_left (alt_left (namedType_run hs r)))
    | pointer t =>
      simp only [TypeExpr.toks, TypeExpr.shaped, List.length_append, List.length_cons, List.length_nil] at ht hs hm ⊢
      have := ih t (by omega) m (.mul :: r) hs (by omega)
      rw [List.append_assoc]
      exact this.snoc (just_same _ _) (by simp)
    | fixedArray t n =>
      simp only [TypeExpr.toks, TypeExpr.shaped, List.length_append, List.length_cons, List.length_nil] at ht hs hm ⊢
      refine .zero (alt_left ?_)
      rw [show (.lBrack :: t.toks ++ [.semicolon, .number n none, .rBrack] ++ r)
        = .lBrack :: (t.toks ++ .semicolon :: ((Expr.literal n none).toks ++ .rBrack :: r)) by simp [Expr.toks]]
      rw [alt_right (namedType_none (by simp)), arrayType, bind_some (just_same _ _),
        bind_some (nested t (by omega) (by omega) hs _ (by simp [NoStar])), bind_some (just_same _ _)]
      have hexp := expr_run (e := .literal n none) (n := m) (r := .rBrack :: r) (by simp [Expr.shaped])
        (by simp only [Expr.toks, List.length_cons, List.length_nil]; omega) (closed_rBrack _).1 (fun _ => rfl)
      rw [bind_some (tryMap_some (b := n) hexp (by rfl)), bind_some (just_same _ _)]
      rfl
    | tuple ts =>
      simp only [TypeExpr.shaped, typesShaped_iff] at hs
      refine .zero ?_
      have hhead : ∃ x, (TypeExpr.tuple ts).toks ++ r = .lParen :: x := by
        match ts with
        | [] => exact ⟨_, rfl⟩
        | [_] => exact ⟨_, rfl⟩
        | _ :: _ :: _ => exact ⟨_, rfl⟩
      have hn : alt namedType (arrayType (parseExpr m) (parseType m)) ((TypeExpr.tuple ts).toks ++ r) = none := by
        obtain ⟨x, hx⟩ := hhead
        rw [hx, alt_right (namedType_none (by simp)), arrayType, bind_none (just_ne (by decide) _)]
      rw [alt_right hn]
      refine tupleType_run r (fun r => parseType_none m (by simp) (by simp) (by simp)) (fun t h r hr => ?_)
      have hl := types_length h
      exact nested t (by omega) (by omega) (hs t h) r hr

/-- Types are read back. -/
theorem type_run {t : TypeExpr} {n : Nat} {r : List Token} (hs : t.shaped = true) (hn : t.toks.length ≤ n)
    (hr : NoStar r) : parseType n (t.toks ++ r) = some (t, r) := by
  have := t.toks_pos
  obtain ⟨m, rfl⟩ : ∃ k, n = k + 1 := ⟨n - 1, by omega⟩
  exact (type_spine _ t (Nat.le_refl _) m r hs hn).run (just_none_of_head hr)

/-! ## Patterns -/

theorem Pattern.toks_pos (p : Pattern) : 0 < p.toks.length := by
  cases p with
  | tuple ts => match ts with
    | [] => simp [Pattern.toks]
    | _ :: _ => simp [Pattern.toks]
  | _ => simp [Pattern.toks]

theorem pattern_run : ∀ (N : Nat) (p : Pattern), p.toks.length ≤ N → ∀ (n : Nat) (r : List Token),
    p.shaped = true → p.toks.length ≤ n → parsePattern n (p.toks ++ r) = some (p, r) := by
  intro N
  induction N with
  | zero => intro t ht; have := t.toks_pos; omega
  | succ N ih =>
    intro p hN n r hs hn
    have := p.toks_pos
    obtain ⟨n, rfl⟩ : ∃ k, n = k + 1 := ⟨n - 1, by omega⟩
    cases p with
    | ident s =>
      simp only [Pattern.toks]
      show patternBody (parsePattern n) (.identifier s :: r) = _
      rw [patternBody, alt_right (tryMap_none (between_none (by simp)))]
      rfl
    | tuple ps =>
      simp only [Pattern.shaped, Bool.and_eq_true, decide_eq_true_eq, patternsShaped_iff] at hs
      match ps with
      | [] => simp at hs
      | p :: ps =>
        simp only [Pattern.toks, patternsToks_eq, List.length_append, List.length_cons] at hN hn ⊢
        have hl : ∀ x ∈ p :: ps, x.toks.length ≤ N ∧ x.toks.length ≤ n := by
          intro x hx
          rw [List.mem_cons] at hx
          rcases hx with rfl | hx
          · omega
          · have := length_lt_flatMap (pr := Pattern.toks) hx
            omega
        rw [show (.lParen :: p.toks ++ ps.flatMap (fun e => .comma :: e.toks) ++ [.rParen] ++ r)
          = .lParen :: (p.toks ++ ps.flatMap (fun e => .comma :: e.toks) ++ .rParen :: r) by simp]
        refine alt_left (tryMap_some (a := p :: ps) (between_run ?_) (if_pos hs.1))
        exact sepBy_list (ok := fun _ => True) (fun _ => trivial)
          (fun x hx r _ => ih x (hl x hx).1 n r (hs.2 x hx) (hl x hx).2) trivial (just_ne (by decide) _)

/-! ## Parts of statements -/

theorem annot_run {t : Option TypeExpr} {n : Nat} {r : List Token} (hs : annotShaped t = true)
    (hn : (annotToks t).length ≤ n) :
    typeAnnot (parseType n) (annotToks t ++ .eq_ :: r) = some (t, .eq_ :: r) := by
  cases t with
  | none => exact opt_none (bind_none (just_ne (by decide) _))
  | some t =>
    simp only [annotShaped, annotToks, List.length_cons] at hs hn
    refine opt_some ?_
    rw [annotToks, List.cons_append, bind_some (just_same _ _)]
    exact type_run hs (by omega) (by simp [NoStar])

/-- A nested expression with a closing token after it. -/
theorem expr_closed {e : Expr} (h : e.shaped = true) {n : Nat} (hn : e.toks.length ≤ n) {r : List Token}
    (hr : Closed r) : parseExpr n (e.toks ++ r) = some (e, r) :=
  expr_run h hn hr.1 (fun _ => hr.2)

theorem const_run {c : ConstDef} {n : Nat} {r : List Token} (hs : c.shaped = true) (hn : c.toks.length ≤ n + 1) :
    constDef (parseExpr n) (parseType n) (c.toks ++ r) = some (c, r) := by
  simp only [ConstDef.shaped, Bool.and_eq_true] at hs
  simp only [ConstDef.toks, List.length_append, List.length_cons] at hn
  rw [show c.toks ++ r = .const_ :: .identifier c.name :: (annotToks c.ty ++ .eq_ :: (c.value.toks ++ .semicolon :: r))
    by simp [ConstDef.toks]]
  rw [constDef, bind_some (just_same _ _), bind_some (show ident (.identifier c.name :: _) = some (c.name, _) from rfl),
    bind_some (annot_run hs.1 (by omega)), bind_some (just_same _ _),
    bind_some (expr_closed hs.2 (by omega) (closed_semicolon r)), bind_some (just_same _ _)]
  rfl

theorem let_run {p : Pattern} {t : Option TypeExpr} {e : Expr} {n : Nat} {r : List Token}
    (hs : (Stmt.let_ p t e).shaped = true) (hn : (Stmt.let_ p t e).toks.length ≤ n + 1) :
    letStmt (parseExpr n) (parseType n) (parsePattern n) ((Stmt.let_ p t e).toks ++ r) = some (.let_ p t e, r) := by
  simp only [Stmt.shaped, Bool.and_eq_true] at hs
  simp only [Stmt.toks, List.length_append, List.length_cons] at hn
  rw [show (Stmt.let_ p t e).toks ++ r = .let_ :: (p.toks ++ (annotToks t ++ .eq_ :: (e.toks ++ .semicolon :: r)))
    by simp [Stmt.toks]]
  rw [letStmt, bind_some (just_same _ _), bind_some (pattern_run _ p (Nat.le_refl _) n _ hs.1.1 (by omega)),
    bind_some (annot_run hs.1.2 (by omega)), bind_some (just_same _ _),
    bind_some (expr_closed hs.2 (by omega) (closed_semicolon r)), bind_some (just_same _ _)]
  rfl

/-- An assignment or an expression without the semicolon. -/
theorem step_run {s : Stmt} {n : Nat} {t : Token} {r : List Token} (hstep : s.isStep = true) (hs : s.shaped = true)
    (hn : s.toks.length ≤ n + 1) (ht : t = .semicolon ∨ t = .rParen) :
    assignOrExpr (parseExpr n) (s.toks.dropLast ++ t :: r) = some (s, t :: r) := by
  have hc : Closed (t :: r) := by
    rcases ht with rfl | rfl
    · exact closed_semicolon r
    · exact closed_rParen r
  cases s with
  | assign l e =>
    simp only [Stmt.shaped, Bool.and_eq_true] at hs
    simp only [Stmt.toks, List.length_append, List.length_cons] at hn
    rw [show (Stmt.assign l e).toks.dropLast ++ t :: r = l.toks ++ .eq_ :: (e.toks ++ t :: r) by
      simp only [Stmt.toks]
      rw [List.dropLast_concat]
      simp]
    rw [assignOrExpr, bind_some (expr_closed hs.1 (by omega) (closed_eq _))]
    rw [bind_some (opt_some (a := e) (r := t :: r) (by
      rw [bind_some (just_same _ _)]
      exact expr_closed hs.2 (by omega) hc))]
    rfl
  | expr e =>
    simp only [Stmt.shaped] at hs
    simp only [Stmt.toks, List.length_append, List.length_cons] at hn
    rw [show (Stmt.expr e).toks.dropLast ++ t :: r = e.toks ++ t :: r by
      simp only [Stmt.toks]
      rw [List.dropLast_concat]]
    rw [assignOrExpr, bind_some (expr_closed hs (by omega) hc), bind_some (opt_none (bind_none (just_ne (by
      rcases ht with rfl | rfl <;> decide) _)))]
    rfl
  | _ => simp [Stmt.isStep] at hstep

theorem step_toks {s : Stmt} (h : s.isStep = true) : s.toks = s.toks.dropLast ++ [.semicolon] := by
  cases s with
  | assign l e => simp only [Stmt.toks]; rw [List.dropLast_concat]
  | expr e => simp only [Stmt.toks]; rw [List.dropLast_concat]
  | _ => simp [Stmt.isStep] at h

theorem assign_run {s : Stmt} {n : Nat} {r : List Token} (hstep : s.isStep = true) (hs : s.shaped = true)
    (hn : s.toks.length ≤ n + 1) : assignStmt (parseExpr n) (s.toks ++ r) = some (s, r) := by
  rw [step_toks hstep, List.append_assoc]
  rw [assignStmt, List.cons_append, List.nil_append, bind_some (step_run hstep hs hn (.inl rfl)),
    bind_some (just_same _ _)]
  rfl

theorem step_head {s : Stmt} (h : s.isStep = true) : ∃ t x, s.toks = t :: x ∧ t.starts = true := by
  cases s with
  | assign l e =>
    obtain ⟨t, x, h, hs⟩ := l.head_starts
    exact ⟨t, _, by simp only [Stmt.toks, h]; rfl, hs⟩
  | expr e =>
    obtain ⟨t, x, h, hs⟩ := e.head_starts
    exact ⟨t, _, by simp only [Stmt.toks, h]; rfl, hs⟩
  | _ => simp [Stmt.isStep] at h

/-! ## Heads of statements -/

/-- The first token of a statement. -/
theorem Stmt.head (s : Stmt) : ∃ t x, s.toks = t :: x ∧ t ≠ .else_ ∧ t ≠ .rBrace ∧
    (t = .lBrace → ∃ ss, s = .block ss) := by
  cases s with
  | assign l e =>
    obtain ⟨t, x, h, hs⟩ := step_head (s := .assign l e) rfl
    exact ⟨t, x, h, by rintro rfl; simp [Token.starts] at hs, by rintro rfl; simp [Token.starts] at hs,
      by rintro rfl; simp [Token.starts] at hs⟩
  | expr e =>
    obtain ⟨t, x, h, hs⟩ := step_head (s := .expr e) rfl
    exact ⟨t, x, h, by rintro rfl; simp [Token.starts] at hs, by rintro rfl; simp [Token.starts] at hs,
      by rintro rfl; simp [Token.starts] at hs⟩
  | return_ e => cases e <;> exact ⟨_, _, by simp only [Stmt.toks]; rfl, by simp, by simp, by simp⟩
  | if_ c t e => cases e <;> exact ⟨_, _, by simp only [Stmt.toks]; rfl, by simp, by simp, by simp⟩
  | block ss => exact ⟨_, _, by simp only [Stmt.toks]; rfl, by simp, by simp, fun _ => ⟨ss, rfl⟩⟩
  | const c => exact ⟨_, _, by simp only [Stmt.toks, ConstDef.toks]; rfl, by simp, by simp, by simp⟩
  | _ => exact ⟨_, _, by simp only [Stmt.toks]; rfl, by simp, by simp, by simp⟩

theorem Stmt.toks_pos (s : Stmt) : 0 < s.toks.length := by
  obtain ⟨t, x, h, _⟩ := s.head
  simp [h]

theorem structAhead_append {ts : List Token} (h : 3 ≤ ts.length) (x : List Token) :
    structAhead (ts ++ x) = structAhead ts := by
  match ts, h with
  | a :: b :: c :: ts, _ =>
    simp only [List.cons_append]
    unfold structAhead
    split
    · rename_i h
      simp only [List.cons.injEq] at h
      obtain ⟨rfl, rfl, -⟩ := h
      rfl
    · rename_i h
      simp only [List.cons.injEq] at h
      obtain ⟨rfl, rfl, rfl, -⟩ := h
      rfl
    · rename_i h1 h2
      split
      · rename_i h
        simp only [List.cons.injEq] at h
        obtain ⟨rfl, rfl, -⟩ := h
        exact absurd rfl (h1 _)
      · rename_i h
        simp only [List.cons.injEq] at h
        obtain ⟨rfl, rfl, rfl, -⟩ := h
        exact absurd rfl (h2 _ _)
      · rfl

theorem structAhead_other {t : Token} (h : t ≠ .lBrace) (x : List Token) : structAhead (t :: x) = false := by
  unfold structAhead
  split <;> simp_all

theorem Stmt.ahead (s : Stmt) (x : List Token) : structAhead (s.toks ++ x) = structAhead s.toks := by
  obtain ⟨t, y, h, _, _, hb⟩ := s.head
  by_cases ht : t = .lBrace
  · obtain ⟨ss, rfl⟩ := hb ht
    cases ss with
    | nil => simp [Stmt.toks, stmtsToks, structAhead]
    | cons s ss =>
      refine structAhead_append ?_ x
      have := s.toks_pos
      simp only [Stmt.toks, stmtsToks, List.length_cons, List.length_append]
      omega
  · rw [h, List.cons_append, structAhead_other ht, structAhead_other ht]

/-! ## Conditions -/

theorem condition_run {c : Expr} {body r : List Token} {n : Nat} (hs : c.shaped = true) (hn : c.toks.length ≤ n)
    (hb : body ≠ []) (ha : structAhead (body ++ r) = structAhead body) :
    condition (parseExpr n) (condToks c body ++ r) = some (c, body ++ r) := by
  unfold condToks
  split
  · rw [show (.lParen :: c.toks ++ .rParen :: body ++ r) = .lParen :: (c.toks ++ .rParen :: (body ++ r)) by simp]
    exact alt_left (between_run (expr_closed hs hn (closed_rParen _)))
  · rename_i h
    simp only [needsParens, Bool.or_eq_true, decide_eq_true_eq, Bool.and_eq_true, not_or, not_and,
      Bool.not_eq_true] at h
    obtain ⟨⟨h1, h2⟩, h3⟩ := h
    obtain ⟨t, x, hx, _⟩ := c.head_starts
    obtain ⟨b, bs, rfl⟩ := List.exists_cons_of_ne_nil hb
    rw [List.append_assoc, condition, alt_right]
    · refine expr_run hs hn ?_ (fun hi => by rw [ha]; exact h2 hi)
      rw [List.cons_append, follow_cons]
      intro j hj
      simp [hj] at h3
    · rw [hx] at h1 ⊢
      exact between_none (by simpa using h1)

theorem condToks_length (c : Expr) (body : List Token) : c.toks.length + body.length ≤ (condToks c body).length := by
  unfold condToks
  split <;> simp only [List.length_cons, List.length_append] <;> omega

/-! ## Statements -/

theorem stmtBody_expr {expr : P Expr} {ty : P TypeExpr} {pat : P Pattern} {stmt : P Stmt} {t : Token}
    {ts : List Token} (h : t.starts = true) :
    stmtBody expr ty pat stmt (t :: ts) = assignStmt expr (t :: ts) := by
  cases t <;> first | rfl | simp [Token.starts] at h

theorem parseStmt_rBrace (n : Nat) (r : List Token) : parseStmt n (.rBrace :: r) = none := by
  cases n with
  | zero => rfl
  | succ n =>
    show stmtBody _ _ _ _ _ = none
    have h : assignStmt (parseExpr n) (.rBrace :: r) = none := by
      rw [assignStmt, assignOrExpr]
      exact bind_none (bind_none (parseExpr_none rfl n))
    rw [← h]
    rfl

theorem stmtsToks_mem {ss : List Stmt} {s : Stmt} (h : s ∈ ss) : s.toks.length ≤ (stmtsToks ss).length := by
  induction ss with
  | nil => simp at h
  | cons x xs ih =>
    rw [List.mem_cons] at h
    simp only [stmtsToks, List.length_append]
    rcases h with rfl | h
    · omega
    · have := ih h; omega

theorem stmtsShaped_iff {ss : List Stmt} : stmtsShaped ss = true ↔ ∀ s ∈ ss, s.shaped = true := by
  induction ss with
  | nil => simp [stmtsShaped]
  | cons s ss ih => simp [stmtsShaped, ih]

/-- The statement is read back, unless an `else` follows that would belong to it. -/
def ReadsStmt (n : Nat) (s : Stmt) : Prop :=
  ∀ r, (s.openIf = true → r.head? ≠ some .else_) → parseStmt n (s.toks ++ r) = some (s, r)

theorem stmts_steps {n : Nat} {ss : List Stmt} {r : List Token} (h : ∀ s ∈ ss, ReadsStmt n s) :
    Steps (parseStmt n) (stmtsToks ss ++ .rBrace :: r) ss (.rBrace :: r) := by
  induction ss with
  | nil => exact .nil _
  | cons s ss ih =>
    simp only [stmtsToks, List.append_assoc]
    refine .cons (h s (by simp) _ ?_) ?_ (ih (fun x hx => h x (by simp [hx])))
    · intro _
      cases ss with
      | nil => simp [stmtsToks]
      | cons s2 ss =>
        obtain ⟨t, x, hx, hne, _⟩ := s2.head
        simp [stmtsToks, hx, hne]
    · have := s.toks_pos
      simp only [List.length_append]
      omega

theorem block_run {n : Nat} {ss : List Stmt} {r : List Token} (h : ∀ s ∈ ss, ReadsStmt n s) :
    blockOf (parseStmt n) (.lBrace :: stmtsToks ss ++ .rBrace :: r) = some (ss, r) :=
  between_run ((stmts_steps h).many (parseStmt_rBrace n r))

theorem stmt_run : ∀ (N : Nat) (s : Stmt), s.toks.length ≤ N → ∀ n, s.shaped = true → s.toks.length ≤ n →
    ReadsStmt n s := by
  intro N
  induction N with
  | zero => intro t ht; have := t.toks_pos; omega
  | succ N ih =>
    intro s hN n hs hn r hr
    have := s.toks_pos
    obtain ⟨n, rfl⟩ : ∃ k, n = k + 1 := ⟨n - 1, by omega⟩
    show stmtBody _ _ _ _ _ = _
    cases s with
    | assign l e =>
      obtain ⟨t, x, hx, hst⟩ := step_head (s := .assign l e) rfl
      have := assign_run (r := r) (s := .assign l e) rfl hs hn
      rw [hx, List.cons_append] at this ⊢
      rw [stmtBody_expr hst]
      exact this
    | expr e =>
      obtain ⟨t, x, hx, hst⟩ := step_head (s := .expr e) rfl
      have := assign_run (r := r) (s := .expr e) rfl hs hn
      rw [hx, List.cons_append] at this ⊢
      rw [stmtBody_expr hst]
      exact this
    | let_ p t e =>
      have h := let_run (r := r) hs hn
      rw [show (Stmt.let_ p t e).toks ++ r = .let_ :: ((Stmt.let_ p t e).toks.tail ++ r) by simp [Stmt.toks]] at h ⊢
      rw [stmtBody, alt_right (by rfl), alt_right (by rfl), alt_right (by rfl), alt_right (by rfl), alt_right (by rfl),
        alt_right (by rfl), alt_right (by rfl)]
      exact alt_left h
    | const c =>
      simp only [Stmt.shaped, Stmt.toks] at hs hn ⊢
      have h := const_run (r := r) hs hn
      rw [show c.toks ++ r = .const_ :: (c.toks.tail ++ r) by simp [ConstDef.toks]] at h ⊢
      rw [stmtBody, alt_right (by rfl), alt_right (by rfl), alt_right (by rfl), alt_right (by rfl), alt_right (by rfl),
        alt_right (by rfl), alt_right (by rfl), alt_right (by rfl)]
      refine alt_left ?_
      rw [bind_some h]
      rfl
    | return_ e =>
      have key : ∀ ts, returnStmt (parseExpr n) (.return_ :: ts) = some (.return_ e, r) →
          stmtBody (parseExpr n) (parseType n) (parsePattern n) (parseStmt n) (.return_ :: ts)
            = some (.return_ e, r) := by
        intro ts h
        rw [stmtBody, alt_right (by rfl), alt_right (by rfl), alt_right (by rfl), alt_right (by rfl),
          alt_right (by rfl), alt_right (by rfl), alt_right (by rfl), alt_right (by rfl), alt_right (by rfl)]
        exact alt_left h
      cases e with
      | none =>
        simp only [Stmt.toks]
        refine key (.semicolon :: r) ?_
        rw [returnStmt, bind_some (just_same _ _), bind_some (opt_none (parseExpr_none rfl n)),
          bind_some (just_same _ _)]
        rfl
      | some e =>
        simp only [Stmt.shaped, Stmt.toks, List.length_append, List.length_cons] at hs hn ⊢
        rw [show (.return_ :: e.toks ++ [.semicolon] ++ r) = .return_ :: (e.toks ++ .semicolon :: r) by simp]
        refine key _ ?_
        rw [returnStmt, bind_some (just_same _ _),
          bind_some (opt_some (expr_closed hs (by omega) (closed_semicolon r))), bind_some (just_same _ _)]
        rfl
    | if_ c t e =>
      have key : ∀ ts, ifStmt (parseExpr n) (parseStmt n) (.if_ :: ts) = some (.if_ c t e, r) →
          stmtBody (parseExpr n) (parseType n) (parsePattern n) (parseStmt n) (.if_ :: ts)
            = some (.if_ c t e, r) := by
        intro ts h
        rw [stmtBody, alt_right (by rfl)]
        exact alt_left h
      cases e with
      | none =>
        simp only [Stmt.shaped, Bool.and_eq_true, Stmt.toks, List.length_cons] at hs hn hN ⊢
        have hl := condToks_length c t.toks
        have ht := t.toks_pos
        have hc := c.toks_pos
        rw [List.cons_append]
        refine key _ ?_
        rw [ifStmt, bind_some (just_same _ _), bind_some (condition_run hs.1 (by omega)
          (List.length_pos_iff.1 ht) (t.ahead r)),
          bind_some (ih t (by omega) n hs.2 (by omega) r (fun _ => hr rfl)),
          bind_some (opt_none (bind_none (just_none_of_head (hr rfl))))]
        rfl
      | some e =>
        simp only [Stmt.shaped, Bool.and_eq_true, Bool.not_eq_true', Stmt.toks, List.length_cons] at hs hn hN ⊢
        have hl := condToks_length c (t.toks ++ .else_ :: e.toks)
        simp only [List.length_append, List.length_cons] at hl
        have ht := t.toks_pos
        have hc := c.toks_pos
        have he := e.toks_pos
        rw [List.cons_append]
        refine key _ ?_
        rw [ifStmt, bind_some (just_same _ _), bind_some (condition_run hs.1.1.1 (by omega) (by simp)
          (by rw [List.append_assoc, t.ahead, t.ahead])), List.append_assoc,
          bind_some (ih t (by omega) n hs.1.1.2 (by omega) _ (by simp [hs.1.2])),
          bind_some (opt_some (a := e) (r := r) (by
            rw [List.cons_append, bind_some (just_same _ _)]
            exact ih e (by omega) n hs.2 (by omega) r hr))]
        rfl
    | block ss =>
      simp only [Stmt.shaped, stmtsShaped_iff, Stmt.toks, List.length_cons, List.length_append] at hs hn hN ⊢
      rw [show (.lBrace :: stmtsToks ss ++ [.rBrace] ++ r) = (.lBrace :: stmtsToks ss ++ .rBrace :: r) by simp]
      refine alt_left ?_
      rw [bind_some (block_run (fun s h => ?_))]
      · rfl
      · have := stmtsToks_mem h
        exact ih s (by omega) n (hs s h) (by omega)
    | loop_ b =>
      simp only [Stmt.shaped, Stmt.toks, List.length_cons, Stmt.openIf] at hs hn hN hr ⊢
      rw [List.cons_append, stmtBody, alt_right (by rfl), alt_right (by rfl)]
      refine alt_left ?_
      rw [loopStmt, bind_some (just_same _ _), bind_some (ih b (by omega) n hs (by omega) r hr)]
      rfl
    | while_ c b =>
      simp only [Stmt.shaped, Bool.and_eq_true, Stmt.toks, List.length_cons, Stmt.openIf] at hs hn hN hr ⊢
      have hl := condToks_length c b.toks
      have hb := b.toks_pos
      have hc := c.toks_pos
      rw [List.cons_append, stmtBody, alt_right (by rfl), alt_right (by rfl), alt_right (by rfl)]
      refine alt_left ?_
      rw [whileStmt, bind_some (just_same _ _), bind_some (condition_run hs.1 (by omega)
          (List.length_pos_iff.1 hb) (b.ahead r)), bind_some (ih b (by omega) n hs.2 (by omega) r hr)]
      rfl
    | for_ i c s b =>
      simp only [Stmt.shaped, Bool.and_eq_true, Stmt.openIf] at hs hr
      obtain ⟨⟨⟨⟨⟨hi, his⟩, hcs⟩, hst⟩, hss⟩, hbs⟩ := hs
      have hsl : s.toks.length = s.toks.dropLast.length + 1 := by
        have := congrArg List.length (step_toks hst)
        simpa using this
      simp only [Stmt.toks, List.length_append, List.length_cons] at hn hN
      rw [show (Stmt.for_ i c s b).toks ++ r = .for_ :: .lParen :: (i.toks ++ (c.toks ++ .semicolon ::
        (s.toks.dropLast ++ .rParen :: (b.toks ++ r)))) by simp [Stmt.toks]]
      have hinit : ∀ x, alt (letStmt (parseExpr n) (parseType n) (parsePattern n)) (assignStmt (parseExpr n))
          (i.toks ++ x) = some (i, x) := by
        intro x
        cases i with
        | let_ p t e => exact alt_left (let_run his (by omega))
        | assign l e =>
          have h := assign_run (r := x) (s := .assign l e) rfl his (n := n) (by omega)
          obtain ⟨t, y, hy, hst⟩ := step_head (s := .assign l e) rfl
          rw [hy] at h ⊢
          rw [alt_right]
          · exact h
          · refine bind_none (just_ne ?_ _)
            rintro rfl
            simp [Token.starts] at hst
        | expr e =>
          have h := assign_run (r := x) (s := .expr e) rfl his (n := n) (by omega)
          obtain ⟨t, y, hy, hst⟩ := step_head (s := .expr e) rfl
          rw [hy] at h ⊢
          rw [alt_right]
          · exact h
          · refine bind_none (just_ne ?_ _)
            rintro rfl
            simp [Token.starts] at hst
        | _ => simp [Stmt.isInit] at hi
      rw [stmtBody, alt_right (by rfl), alt_right (by rfl), alt_right (by rfl), alt_right (by rfl)]
      refine alt_left ?_
      rw [forStmt, bind_some (just_same _ _), bind_some (just_same _ _), bind_some (hinit _),
        bind_some (expr_closed hcs (by omega) (closed_semicolon _)), bind_some (just_same _ _),
        bind_some (step_run hst hss (by omega) (.inr rfl)), bind_some (just_same _ _),
        bind_some (ih b (by omega) n hbs (by omega) r hr)]
      rfl
    | break_ => simp only [Stmt.toks]; rfl
    | continue_ => simp only [Stmt.toks]; rfl

end CairoM.Syntax
