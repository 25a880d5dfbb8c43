import Verif.ParserLemmas

/-!
# The recursion bound of the parser does not matter

Parsers do not lengthen the input, and any two bounds above the number of tokens give the same result.
-/

namespace CairoM.Syntax

open P

variable {α β : Type}

/-! ## Parsers do not lengthen the input -/

/-- The rest is not longer than the input. -/
def Mono (p : P α) : Prop := ∀ ts a r, p ts = some (a, r) → r.length ≤ ts.length

theorem mono_pure (a : α) : Mono (pure a : P α) := by
  intro ts b r h
  simp only [pure_run, Option.some.injEq, Prod.mk.injEq] at h
  rw [h.2]
  exact Nat.le_refl _

theorem mono_fail : Mono (fail : P α) := by
  intro ts b r h
  simp at h

theorem mono_bind {p : P α} {f : α → P β} (hp : Mono p) (hf : ∀ a, Mono (f a)) : Mono (p >>= f) := by
  intro ts b r h
  rw [bind_run] at h
  split at h
  · simp at h
  · rename_i a m hm
    exact Nat.le_trans (hf _ _ _ _ h) (hp _ _ _ hm)

theorem mono_alt {p q : P α} (hp : Mono p) (hq : Mono q) : Mono (alt p q) := by
  intro ts b r h
  unfold alt at h
  split at h
  · rename_i x hx
    rw [h] at hx
    exact hp _ _ _ hx
  · exact hq _ _ _ h

theorem mono_opt {p : P α} (hp : Mono p) : Mono (opt p) := by
  intro ts b r h
  unfold opt at h
  split at h
  · rename_i a m hm
    simp only [Option.some.injEq, Prod.mk.injEq] at h
    rw [← h.2]
    exact hp _ _ _ hm
  · simp only [Option.some.injEq, Prod.mk.injEq] at h
    rw [h.2]
    exact Nat.le_refl _

theorem mono_manyN {p : P α} (hp : Mono p) (n : Nat) : Mono (manyN p n) := by
  induction n with
  | zero => exact mono_pure []
  | succ n ih =>
    intro ts b r h
    simp only [manyN] at h
    split at h
    · simp only [Option.some.injEq, Prod.mk.injEq] at h
      rw [h.2]
      exact Nat.le_refl _
    · rename_i a m hm
      split at h
      · simp at h
      · rename_i as r' h'
        simp only [Option.some.injEq, Prod.mk.injEq] at h
        rw [← h.2]
        exact Nat.le_trans (ih _ _ _ h') (hp _ _ _ hm)

theorem mono_many {p : P α} (hp : Mono p) : Mono (many p) := fun ts => mono_manyN hp ts.length ts

theorem mono_sepRest {sep : P Unit} {p : P α} (hs : Mono sep) (hp : Mono p) (b : Bool) (n : Nat) :
    Mono (sepRest b sep p n) := by
  induction n with
  | zero => exact mono_pure []
  | succ n ih =>
    intro ts x r h
    simp only [sepRest] at h
    split at h
    · simp only [Option.some.injEq, Prod.mk.injEq] at h
      rw [h.2]
      exact Nat.le_refl _
    · rename_i m hm
      have h1 := hs _ _ _ hm
      split at h
      · simp only [Option.some.injEq, Prod.mk.injEq] at h
        rw [← h.2]
        split
        · exact h1
        · exact Nat.le_refl _
      · rename_i a m2 hm2
        have h2 := hp _ _ _ hm2
        split at h
        · simp at h
        · rename_i as r' h'
          simp only [Option.some.injEq, Prod.mk.injEq] at h
          rw [← h.2]
          have h3 := ih _ _ _ h'
          omega

theorem mono_sepBy {sep : P Unit} {p : P α} (hs : Mono sep) (hp : Mono p) (b : Bool) : Mono (sepBy b sep p) := by
  intro ts x r h
  simp only [sepBy] at h
  split at h
  · simp only [Option.some.injEq, Prod.mk.injEq] at h
    rw [h.2]
    exact Nat.le_refl _
  · rename_i a m hm
    have h1 := hp _ _ _ hm
    split at h
    · simp at h
    · rename_i as r' h'
      simp only [Option.some.injEq, Prod.mk.injEq] at h
      rw [← h.2]
      have h3 := mono_sepRest hs hp b _ _ _ _ h'
      omega

theorem just_cons {t : Token} {ts r : List Token} {u : Unit} (h : just t ts = some (u, r)) : ts = t :: r := by
  unfold just at h
  split at h
  · split at h
    · rename_i ht
      simp only [Option.some.injEq, Prod.mk.injEq, true_and] at h
      rw [ht, h]
    · simp at h
  · simp at h

theorem mono_just (t : Token) : Mono (just t) := by
  intro ts x r h
  rw [just_cons h]
  simp

theorem mono_peek (t : Token) : Mono (peek t) := by
  intro ts x r h
  unfold peek at h
  split at h
  · split at h
    · simp only [Option.some.injEq, Prod.mk.injEq, true_and] at h
      rw [h]
      exact Nat.le_refl _
    · simp at h
  · simp at h

theorem ident_cons {ts r : List Token} {s : String} (h : ident ts = some (s, r)) : ts = .identifier s :: r := by
  unfold ident at h
  split at h
  · simp only [Option.some.injEq, Prod.mk.injEq] at h
    rw [h.1, h.2]
  · simp at h

theorem mono_ident : Mono ident := by
  intro ts x r h
  rw [ident_cons h]
  simp

theorem mono_number : Mono number := by
  intro ts x r h
  unfold number at h
  split at h
  · simp only [Option.some.injEq, Prod.mk.injEq] at h
    rw [← h.2]
    simp
  · simp at h

theorem mono_between {p : P α} (hp : Mono p) (a b : Token) : Mono (between a b p) :=
  mono_bind (mono_just _) (fun _ => mono_bind hp (fun _ => mono_bind (mono_just _) (fun _ => mono_pure _)))

theorem mono_tryMap {p : P α} {f : α → Option β} (hp : Mono p) : Mono (tryMap p f) :=
  mono_bind hp (fun x => by
    cases f x with
    | none => exact mono_fail
    | some y => exact mono_pure y)

theorem mono_opOf (ops : List (Token × BinaryOp)) : Mono (opOf ops) := by
  induction ops with
  | nil => exact mono_fail
  | cons x ops ih => exact mono_alt (mono_bind (mono_just _) (fun _ => mono_pure _)) ih

/-- Goes through the combinators. -/
macro "mono" : tactic => `(tactic|
  repeat' (first
    | assumption
    | exact mono_pure _
    | exact mono_fail
    | exact mono_just _
    | exact mono_peek _
    | exact mono_ident
    | exact mono_number
    | exact mono_opOf _
    | apply mono_tryMap
    | apply mono_between
    | apply mono_bind
    | apply mono_alt
    | apply mono_opt
    | apply mono_many
    | apply mono_sepBy
    | intro _))

theorem mono_namedType : Mono namedType := by unfold namedType; mono

theorem mono_stars {p : P TypeExpr} (h : Mono p) : Mono (stars p) := by unfold stars; mono

theorem mono_tupleType {p : P TypeExpr} (h : Mono p) : Mono (tupleType p) := by unfold tupleType; mono

theorem mono_alloc (n : Nat) : Mono (parseAlloc n) := by
  induction n with
  | zero => exact mono_fail
  | succ n ih => exact mono_stars (mono_alt mono_namedType (mono_tupleType ih))

theorem mono_atom {expr : P Expr} {alloc : P TypeExpr} (hx : Mono expr) (ha : Mono alloc) : Mono (atom expr alloc) := by
  unfold atom literal boolean newExpr structLit structFields arrayRepeat arrayLit identExpr parenOrTuple
  mono

theorem mono_postOp {expr : P Expr} (hx : Mono expr) : Mono (postOp expr) := by
  unfold postOp
  mono

theorem mono_call {expr : P Expr} {alloc : P TypeExpr} (hx : Mono expr) (ha : Mono alloc) :
    Mono (callTier expr alloc) :=
  mono_bind (mono_atom hx ha) (fun _ => mono_bind (mono_many (mono_postOp hx)) (fun _ => mono_pure _))

theorem mono_unary {p : P Expr} (h : Mono p) : Mono (unaryTier p) := by unfold unaryTier unaryOp; mono

theorem mono_cast {p : P Expr} (h : Mono p) : Mono (castTier p) := by
  unfold castTier
  have := mono_namedType
  mono

theorem mono_bin {p : P Expr} (h : Mono p) (ops : List (Token × BinaryOp)) : Mono (binTier ops p) := by
  unfold binTier
  mono

theorem mono_expr (n : Nat) : Mono (parseExpr n) := by
  induction n with
  | zero => exact mono_fail
  | succ n ih =>
    exact mono_bin (mono_bin (mono_bin (mono_bin (mono_bin (mono_cast (mono_unary (mono_call ih (mono_alloc n)))) _) _)
      _) _) _

theorem mono_type (n : Nat) : Mono (parseType n) := by
  induction n with
  | zero => exact mono_fail
  | succ n ih =>
    refine mono_stars (mono_alt (mono_alt mono_namedType ?_) (mono_tupleType ih))
    have := mono_expr n
    unfold arrayType
    mono

theorem mono_pattern (n : Nat) : Mono (parsePattern n) := by
  induction n with
  | zero => exact mono_fail
  | succ n ih =>
    show Mono (patternBody (parsePattern n))
    unfold patternBody
    mono

theorem mono_stmt (n : Nat) : Mono (parseStmt n) := by
  induction n with
  | zero => exact mono_fail
  | succ n ih =>
    have h1 := mono_expr n
    have h2 := mono_type n
    have h3 := mono_pattern n
    show Mono (stmtBody _ _ _ _)
    unfold stmtBody blockOf ifStmt loopStmt whileStmt forStmt letStmt constDef returnStmt assignStmt assignOrExpr
      condition typeAnnot
    mono

/-! ## Two bounds -/

/-- The parsers agree on inputs of fewer than `k` tokens. -/
def Agree (k : Nat) (p q : P α) : Prop := ∀ ts, ts.length < k → p ts = q ts

theorem Agree.refl (k : Nat) (p : P α) : Agree k p p := fun _ _ => rfl

theorem Agree.le {k j : Nat} {p q : P α} (h : Agree k p q) (hj : j ≤ k) : Agree j p q :=
  fun ts ht => h ts (by omega)

theorem agree_bind {k : Nat} {p q : P α} {f g : α → P β} (h : Agree k p q) (hp : Mono p)
    (hf : ∀ a, Agree k (f a) (g a)) : Agree k (p >>= f) (q >>= g) := by
  intro ts ht
  rw [bind_run, bind_run, ← h ts ht]
  split
  · rfl
  · rename_i a r hr
    exact hf a r (by have := hp _ _ _ hr; omega)

theorem agree_just {k : Nat} {t : Token} {f g : Unit → P β} (hf : Agree k (f ()) (g ())) :
    Agree (k + 1) (just t >>= f) (just t >>= g) := by
  intro ts ht
  rw [bind_run, bind_run]
  split
  · rfl
  · rename_i r hr
    have := just_cons hr
    subst this
    exact hf r (by simp at ht; omega)

theorem agree_ident {k : Nat} {f g : String → P β} (hf : ∀ s, Agree k (f s) (g s)) :
    Agree (k + 1) (ident >>= f) (ident >>= g) := by
  intro ts ht
  rw [bind_run, bind_run]
  split
  · rfl
  · rename_i s r hr
    have := ident_cons hr
    subst this
    exact hf s r (by simp at ht; omega)

theorem agree_alt {k : Nat} {p q p' q' : P α} (h1 : Agree k p q) (h2 : Agree k p' q') :
    Agree k (alt p p') (alt q q') := by
  intro ts ht
  simp only [alt, h1 ts ht, h2 ts ht]

theorem agree_opt {k : Nat} {p q : P α} (h1 : Agree k p q) : Agree k (opt p) (opt q) := by
  intro ts ht
  simp only [opt, h1 ts ht]

theorem agree_manyN {k : Nat} {p q : P α} (h : Agree k p q) (hp : Mono p) (n : Nat) :
    Agree k (manyN p n) (manyN q n) := by
  induction n with
  | zero => exact .refl _ _
  | succ n ih =>
    intro ts ht
    simp only [manyN]
    rw [← h ts ht]
    split
    · rfl
    · rename_i a r hr
      rw [ih r (by have := hp _ _ _ hr; omega)]

theorem agree_many {k : Nat} {p q : P α} (h : Agree k p q) (hp : Mono p) : Agree k (many p) (many q) :=
  fun ts ht => agree_manyN h hp ts.length ts ht

theorem agree_sepRest {k : Nat} {sep : P Unit} {p q : P α} (h : Agree k p q) (hs : Mono sep) (hp : Mono p) (b : Bool)
    (n : Nat) : Agree k (sepRest b sep p n) (sepRest b sep q n) := by
  induction n with
  | zero => exact .refl _ _
  | succ n ih =>
    intro ts ht
    simp only [sepRest]
    split
    · rfl
    · rename_i r hr
      have h1 := hs _ _ _ hr
      rw [← h r (by omega)]
      split
      · rfl
      · rename_i a r' hr'
        rw [ih r' (by have := hp _ _ _ hr'; omega)]

theorem agree_sepBy {k : Nat} {sep : P Unit} {p q : P α} (h : Agree k p q) (hs : Mono sep) (hp : Mono p) (b : Bool) :
    Agree k (sepBy b sep p) (sepBy b sep q) := by
  intro ts ht
  simp only [sepBy]
  rw [← h ts ht]
  split
  · rfl
  · rename_i a r hr
    rw [agree_sepRest h hs hp b _ r (by have := hp _ _ _ hr; omega)]

theorem agree_between {k : Nat} {p q : P α} (h : Agree k p q) (hp : Mono p) (a b : Token) :
    Agree (k + 1) (between a b p) (between a b q) :=
  agree_just (agree_bind h hp (fun _ => .refl _ _))

theorem agree_tryMap {k : Nat} {p q : P α} {f : α → Option β} (h : Agree k p q) (hp : Mono p) :
    Agree k (tryMap p f) (tryMap q f) :=
  agree_bind h hp (fun _ => .refl _ _)

theorem agree_stars {k : Nat} {p q : P TypeExpr} (h : Agree k p q) (hp : Mono p) : Agree k (stars p) (stars q) :=
  agree_bind h hp (fun _ => .refl _ _)

theorem agree_tupleType {k : Nat} {p q : P TypeExpr} (h : Agree k p q) (hp : Mono p) :
    Agree (k + 1) (tupleType p) (tupleType q) :=
  agree_just (agree_bind (agree_sepBy h (mono_just _) hp _) (mono_sepBy (mono_just _) hp _) (fun _ => .refl _ _))

/-- Bounds above the number of tokens agree. -/
theorem alloc_agree (k : Nat) : ∀ n m, k ≤ n → k ≤ m → Agree k (parseAlloc n) (parseAlloc m) := by
  induction k with
  | zero => intro n m _ _ ts ht; omega
  | succ k ih =>
    intro n m hn hm
    obtain ⟨n, rfl⟩ : ∃ j, n = j + 1 := ⟨n - 1, by omega⟩
    obtain ⟨m, rfl⟩ : ∃ j, m = j + 1 := ⟨m - 1, by omega⟩
    exact agree_stars (agree_alt (.refl _ _) (agree_tupleType (ih n m (by omega) (by omega)) (mono_alloc n)))
      (mono_alt mono_namedType (mono_tupleType (mono_alloc n)))

section
variable {k : Nat} {x x' : P Expr} {a a' : P TypeExpr} (hx : Agree k x x') (mx : Mono x) (ha : Agree k a a')
  (ma : Mono a)
include hx mx

theorem agree_paren : Agree (k + 1) (parenOrTuple x) (parenOrTuple x') := by
  refine agree_just (agree_alt (.refl _ _) (agree_bind hx mx (fun _ => ?_)))
  refine agree_bind (agree_alt (agree_bind (.refl _ _) (mono_peek _) (fun _ => ?_)) (.refl _ _)) ?_ (fun _ => .refl _ _)
  · exact agree_bind (agree_many (agree_just hx |>.le (Nat.le_succ k)) (mono_bind (mono_just _) (fun _ => mx)))
      (mono_many (mono_bind (mono_just _) (fun _ => mx))) (fun _ => .refl _ _)
  · mono

theorem agree_fields : Agree (k + 1) (structFields x) (structFields x') := by
  refine agree_between (agree_sepBy ?_ (mono_just _) (by mono) _) (by mono) _ _
  exact agree_bind (.refl _ _) mono_ident (fun _ => agree_bind (.refl _ _) (mono_just _) (fun _ =>
    agree_bind hx mx (fun _ => .refl _ _)))

include ha ma in
theorem agree_atom : Agree (k + 1) (atom x a) (atom x' a') := by
  refine agree_alt (.refl _ _) (agree_alt (.refl _ _) (agree_alt ?_ (agree_alt ?_ (agree_alt ?_ (agree_alt ?_
    (agree_alt (.refl _ _) (agree_paren hx mx)))))))
  · exact agree_just (agree_bind ha ma (fun _ => agree_bind ((agree_between hx mx _ _).le (Nat.le_succ k))
      (mono_between mx _ _) (fun _ => .refl _ _)))
  · exact agree_ident (fun _ => agree_bind ((agree_fields hx mx).le (Nat.le_succ k))
      (by unfold structFields; mono) (fun _ => .refl _ _))
  · exact agree_tryMap (agree_just (agree_bind hx mx (fun _ => .refl _ _))) (by mono)
  · exact agree_bind (agree_between (agree_sepBy hx (mono_just _) mx _) (mono_sepBy (mono_just _) mx _) _ _)
      (by mono) (fun _ => .refl _ _)

theorem agree_postOp : Agree (k + 1) (postOp x) (postOp x') := by
  refine agree_alt ?_ (agree_alt (.refl _ _) (agree_alt (.refl _ _) ?_))
  · exact agree_bind (agree_between (agree_sepBy hx (mono_just _) mx _) (mono_sepBy (mono_just _) mx _) _ _)
      (by mono) (fun _ => .refl _ _)
  · exact agree_bind (agree_between hx mx _ _) (by mono) (fun _ => .refl _ _)

end

theorem agree_unary {k : Nat} {p q : P Expr} (h : Agree k p q) (hp : Mono p) :
    Agree k (unaryTier p) (unaryTier q) :=
  agree_bind (.refl _ _) (by unfold unaryOp; mono) (fun _ => agree_bind h hp (fun _ => .refl _ _))

theorem agree_cast {k : Nat} {p q : P Expr} (h : Agree k p q) (hp : Mono p) : Agree k (castTier p) (castTier q) :=
  agree_bind h hp (fun _ => .refl _ _)

theorem agree_bin {k : Nat} {p q : P Expr} (h : Agree k p q) (hp : Mono p) (ops : List (Token × BinaryOp)) :
    Agree k (binTier ops p) (binTier ops q) := by
  refine agree_bind h hp (fun _ => agree_bind (agree_many ?_ ?_) (mono_many ?_) (fun _ => .refl _ _))
  · exact agree_bind (.refl _ _) (mono_opOf _) (fun _ => agree_bind h hp (fun _ => .refl _ _))
  · mono
  · mono

theorem expr_agree (k : Nat) : ∀ n m, k ≤ n → k ≤ m → Agree k (parseExpr n) (parseExpr m) := by
  induction k with
  | zero => intro n m _ _ ts ht; omega
  | succ k ih =>
    intro n m hn hm
    obtain ⟨n, rfl⟩ : ∃ j, n = j + 1 := ⟨n - 1, by omega⟩
    obtain ⟨m, rfl⟩ : ∃ j, m = j + 1 := ⟨m - 1, by omega⟩
    have hx := ih n m (by omega) (by omega)
    have ha := alloc_agree k n m (by omega) (by omega)
    have mx := mono_expr n
    have ma := mono_alloc n
    have h7 : Agree (k + 1) (callTier (parseExpr n) (parseAlloc n)) (callTier (parseExpr m) (parseAlloc m)) :=
      agree_bind (agree_atom hx mx ha ma) (mono_atom mx ma) (fun _ =>
        agree_bind (agree_many (agree_postOp hx mx) (mono_postOp mx)) (mono_many (mono_postOp mx)) (fun _ => .refl _ _))
    have m7 := mono_call mx ma
    have m6 := mono_unary m7
    have m5 := mono_cast m6
    have m4 := mono_bin m5 mulOps
    have m3 := mono_bin m4 addOps
    have m2 := mono_bin m3 cmpOps
    have m1 := mono_bin m2 bitOps
    exact agree_bin (agree_bin (agree_bin (agree_bin (agree_bin (agree_cast (agree_unary h7 m7) m6) m5 mulOps) m4 addOps)
      m3 cmpOps) m2 bitOps) m1 logicOps

theorem type_agree (k : Nat) : ∀ n m, k ≤ n → k ≤ m → Agree k (parseType n) (parseType m) := by
  induction k with
  | zero => intro n m _ _ ts ht; omega
  | succ k ih =>
    intro n m hn hm
    obtain ⟨n, rfl⟩ : ∃ j, n = j + 1 := ⟨n - 1, by omega⟩
    obtain ⟨m, rfl⟩ : ∃ j, m = j + 1 := ⟨m - 1, by omega⟩
    have ht := ih n m (by omega) (by omega)
    have hx := expr_agree k n m (by omega) (by omega)
    have mt := mono_type n
    have mx := mono_expr n
    refine agree_stars (agree_alt (agree_alt (.refl _ _) ?_) (agree_tupleType ht mt))
      (mono_alt (mono_alt mono_namedType ?_) (mono_tupleType mt))
    · exact agree_just (agree_bind ht mt (fun _ => agree_bind (.refl _ _) (mono_just _) (fun _ =>
        agree_bind (agree_tryMap hx mx) (mono_tryMap mx) (fun _ => .refl _ _))))
    · unfold arrayType
      mono

theorem pattern_agree (k : Nat) : ∀ n m, k ≤ n → k ≤ m → Agree k (parsePattern n) (parsePattern m) := by
  induction k with
  | zero => intro n m _ _ ts ht; omega
  | succ k ih =>
    intro n m hn hm
    obtain ⟨n, rfl⟩ : ∃ j, n = j + 1 := ⟨n - 1, by omega⟩
    obtain ⟨m, rfl⟩ : ∃ j, m = j + 1 := ⟨m - 1, by omega⟩
    have mp := mono_pattern n
    exact agree_alt (agree_tryMap (agree_between (agree_sepBy (ih n m (by omega) (by omega)) (mono_just _) mp _)
      (mono_sepBy (mono_just _) mp _) _ _) (by mono)) (.refl _ _)

section
variable {k : Nat} {x x' : P Expr} {t t' : P TypeExpr} {p p' : P Pattern} {s s' : P Stmt}
  (hx : Agree (k + 1) x x') (mx : Mono x) (ht : Agree (k + 1) t t') (mt : Mono t) (hp : Agree (k + 1) p p') (mp : Mono p)
  (hs : Agree k s s') (ms : Mono s)

include ht in
theorem agree_annot : Agree (k + 1) (typeAnnot t) (typeAnnot t') :=
  agree_opt (agree_bind (.refl _ _) (mono_just _) (fun _ => ht))

include hx mx in
theorem agree_step : Agree (k + 1) (assignOrExpr x) (assignOrExpr x') :=
  agree_bind hx mx (fun _ => agree_bind (agree_opt (agree_bind (.refl _ _) (mono_just _) (fun _ => hx)))
    (mono_opt (mono_bind (mono_just _) (fun _ => mx))) (fun _ => .refl _ _))

include mx in
theorem mono_step : Mono (assignOrExpr x) := by
  unfold assignOrExpr
  mono

include hx mx in
theorem agree_assign : Agree (k + 1) (assignStmt x) (assignStmt x') :=
  agree_bind (agree_step hx mx) (mono_step mx) (fun _ => .refl _ _)

include hx mx in
theorem agree_cond : Agree (k + 1) (condition x) (condition x') :=
  agree_alt ((agree_between hx mx _ _).le (Nat.le_succ _)) hx

include hx mx ht mt hp mp in
theorem agree_let : Agree (k + 1) (letStmt x t p) (letStmt x' t' p') :=
  agree_bind (.refl _ _) (mono_just _) (fun _ => agree_bind hp mp (fun _ => agree_bind (agree_annot ht)
    (mono_opt (mono_bind (mono_just _) (fun _ => mt))) (fun _ => agree_bind (.refl _ _) (mono_just _) (fun _ =>
      agree_bind hx mx (fun _ => .refl _ _)))))

include hx mx ht mt in
theorem agree_const : Agree (k + 1) (constDef x t) (constDef x' t') :=
  agree_bind (.refl _ _) (mono_just _) (fun _ => agree_bind (.refl _ _) mono_ident (fun _ => agree_bind (agree_annot ht)
    (mono_opt (mono_bind (mono_just _) (fun _ => mt))) (fun _ => agree_bind (.refl _ _) (mono_just _) (fun _ =>
      agree_bind hx mx (fun _ => .refl _ _)))))

include hx mx ht mt hp mp hs ms in
theorem agree_stmtBody : Agree (k + 1) (stmtBody x t p s) (stmtBody x' t' p' s') := by
  have hx' := hx.le (Nat.le_succ k)
  refine agree_alt ?_ (agree_alt ?_ (agree_alt ?_ (agree_alt ?_ (agree_alt ?_ (agree_alt (.refl _ _)
    (agree_alt (.refl _ _) (agree_alt (agree_let hx mx ht mt hp mp) (agree_alt ?_ (agree_alt ?_
      (agree_assign hx mx))))))))))
  · exact agree_bind (agree_between (agree_many hs ms) (mono_many ms) _ _) (by unfold blockOf; mono) (fun _ => .refl _ _)
  · refine agree_just (agree_bind ((agree_cond hx mx).le (Nat.le_succ k)) (by unfold condition; mono) (fun _ =>
      agree_bind hs ms (fun _ => agree_bind (agree_opt (agree_bind (.refl _ _) (mono_just _) (fun _ => hs))) ?_
        (fun _ => .refl _ _))))
    mono
  · exact agree_just (agree_bind hs ms (fun _ => .refl _ _))
  · exact agree_just (agree_bind ((agree_cond hx mx).le (Nat.le_succ k)) (by unfold condition; mono) (fun _ =>
      agree_bind hs ms (fun _ => .refl _ _)))
  · refine agree_just (agree_bind (.refl _ _) (mono_just _) (fun _ => agree_bind ((agree_alt
      (agree_let hx mx ht mt hp mp) (agree_assign hx mx)).le (Nat.le_succ k)) ?_ (fun _ => agree_bind hx' mx
        (fun _ => agree_bind (.refl _ _) (mono_just _) (fun _ => agree_bind ((agree_step hx mx).le (Nat.le_succ k))
          (mono_step mx) (fun _ => agree_bind (.refl _ _) (mono_just _) (fun _ => agree_bind hs ms
            (fun _ => .refl _ _))))))))
    unfold letStmt assignStmt assignOrExpr typeAnnot
    mono
  · exact agree_bind (agree_const hx mx ht mt) (by unfold constDef typeAnnot; mono) (fun _ => .refl _ _)
  · exact agree_bind (.refl _ _) (mono_just _) (fun _ => agree_bind (agree_opt hx) (mono_opt mx) (fun _ => .refl _ _))

end

/-- For statements the bounds have to be above the number of tokens plus one. -/
theorem stmt_agree (k : Nat) : ∀ n m, k + 1 ≤ n → k + 1 ≤ m → Agree k (parseStmt n) (parseStmt m) := by
  induction k with
  | zero => intro n m _ _ ts ht; omega
  | succ k ih =>
    intro n m hn hm
    obtain ⟨n, rfl⟩ : ∃ j, n = j + 1 := ⟨n - 1, by omega⟩
    obtain ⟨m, rfl⟩ : ∃ j, m = j + 1 := ⟨m - 1, by omega⟩
    exact agree_stmtBody (expr_agree _ n m (by omega) (by omega)) (mono_expr n)
      (type_agree _ n m (by omega) (by omega)) (mono_type n) (pattern_agree _ n m (by omega) (by omega))
      (mono_pattern n) (ih n m (by omega) (by omega)) (mono_stmt n)

theorem mono_typed (n : Nat) : Mono (typedName (parseType n)) := by
  have := mono_type n
  unfold typedName
  mono

/-- The parser of items does not depend on the bound. -/
theorem item_agree {k n m : Nat} (hn : k ≤ n) (hm : k ≤ m) : Agree k (item n) (item m) := by
  cases k with
  | zero => intro ts ht; omega
  | succ k =>
    have ht : Agree (k + 1) (typedName (parseType n)) (typedName (parseType m)) :=
      agree_bind (.refl _ _) mono_ident (fun _ => agree_bind (.refl _ _) (mono_just _) (fun _ =>
        agree_bind (type_agree _ n m hn hm) (mono_type n) (fun _ => .refl _ _)))
    have mt := mono_typed n
    refine agree_alt ?_ (agree_alt ?_ (agree_alt ?_ (.refl _ _)))
    · refine agree_bind ?_ ?_ (fun _ => .refl _ _)
      · refine agree_just ?_
        refine agree_bind (.refl _ _) mono_ident (fun _ => agree_bind ((agree_between (agree_sepBy ht (mono_just _) mt _)
          (mono_sepBy (mono_just _) mt _) _ _).le (by omega)) (by mono) (fun _ => agree_bind (agree_opt (agree_bind (.refl _ _)
            (mono_just _) (fun _ => (type_agree _ n m hn hm).le (Nat.le_succ k)))) ?_ (fun _ => agree_bind (agree_between
              (agree_many (stmt_agree k n m hn hm) (mono_stmt n)) (mono_many (mono_stmt n)) _ _ |>.le (Nat.le_succ k))
                ?_ (fun _ => .refl _ _))))
        · have := mono_type n
          mono
        · have := mono_stmt n
          unfold blockOf
          mono
      · have h1 := mono_type n
        have h2 := mono_stmt n
        unfold functionDef blockOf
        mono
    · exact agree_bind (.refl _ _) (mono_just _) (fun _ => agree_bind (.refl _ _) mono_ident (fun _ =>
        agree_bind ((agree_between (agree_sepBy ht (mono_just _) mt _) (mono_sepBy (mono_just _) mt _) _ _).le (by omega))
          (by mono) (fun _ => .refl _ _)))
    · refine agree_bind (agree_const (expr_agree _ n m hn hm) (mono_expr n) (type_agree _ n m hn hm) (mono_type n)) ?_
        (fun _ => .refl _ _)
      have h1 := mono_type n
      have h2 := mono_expr n
      unfold constDef typeAnnot
      mono

theorem mono_item (n : Nat) : Mono (item n) := by
  have h1 := mono_type n
  have h2 := mono_expr n
  have h3 := mono_stmt n
  have h4 := mono_typed n
  unfold item functionDef structDef constDef typeAnnot useStmt modulePath blockOf
  mono

end CairoM.Syntax
