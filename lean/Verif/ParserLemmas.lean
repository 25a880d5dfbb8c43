import Verif.Parser
import Verif.SyntaxSpec

/-!
# Lemmas on the parser combinators
-/

namespace CairoM.Syntax

open P

variable {α β : Type}

theorem bind_run (p : P α) (f : α → P β) (ts : List Token) :
    (p >>= f) ts = match p ts with
      | none => none
      | some (a, r) => f a r := rfl

theorem bind_some {p : P α} {f : α → P β} {ts r : List Token} {a : α} (h : p ts = some (a, r)) :
    (p >>= f) ts = f a r := by
  rw [bind_run, h]

theorem bind_none {p : P α} {f : α → P β} {ts : List Token} (h : p ts = none) : (p >>= f) ts = none := by
  rw [bind_run, h]

@[simp] theorem pure_run (a : α) (ts : List Token) : (pure a : P α) ts = some (a, ts) := rfl

@[simp] theorem fail_run (ts : List Token) : (fail : P α) ts = none := rfl

theorem alt_left {p q : P α} {ts : List Token} {x : α × List Token} (h : p ts = some x) : alt p q ts = some x := by
  simp [alt, h]

theorem alt_right {p q : P α} {ts : List Token} (h : p ts = none) : alt p q ts = q ts := by
  simp [alt, h]

theorem just_run (t t' : Token) (r : List Token) :
    just t (t' :: r) = if t' = t then some ((), r) else none := rfl

@[simp] theorem just_same (t : Token) (r : List Token) : just t (t :: r) = some ((), r) := by simp [just_run]

@[simp] theorem just_nil (t : Token) : just t [] = none := rfl

theorem just_ne {t t' : Token} (h : t' ≠ t) (r : List Token) : just t (t' :: r) = none := by simp [just_run, h]

theorem opt_some {p : P α} {ts r : List Token} {a : α} (h : p ts = some (a, r)) : opt p ts = some (some a, r) := by
  simp [opt, h]

theorem opt_none {p : P α} {ts : List Token} (h : p ts = none) : opt p ts = some (none, ts) := by
  simp [opt, h]

/-- Successive runs of a parser, each consuming something. -/
inductive Steps (p : P α) : List Token → List α → List Token → Prop
  | nil (ts : List Token) : Steps p ts [] ts
  | cons {ts ts' r : List Token} {a : α} {as : List α} : p ts = some (a, ts') → ts'.length < ts.length →
      Steps p ts' as r → Steps p ts (a :: as) r

theorem Steps.snoc {p : P α} {ts mid r : List Token} {as : List α} {a : α} (h : Steps p ts as mid)
    (h1 : p mid = some (a, r)) (h2 : r.length < mid.length) : Steps p ts (as ++ [a]) r := by
  induction h with
  | nil ts => exact .cons h1 h2 (.nil _)
  | cons h3 h4 _ ih => exact .cons h3 h4 (ih h1 h2)

theorem Steps.manyN {p : P α} {ts r : List Token} {as : List α} (h : Steps p ts as r) (hr : p r = none) :
    ∀ n, ts.length ≤ n → P.manyN p n ts = some (as, r) := by
  induction h with
  | nil ts =>
    intro n _
    cases n with
    | zero => rfl
    | succ n => simp [P.manyN, hr]
  | @cons ts ts' r a as h1 h2 _ ih =>
    intro n hn
    obtain ⟨n, rfl⟩ : ∃ k, n = k + 1 := ⟨n - 1, by omega⟩
    simp [P.manyN, h1, ih hr n (by omega)]

theorem Steps.many {p : P α} {ts r : List Token} {as : List α} (h : Steps p ts as r) (hr : p r = none) :
    P.many p ts = some (as, r) :=
  h.manyN hr _ (Nat.le_refl _)

theorem many_none {p : P α} {ts : List Token} (h : p ts = none) : P.many p ts = some ([], ts) :=
  (Steps.nil ts).many h

theorem Steps.sepRest {sep : P Unit} {p : P α} {ts r : List Token} {as : List α} {b : Bool}
    (h : Steps (do sep; p) ts as r) (hr : sep r = none) :
    ∀ n, ts.length ≤ n → P.sepRest b sep p n ts = some (as, r) := by
  induction h with
  | nil ts =>
    intro n _
    cases n with
    | zero => rfl
    | succ n => simp [P.sepRest, hr]
  | @cons ts ts' r a as h1 h2 _ ih =>
    intro n hn
    obtain ⟨n, rfl⟩ : ∃ k, n = k + 1 := ⟨n - 1, by omega⟩
    rw [bind_run] at h1
    cases hs : sep ts with
    | none => rw [hs] at h1; simp at h1
    | some x =>
      obtain ⟨_, r1⟩ := x
      rw [hs] at h1
      simp only at h1
      simp [P.sepRest, hs, h1, ih hr n (by omega)]

theorem Steps.sepRest_trailing {sep : P Unit} {p : P α} {ts r r' : List Token} {as : List α} {b : Bool}
    (h : Steps (do sep; p) ts as r) (hr : sep r = some ((), r')) (hp : p r' = none) (hl : 0 < r.length) :
    ∀ n, ts.length ≤ n → P.sepRest b sep p n ts = some (as, if b then r' else r) := by
  induction h with
  | nil ts =>
    intro n hn
    obtain ⟨n, rfl⟩ : ∃ k, n = k + 1 := ⟨n - 1, by omega⟩
    simp [P.sepRest, hr, hp]
  | @cons ts ts' r a as h1 h2 _ ih =>
    intro n hn
    obtain ⟨n, rfl⟩ : ∃ k, n = k + 1 := ⟨n - 1, by omega⟩
    rw [bind_run] at h1
    cases hs : sep ts with
    | none => rw [hs] at h1; simp at h1
    | some x =>
      obtain ⟨_, r1⟩ := x
      rw [hs] at h1
      simp only at h1
      simp [P.sepRest, hs, h1, ih hr hl n (by omega)]

/-- A list of items without a trailing separator. -/
theorem sepBy_run {sep : P Unit} {p : P α} {ts mid r : List Token} {a : α} {as : List α} {b : Bool}
    (h1 : p ts = some (a, mid)) (h : Steps (do sep; p) mid as r) (hr : sep r = none) :
    sepBy b sep p ts = some (a :: as, r) := by
  simp [sepBy, h1, h.sepRest hr mid.length (Nat.le_refl _)]

theorem sepBy_nil {sep : P Unit} {p : P α} {ts : List Token} {b : Bool} (h : p ts = none) :
    sepBy b sep p ts = some ([], ts) := by
  simp [sepBy, h]

theorem between_run {p : P α} {a b : Token} {ts r : List Token} {x : α} (h : p ts = some (x, b :: r)) :
    between a b p (a :: ts) = some (x, r) := by
  rw [between, bind_some (just_same a ts), bind_some h, bind_some (just_same b r)]; rfl

theorem between_none {p : P α} {a b t : Token} {ts : List Token} (h : t ≠ a) :
    between a b p (t :: ts) = none := by
  rw [between, bind_none (just_ne h ts)]

@[simp] theorem between_nil {p : P α} {a b : Token} : between a b p [] = none := rfl

theorem tryMap_some {p : P α} {f : α → Option β} {ts r : List Token} {a : α} {b : β} (h : p ts = some (a, r))
    (hf : f a = some b) : tryMap p f ts = some (b, r) := by
  rw [tryMap, bind_some h, hf]; rfl

theorem tryMap_none {p : P α} {f : α → Option β} {ts : List Token} (h : p ts = none) : tryMap p f ts = none := by
  rw [tryMap, bind_none h]

/-! ## Left-associative chains -/

/-- `lower.foldl(step.repeated(), f)`. -/
def chain (lower : P α) (step : P β) (f : α → β → α) : P α := do
  let e ← lower
  let xs ← many step
  pure (xs.foldl f e)

/-- A head followed by steps that build `e` and leave `r`. -/
def Spine (lower : P α) (step : P β) (f : α → β → α) (ts : List Token) (e : α) (r : List Token) : Prop :=
  ∃ h mid xs, lower ts = some (h, mid) ∧ Steps step mid xs r ∧ xs.foldl f h = e

theorem Spine.zero {lower : P α} {step : P β} {f : α → β → α} {ts r : List Token} {e : α}
    (h : lower ts = some (e, r)) : Spine lower step f ts e r :=
  ⟨e, r, [], h, .nil r, rfl⟩

theorem Spine.snoc {lower : P α} {step : P β} {f : α → β → α} {ts mid r : List Token} {e : α} {x : β}
    (h : Spine lower step f ts e mid) (h1 : step mid = some (x, r)) (h2 : r.length < mid.length) :
    Spine lower step f ts (f e x) r := by
  obtain ⟨a, m, xs, ha, hs, he⟩ := h
  refine ⟨a, m, xs ++ [x], ha, hs.snoc h1 h2, ?_⟩
  simp [he]

theorem Spine.run {lower : P α} {step : P β} {f : α → β → α} {ts r : List Token} {e : α}
    (h : Spine lower step f ts e r) (hr : step r = none) : chain lower step f ts = some (e, r) := by
  obtain ⟨a, m, xs, ha, hs, he⟩ := h
  rw [chain, bind_some ha, bind_some (hs.many hr), ← he]
  rfl

theorem chain_none {lower : P α} {step : P β} {f : α → β → α} {ts : List Token} (h : lower ts = none) :
    chain lower step f ts = none := by
  rw [chain, bind_none h]

/-! ## Tiers of the expression parser -/

def binStep (ops : List (Token × BinaryOp)) (lower : P Expr) : P (BinaryOp × Expr) := do
  let op ← opOf ops
  let r ← lower
  pure (op, r)

def binFold (l : Expr) (x : BinaryOp × Expr) : Expr := .binary x.1 l x.2

theorem binTier_eq (ops : List (Token × BinaryOp)) (lower : P Expr) :
    binTier ops lower = chain lower (binStep ops lower) binFold := rfl

def castStep : P TypeExpr := do just .as_; namedType

theorem castTier_eq (lower : P Expr) : castTier lower = chain lower castStep (fun e t => .cast e t) := rfl

theorem callTier_eq (expr : P Expr) (alloc : P TypeExpr) :
    callTier expr alloc = chain (atom expr alloc) (postOp expr) applyPost := rfl

theorem stars_eq (base : P TypeExpr) : stars base = chain base (just .mul) (fun t _ => .pointer t) := rfl

/-- The parser of precedence level `k`. -/
def tierP (expr : P Expr) (alloc : P TypeExpr) : Nat → P Expr
  | 0 => exprBody expr alloc
  | 1 => binTier bitOps (binTier cmpOps (binTier addOps (binTier mulOps
      (castTier (unaryTier (callTier expr alloc))))))
  | 2 => binTier cmpOps (binTier addOps (binTier mulOps (castTier (unaryTier (callTier expr alloc)))))
  | 3 => binTier addOps (binTier mulOps (castTier (unaryTier (callTier expr alloc))))
  | 4 => binTier mulOps (castTier (unaryTier (callTier expr alloc)))
  | 5 => castTier (unaryTier (callTier expr alloc))
  | 6 => unaryTier (callTier expr alloc)
  | 7 => callTier expr alloc
  | _ => atom expr alloc

/-- The operators of level `k`. -/
def opsAt : Nat → List (Token × BinaryOp)
  | 0 => logicOps
  | 1 => bitOps
  | 2 => cmpOps
  | 3 => addOps
  | 4 => mulOps
  | _ => []

theorem tierP_bin {k : Nat} (hk : k ≤ 4) (expr : P Expr) (alloc : P TypeExpr) :
    tierP expr alloc k =
      chain (tierP expr alloc (k + 1)) (binStep (opsAt k) (tierP expr alloc (k + 1))) binFold := by
  match k, hk with
  | 0, _ => rfl
  | 1, _ => rfl
  | 2, _ => rfl
  | 3, _ => rfl
  | 4, _ => rfl

theorem tierP_cast (expr : P Expr) (alloc : P TypeExpr) :
    tierP expr alloc 5 = chain (tierP expr alloc 6) castStep (fun e t => .cast e t) := rfl

theorem tierP_call (expr : P Expr) (alloc : P TypeExpr) :
    tierP expr alloc 7 = chain (tierP expr alloc 8) (postOp expr) applyPost := rfl

/-! ## Tokens that do not begin an expression -/

/-- The token can begin an expression. -/
def Token.starts : Token → Bool
  | .number _ _ | .true_ | .false_ | .new_ | .identifier _ | .lBrack | .lParen | .not_ | .minus => true
  | _ => false

/-- The token can begin an expression that is no prefix operation. -/
def Token.startsAtom : Token → Bool
  | .number _ _ | .true_ | .false_ | .new_ | .identifier _ | .lBrack | .lParen => true
  | _ => false

theorem ident_none {t : Token} {r : List Token} (h : ∀ s, t ≠ .identifier s) : ident (t :: r) = none := by
  cases t <;> first | rfl | exact absurd rfl (h _)

theorem number_none {t : Token} {r : List Token} (h : ∀ v s, t ≠ .number v s) : number (t :: r) = none := by
  cases t <;> first | rfl | exact absurd rfl (h _ _)

theorem atom_none {expr : P Expr} {alloc : P TypeExpr} {t : Token} {r : List Token} (h : t.startsAtom = false) :
    atom expr alloc (t :: r) = none := by
  cases t <;> first | rfl | (simp [Token.startsAtom] at h)

theorem atom_nil {expr : P Expr} {alloc : P TypeExpr} : atom expr alloc [] = none := rfl

theorem unaryOp_none {t : Token} {r : List Token} (h1 : t ≠ .not_) (h2 : t ≠ .minus) :
    unaryOp (t :: r) = none := by
  simp [unaryOp, alt, bind_run, just_run, h1, h2]

theorem tierP_none {expr : P Expr} {alloc : P TypeExpr} {t : Token} {r : List Token} (h : t.starts = false)
    (k : Nat) : tierP expr alloc k (t :: r) = none := by
  have h8 : atom expr alloc (t :: r) = none := atom_none (by cases t <;> simp_all [Token.starts, Token.startsAtom])
  have h7 : tierP expr alloc 7 (t :: r) = none := by rw [tierP_call]; exact chain_none h8
  have h6 : tierP expr alloc 6 (t :: r) = none := by
    have hu : unaryOp (t :: r) = none := unaryOp_none (by rintro rfl; simp [Token.starts] at h)
      (by rintro rfl; simp [Token.starts] at h)
    show unaryTier (tierP expr alloc 7) (t :: r) = none
    rw [unaryTier, bind_some (many_none hu), bind_none h7]
  have h5 : tierP expr alloc 5 (t :: r) = none := by rw [tierP_cast]; exact chain_none h6
  have h4 : tierP expr alloc 4 (t :: r) = none := by rw [tierP_bin (Nat.le_refl _)]; exact chain_none h5
  have h3 : tierP expr alloc 3 (t :: r) = none := by rw [tierP_bin (by omega)]; exact chain_none h4
  have h2 : tierP expr alloc 2 (t :: r) = none := by rw [tierP_bin (by omega)]; exact chain_none h3
  have h1 : tierP expr alloc 1 (t :: r) = none := by rw [tierP_bin (by omega)]; exact chain_none h2
  have h0 : tierP expr alloc 0 (t :: r) = none := by rw [tierP_bin (by omega)]; exact chain_none h1
  match k with
  | 0 => exact h0
  | 1 => exact h1
  | 2 => exact h2
  | 3 => exact h3
  | 4 => exact h4
  | 5 => exact h5
  | 6 => exact h6
  | 7 => exact h7
  | _ + 8 => exact h8

theorem parseExpr_none {t : Token} {r : List Token} (h : t.starts = false) (n : Nat) :
    parseExpr n (t :: r) = none := by
  cases n with
  | zero => rfl
  | succ n => exact tierP_none h 0

end CairoM.Syntax
