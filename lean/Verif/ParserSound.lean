import Verif.ParserItems
import Verif.ParserFuel

/-!
# What the parser returns

Every tree the parser returns is shaped, and written as tokens it has the significant tokens of the source.
-/

namespace CairoM.Syntax

open P

variable {α β : Type}

/-- The significant tokens. -/
def sg (ts : List Token) : List Token := ts.filter Token.significant

@[simp] theorem sg_nil : sg [] = [] := rfl
@[simp] theorem sg_append (a b : List Token) : sg (a ++ b) = sg a ++ sg b := List.filter_append ..
@[simp] theorem sg_comma (r : List Token) : sg (.comma :: r) = sg r := rfl
@[simp] theorem sg_lParen (r : List Token) : sg (.lParen :: r) = sg r := rfl
@[simp] theorem sg_rParen (r : List Token) : sg (.rParen :: r) = sg r := rfl
@[simp] theorem sg_arrow (r : List Token) : sg (.arrow :: r) = sg r := rfl
theorem sg_cons {t : Token} (h : t.significant = true) (r : List Token) : sg (t :: r) = t :: sg r :=
  List.filter_cons_of_pos h
theorem sg_cons' (t : Token) (r : List Token) : sg (t :: r) = sg [t] ++ sg r := by
  rw [← sg_append]; rfl

/-! ## Inversion -/

theorem bind_inv {p : P α} {f : α → P β} {ts r : List Token} {b : β} (h : (p >>= f) ts = some (b, r)) :
    ∃ a m, p ts = some (a, m) ∧ f a m = some (b, r) := by
  rw [bind_run] at h
  split at h
  · simp at h
  · rename_i a m heq
    exact ⟨a, m, heq, h⟩

theorem pure_inv {a b : α} {ts r : List Token} (h : (pure a : P α) ts = some (b, r)) : b = a ∧ r = ts := by
  simp only [pure_run, Option.some.injEq, Prod.mk.injEq] at h
  exact ⟨h.1.symm, h.2.symm⟩

theorem alt_inv {p q : P α} {ts : List Token} {x : α × List Token} (h : alt p q ts = some x) :
    p ts = some x ∨ (p ts = none ∧ q ts = some x) := by
  unfold alt at h
  split at h
  · rename_i y hy
    simp only [Option.some.injEq] at h
    subst h
    exact .inl hy
  · rename_i hy
    exact .inr ⟨hy, h⟩

theorem opt_inv {p : P α} {ts r : List Token} {x : Option α} (h : opt p ts = some (x, r)) :
    (∃ a, x = some a ∧ p ts = some (a, r)) ∨ (x = none ∧ r = ts ∧ p ts = none) := by
  unfold opt at h
  split at h
  · rename_i a m hy
    simp only [Option.some.injEq, Prod.mk.injEq] at h
    obtain ⟨rfl, rfl⟩ := h
    exact .inl ⟨a, rfl, hy⟩
  · rename_i hy
    simp only [Option.some.injEq, Prod.mk.injEq] at h
    obtain ⟨rfl, rfl⟩ := h
    exact .inr ⟨rfl, rfl, hy⟩

theorem just_inv {t : Token} {ts r : List Token} {u : Unit} (h : just t ts = some (u, r)) : ts = t :: r := by
  unfold just at h
  split at h
  · split at h
    · rename_i ht
      simp only [Option.some.injEq, Prod.mk.injEq, true_and] at h
      rw [ht, h]
    · simp at h
  · simp at h

theorem peek_inv {t : Token} {ts r : List Token} {u : Unit} (h : peek t ts = some (u, r)) : r = ts := by
  unfold peek at h
  split at h
  · split at h
    · simp only [Option.some.injEq, Prod.mk.injEq, true_and] at h
      exact h.symm
    · simp at h
  · simp at h

theorem between_inv {a b : Token} {p : P α} {ts r : List Token} {x : α} (h : between a b p ts = some (x, r)) :
    ∃ m, ts = a :: m ∧ p m = some (x, b :: r) := by
  obtain ⟨_, m, h1, h⟩ := bind_inv h
  obtain ⟨y, m2, h2, h⟩ := bind_inv h
  obtain ⟨_, m3, h3, h⟩ := bind_inv h
  obtain ⟨rfl, rfl⟩ := pure_inv h
  rw [just_inv h3] at h2
  exact ⟨m, just_inv h1, h2⟩

theorem tryMap_inv {p : P α} {f : α → Option β} {ts r : List Token} {b : β} (h : tryMap p f ts = some (b, r)) :
    ∃ a, p ts = some (a, r) ∧ f a = some b := by
  obtain ⟨a, m, h1, h2⟩ := bind_inv h
  cases hy : f a with
  | none => rw [hy] at h2; simp at h2
  | some y =>
    rw [hy] at h2
    obtain ⟨rfl, rfl⟩ := pure_inv h2
    exact ⟨a, h1, hy⟩

theorem ident_inv {ts r : List Token} {s : String} (h : ident ts = some (s, r)) : ts = .identifier s :: r := by
  unfold ident at h
  split at h
  · simp only [Option.some.injEq, Prod.mk.injEq] at h
    rw [h.1, h.2]
  · simp at h

theorem number_inv {ts r : List Token} {v : Nat × Option String} (h : number ts = some (v, r)) :
    ts = .number v.1 v.2 :: r := by
  unfold number at h
  split at h
  · simp only [Option.some.injEq, Prod.mk.injEq] at h
    rw [← h.1, h.2]
  · simp at h

/-! ## Good parsers -/

/-- The results satisfy `Q` and have, written by `w`, the significant tokens that were consumed. -/
def Good (w : α → List Token) (Q : α → Prop) (p : P α) : Prop :=
  ∀ ts a r, p ts = some (a, r) → Q a ∧ sg ts = sg (w a) ++ sg r

theorem Good.mono {w : α → List Token} {Q Q' : α → Prop} {p : P α} (h : Good w Q p) (hq : ∀ a, Q a → Q' a) :
    Good w Q' p := fun ts a r h1 => ⟨hq a (h ts a r h1).1, (h ts a r h1).2⟩

theorem good_fail {w : α → List Token} {Q : α → Prop} : Good w Q fail := by
  intro ts a r h
  simp at h

theorem Good.alt {w : α → List Token} {Q : α → Prop} {p q : P α} (hp : Good w Q p) (hq : Good w Q q) :
    Good w Q (alt p q) := by
  intro ts a r h
  rcases alt_inv h with h | ⟨_, h⟩
  · exact hp _ _ _ h
  · exact hq _ _ _ h

/-- Written one after the other. -/
def wlist (w : α → List Token) (as : List α) : List Token := as.flatMap w

theorem Good.manyN {w : α → List Token} {Q : α → Prop} {p : P α} (hp : Good w Q p) (n : Nat) :
    Good (wlist w) (fun as => ∀ a ∈ as, Q a) (manyN p n) := by
  induction n with
  | zero =>
    intro ts a r h
    simp only [P.manyN, Option.some.injEq, Prod.mk.injEq] at h
    obtain ⟨rfl, rfl⟩ := h
    simp [wlist]
  | succ n ih =>
    intro ts a r h
    simp only [P.manyN] at h
    split at h
    · simp only [Option.some.injEq, Prod.mk.injEq] at h
      obtain ⟨rfl, rfl⟩ := h
      simp [wlist]
    · rename_i x m hx
      split at h
      · simp at h
      · rename_i as r' has
        simp only [Option.some.injEq, Prod.mk.injEq] at h
        obtain ⟨rfl, rfl⟩ := h
        obtain ⟨q1, e1⟩ := hp _ _ _ hx
        obtain ⟨q2, e2⟩ := ih _ _ _ has
        refine ⟨by simpa using ⟨q1, q2⟩, ?_⟩
        rw [e1, e2]
        simp [wlist]

theorem Good.many {w : α → List Token} {Q : α → Prop} {p : P α} (hp : Good w Q p) :
    Good (wlist w) (fun as => ∀ a ∈ as, Q a) (many p) :=
  fun ts => hp.manyN ts.length ts

theorem Good.sepRest {w : α → List Token} {Q : α → Prop} {p : P α} (hp : Good w Q p) (b : Bool) (n : Nat) :
    Good (wlist w) (fun as => ∀ a ∈ as, Q a) (sepRest b (just .comma) p n) := by
  induction n with
  | zero =>
    intro ts a r h
    simp only [P.sepRest, Option.some.injEq, Prod.mk.injEq] at h
    obtain ⟨rfl, rfl⟩ := h
    simp [wlist]
  | succ n ih =>
    intro ts a r h
    simp only [P.sepRest] at h
    split at h
    · simp only [Option.some.injEq, Prod.mk.injEq] at h
      obtain ⟨rfl, rfl⟩ := h
      simp [wlist]
    · rename_i m hc
      have hm := just_inv hc
      subst hm
      split at h
      · simp only [Option.some.injEq, Prod.mk.injEq] at h
        obtain ⟨rfl, rfl⟩ := h
        cases b <;> simp [wlist]
      · rename_i x m hx
        split at h
        · simp at h
        · rename_i as r' has
          simp only [Option.some.injEq, Prod.mk.injEq] at h
          obtain ⟨rfl, rfl⟩ := h
          obtain ⟨q1, e1⟩ := hp _ _ _ hx
          obtain ⟨q2, e2⟩ := ih _ _ _ has
          refine ⟨by simpa using ⟨q1, q2⟩, ?_⟩
          rw [sg_comma, e1, e2]
          simp [wlist]

theorem Good.sepBy {w : α → List Token} {Q : α → Prop} {p : P α} (hp : Good w Q p) (b : Bool) :
    Good (wlist w) (fun as => ∀ a ∈ as, Q a) (sepBy b (just .comma) p) := by
  intro ts a r h
  simp only [P.sepBy] at h
  split at h
  · simp only [Option.some.injEq, Prod.mk.injEq] at h
    obtain ⟨rfl, rfl⟩ := h
    simp [wlist]
  · rename_i x m hx
    split at h
    · simp at h
    · rename_i as r' has
      simp only [Option.some.injEq, Prod.mk.injEq] at h
      obtain ⟨rfl, rfl⟩ := h
      obtain ⟨q1, e1⟩ := hp _ _ _ hx
      obtain ⟨q2, e2⟩ := hp.sepRest b _ _ _ _ has
      refine ⟨by simpa using ⟨q1, q2⟩, ?_⟩
      rw [e1, e2]
      simp [wlist]

/-- Paths: segments with `::` between them. -/
theorem path_rest {n : Nat} {ts r : List Token} {p : List String}
    (h : P.sepRest false (just .colonColon) ident n ts = some (p, r)) :
    ts = p.flatMap (fun x => [.colonColon, .identifier x]) ++ r := by
  induction n generalizing ts p with
  | zero =>
    simp only [P.sepRest, Option.some.injEq, Prod.mk.injEq] at h
    obtain ⟨rfl, rfl⟩ := h
    simp
  | succ n ih =>
    simp only [P.sepRest] at h
    split at h
    · simp only [Option.some.injEq, Prod.mk.injEq] at h
      obtain ⟨rfl, rfl⟩ := h
      simp
    · rename_i m hc
      have hm := just_inv hc
      subst hm
      split at h
      · simp only [Option.some.injEq, Prod.mk.injEq] at h
        obtain ⟨rfl, rfl⟩ := h
        simp
      · rename_i x m hx
        have hm := ident_inv hx
        subst hm
        split at h
        · simp at h
        · rename_i as r' has
          simp only [Option.some.injEq, Prod.mk.injEq] at h
          obtain ⟨rfl, rfl⟩ := h
          rw [ih has]
          simp

theorem modulePath_sepBy {ts r : List Token} {p : List String} (h : modulePath ts = some (p, r)) :
    p ≠ [] ∧ P.sepBy false (just .colonColon) ident ts = some (p, r) := by
  obtain ⟨q, h1, hq⟩ := tryMap_inv h
  split at hq
  · simp at hq
  · rename_i hne
    simp only [Option.some.injEq] at hq
    subst hq
    exact ⟨hne, h1⟩

theorem modulePath_inv {ts r : List Token} {p : List String} (h : modulePath ts = some (p, r)) :
    p ≠ [] ∧ pathToks p ++ r = ts.take (2 * p.length - 1) ++ .colonColon :: r ∧
      ts = ts.take (2 * p.length - 1) ++ r := by
  obtain ⟨hne, hs⟩ := modulePath_sepBy h
  clear h
  refine ⟨hne, ?_⟩
  simp only [P.sepBy] at hs
  split at hs
  · simp only [Option.some.injEq, Prod.mk.injEq] at hs
    exact absurd hs.1.symm hne
  · rename_i a m ha
    have := ident_inv ha
    subst this
    split at hs
    · simp at hs
    · rename_i as r' has
      simp only [Option.some.injEq, Prod.mk.injEq] at hs
      obtain ⟨rfl, rfl⟩ := hs
      have := path_rest has
      subst this
      have hlen : ∀ l : List String, (l.flatMap (fun x => [Token.colonColon, .identifier x])).length = 2 * l.length := by
        intro l
        induction l with
        | nil => rfl
        | cons a l ih => simp only [List.flatMap_cons, List.length_append, ih, List.length_cons]; simp; omega
      have htake : (Token.identifier a :: (as.flatMap (fun x => [Token.colonColon, .identifier x]) ++ r')).take
          (2 * (a :: as).length - 1) = .identifier a :: as.flatMap (fun x => [Token.colonColon, .identifier x]) := by
        rw [show 2 * (a :: as).length - 1 = 2 * as.length + 1 by simp; omega, List.take_succ_cons,
          List.take_append_of_le_length (by rw [hlen]; exact Nat.le_refl _), List.take_of_length_le (by rw [hlen]; exact Nat.le_refl _)]
      rw [htake, pathToks_eq]
      simp

/-! ## Types -/

theorem namedOf_shaped (s : String) : (namedOf s).shaped = true ∧ (namedOf s).noArray = true ∧
    (namedOf s).isNamed = true ∧ (namedOf s).toks = [.identifier s] := by
  unfold namedOf
  split
  · rename_i h; subst h; simp [TypeExpr.shaped, NamedType.shaped, TypeExpr.noArray, TypeExpr.isNamed, TypeExpr.toks, NamedType.name]
  · split
    · rename_i h; subst h; simp [TypeExpr.shaped, NamedType.shaped, TypeExpr.noArray, TypeExpr.isNamed, TypeExpr.toks, NamedType.name]
    · split
      · rename_i h; subst h; simp [TypeExpr.shaped, NamedType.shaped, TypeExpr.noArray, TypeExpr.isNamed, TypeExpr.toks, NamedType.name]
      · simp_all [TypeExpr.shaped, NamedType.shaped, TypeExpr.noArray, TypeExpr.isNamed, TypeExpr.toks, NamedType.name]

theorem good_named : Good TypeExpr.toks (fun t => t.shaped = true ∧ t.noArray = true ∧ t.isNamed = true) namedType := by
  intro ts a r h
  obtain ⟨s, m, h1, h⟩ := bind_inv h
  obtain ⟨rfl, rfl⟩ := pure_inv h
  obtain ⟨h2, h3, h4, h5⟩ := namedOf_shaped s
  refine ⟨⟨h2, h3, h4⟩, ?_⟩
  rw [ident_inv h1, h5, sg_cons']

theorem sg_typesToks (ts : List TypeExpr) : sg (typesToks ts) = sg (wlist TypeExpr.toks ts) := by
  induction ts with
  | nil => simp [typesToks, wlist]
  | cons t ts ih => simp [typesToks, ih, wlist]

theorem sg_tupleType (ts : List TypeExpr) : sg (TypeExpr.tuple ts).toks = sg (wlist TypeExpr.toks ts) := by
  match ts with
  | [] => simp [TypeExpr.toks, wlist]
  | [t] => simp [TypeExpr.toks, wlist]
  | t :: u :: ts => simp [TypeExpr.toks, wlist, sg_typesToks]

theorem good_tupleType {ty : P TypeExpr} {Q : TypeExpr → Prop} (hq : ∀ ts, (∀ t ∈ ts, Q t) → Q (.tuple ts))
    (h : Good TypeExpr.toks Q ty) : Good TypeExpr.toks Q (tupleType ty) := by
  intro ts a r h1
  obtain ⟨_, m1, h2, h1⟩ := bind_inv h1
  obtain ⟨types, m2, h3, h1⟩ := bind_inv h1
  obtain ⟨tr, m3, h4, h1⟩ := bind_inv h1
  obtain ⟨_, m4, h5, h1⟩ := bind_inv h1
  obtain ⟨rfl, rfl⟩ := pure_inv h1
  obtain ⟨q, e⟩ := h.sepBy false _ _ _ h3
  have e4 : sg m2 = sg m3 := by
    rcases opt_inv h4 with ⟨_, _, h4⟩ | ⟨_, rfl, _⟩
    · rw [just_inv h4, sg_comma]
    · rfl
  rw [just_inv h2, sg_lParen, e, e4, just_inv h5, sg_rParen]
  split
  · exact ⟨q _ (by simp), by simp [wlist]⟩
  · exact ⟨hq _ q, by rw [sg_tupleType]⟩

theorem good_stars {base : P TypeExpr} {Q : TypeExpr → Prop} (hq : ∀ t, Q t → Q (.pointer t))
    (h : Good TypeExpr.toks Q base) : Good TypeExpr.toks Q (stars base) := by
  intro ts a r h1
  obtain ⟨t, m1, h2, h1⟩ := bind_inv h1
  obtain ⟨ss, m2, h3, h1⟩ := bind_inv h1
  obtain ⟨rfl, rfl⟩ := pure_inv h1
  obtain ⟨q, e⟩ := h _ _ _ h2
  have hj : Good (fun _ => [.mul]) (fun _ => True) (just .mul) := by
    intro ts a r h
    rw [just_inv h]
    exact ⟨trivial, sg_cons' _ _⟩
  obtain ⟨-, e2⟩ := hj.many _ _ _ h3
  rw [e, e2]
  have key : ∀ (ss : List Unit) t, Q t → Q (ss.foldl (fun t _ => .pointer t) t) ∧
      sg t.toks ++ (sg (wlist (fun _ => [Token.mul]) ss) ++ sg r)
        = sg (ss.foldl (fun t _ => TypeExpr.pointer t) t).toks ++ sg r := by
    intro ss
    induction ss with
    | nil => intro t q; simpa [wlist] using q
    | cons s ss ih =>
      intro t q
      obtain ⟨q2, e2⟩ := ih (.pointer t) (hq t q)
      refine ⟨q2, ?_⟩
      rw [List.foldl_cons, ← e2]
      simp [wlist, TypeExpr.toks]
      rw [sg_cons', List.append_assoc]
  exact key ss t q

theorem good_alloc (n : Nat) : Good TypeExpr.toks (fun t => t.shaped = true ∧ t.noArray = true) (parseAlloc n) := by
  induction n with
  | zero => exact good_fail
  | succ n ih =>
    refine good_stars (fun t h => by simpa [TypeExpr.shaped, TypeExpr.noArray] using h) (.alt ?_ ?_)
    · exact good_named.mono (fun t h => ⟨h.1, h.2.1⟩)
    · exact good_tupleType (fun ts h => by
        simp only [TypeExpr.shaped, TypeExpr.noArray, typesShaped_iff, typesNoArray_iff]
        exact ⟨fun t ht => (h t ht).1, fun t ht => (h t ht).2⟩) ih

/-! ## Expressions -/

/-- The expressions of a level. -/
def Lvl (k : Nat) (e : Expr) : Prop := e.shaped = true ∧ k ≤ e.prec

theorem Lvl.mono {k j : Nat} (h : k ≤ j) {e : Expr} (he : Lvl j e) : Lvl k e := ⟨he.1, Nat.le_trans h he.2⟩

theorem sg_exprsToks (es : List Expr) : sg (exprsToks es) = sg (wlist Expr.toks es) := by
  induction es with
  | nil => simp [exprsToks, wlist]
  | cons t ts ih => simp [exprsToks, ih, wlist]

def fieldToks (x : String × Expr) : List Token := .identifier x.1 :: .colon :: x.2.toks

theorem sg_fieldsToks (fs : List (String × Expr)) : sg (fieldsToks fs) = sg (wlist fieldToks fs) := by
  induction fs with
  | nil => simp [fieldsToks, wlist]
  | cons t ts ih => 
    obtain ⟨f, e⟩ := t
    rw [fieldsToks, List.cons_append, sg_comma, List.cons_append, List.cons_append, sg_cons rfl, sg_cons rfl, sg_append, ih]
    simp only [wlist, List.flatMap_cons, fieldToks, List.cons_append]
    rw [sg_cons rfl, sg_cons rfl]
    simp

theorem sg_tuple (es : List Expr) : sg (Expr.tuple es).toks = sg (wlist Expr.toks es) := by
  match es with
  | [] => simp [Expr.toks, wlist]
  | [t] => simp [Expr.toks, wlist]
  | t :: u :: ts => simp [Expr.toks, wlist, sg_exprsToks]

theorem sg_array (es : List Expr) : sg (Expr.array es).toks = .lBrack :: sg (wlist Expr.toks es) ++ [.rBrack] := by
  match es with
  | [] => rfl
  | t :: ts =>
    rw [Expr.toks, List.cons_append, List.cons_append, sg_cons rfl]
    simp [wlist, sg_exprsToks]
    rfl

theorem sg_call (f : Expr) (es : List Expr) : sg (Expr.call f es).toks = sg f.toks ++ sg (wlist Expr.toks es) := by
  match es with
  | [] => simp [Expr.toks, wlist]
  | t :: ts => simp [Expr.toks, wlist, sg_exprsToks]

theorem sg_structLit (n : String) (fs : List (String × Expr)) :
    sg (Expr.structLit n fs).toks = .identifier n :: .lBrace :: sg (wlist fieldToks fs) ++ [.rBrace] := by
  match fs with
  | [] => rfl
  | (f, e) :: fs =>
    rw [Expr.toks]
    simp only [List.cons_append, sg_cons (t := .identifier n) rfl, sg_cons (t := .lBrace) rfl,
      sg_cons (t := .identifier f) rfl, sg_cons (t := .colon) rfl, sg_append, sg_fieldsToks, wlist, List.flatMap_cons,
      fieldToks]
    simp
    rfl

section
variable {expr : P Expr} {alloc : P TypeExpr} (hx : Good Expr.toks (Lvl 0) expr)
  (ha : Good TypeExpr.toks (fun t => t.shaped = true ∧ t.noArray = true) alloc)
include hx

theorem good_exprs (b : Bool) : Good (wlist Expr.toks) (fun es => exprsShaped es = true) (sepBy b (just .comma) expr) :=
  (hx.sepBy b).mono (fun _ h => exprsShaped_iff.2 (fun e he => (h e he).1))

theorem good_field : Good fieldToks (fun x => x.2.shaped = true) (do
    let f ← ident
    just .colon
    let e ← expr
    pure (f, e)) := by
  intro ts a r h
  obtain ⟨s, m1, h1, h⟩ := bind_inv h
  obtain ⟨_, m2, h2, h⟩ := bind_inv h
  obtain ⟨e, m3, h3, h⟩ := bind_inv h
  obtain ⟨rfl, rfl⟩ := pure_inv h
  obtain ⟨q, e3⟩ := hx _ _ _ h3
  refine ⟨q.1, ?_⟩
  rw [ident_inv h1, just_inv h2, fieldToks, sg_cons rfl, sg_cons rfl, sg_cons rfl, sg_cons rfl, e3]
  rfl

theorem good_structLit : Good Expr.toks (Lvl 8) (structLit expr) := by
  intro ts a r h
  obtain ⟨s, m1, h1, h⟩ := bind_inv h
  obtain ⟨fs, m2, h2, h⟩ := bind_inv h
  obtain ⟨rfl, rfl⟩ := pure_inv h
  obtain ⟨m, rfl, hb⟩ := between_inv h2
  obtain ⟨q, e⟩ := (good_field hx).sepBy true _ _ _ hb
  refine ⟨⟨by simpa only [Expr.shaped, fieldsShaped_iff] using q, by simp [Expr.prec]⟩, ?_⟩
  rw [ident_inv h1, sg_structLit, sg_cons rfl, sg_cons rfl, e, sg_cons rfl]
  simp

theorem good_paren : Good Expr.toks (Lvl 8) (parenOrTuple expr) := by
  intro ts a r h
  obtain ⟨_, m1, h1, h⟩ := bind_inv h
  rw [just_inv h1, sg_lParen]
  rcases alt_inv h with h | ⟨_, h⟩
  · obtain ⟨_, m2, h2, h⟩ := bind_inv h
    obtain ⟨rfl, rfl⟩ := pure_inv h
    refine ⟨⟨by simp [Expr.shaped, exprsShaped], by simp [Expr.prec]⟩, ?_⟩
    rw [just_inv h2]
    simp [Expr.toks]
  · obtain ⟨first, m2, h2, h⟩ := bind_inv h
    obtain ⟨tail, m3, h3, h⟩ := bind_inv h
    obtain ⟨rfl, rfl⟩ := pure_inv h
    obtain ⟨q, e⟩ := hx _ _ _ h2
    rw [e]
    rcases alt_inv h3 with h3 | ⟨_, h3⟩
    · obtain ⟨_, m4, h4, h3⟩ := bind_inv h3
      obtain ⟨rest, m5, h5, h3⟩ := bind_inv h3
      obtain ⟨_, m6, h6, h3⟩ := bind_inv h3
      obtain ⟨_, m7, h7, h3⟩ := bind_inv h3
      obtain ⟨rfl, rfl⟩ := pure_inv h3
      have hc : Good Expr.toks (Lvl 0) (do just .comma; expr) := by
        intro ts a r h
        obtain ⟨_, m, h1, h⟩ := bind_inv h
        rw [just_inv h1, sg_comma]
        exact hx _ _ _ h
      obtain ⟨q5, e5⟩ := hc.many _ _ _ h5
      have e6 : sg m5 = sg m6 := by
        rcases opt_inv h6 with ⟨_, _, h4⟩ | ⟨_, rfl, _⟩
        · rw [just_inv h4, sg_comma]
        · rfl
      refine ⟨⟨?_, by simp [Expr.prec]⟩, ?_⟩
      · simp only [Expr.shaped, exprsShaped_iff]
        intro x hx
        rw [List.mem_cons] at hx
        rcases hx with rfl | hx
        · exact q.1
        · exact (q5 x hx).1
      · rw [← peek_inv h4, e5, e6, just_inv h7, sg_tuple]
        simp [wlist]
    · obtain ⟨_, m4, h4, h3⟩ := bind_inv h3
      obtain ⟨rfl, rfl⟩ := pure_inv h3
      refine ⟨⟨by simpa only [Expr.shaped] using q.1, by simp [Expr.prec]⟩, ?_⟩
      rw [just_inv h4]
      simp [Expr.toks]

theorem good_arrayRepeat : Good Expr.toks (Lvl 8) (arrayRepeat expr) := by
  intro ts a r h
  obtain ⟨⟨e, v, s⟩, h, hf⟩ := tryMap_inv h
  obtain ⟨_, m1, h1, h⟩ := bind_inv h
  obtain ⟨e', m2, h2, h⟩ := bind_inv h
  obtain ⟨_, m3, h3, h⟩ := bind_inv h
  obtain ⟨⟨v', s'⟩, m4, h4, h⟩ := bind_inv h
  obtain ⟨_, m5, h5, h⟩ := bind_inv h
  obtain ⟨heq, rfl⟩ := pure_inv h
  simp only [Prod.mk.injEq] at heq
  obtain ⟨rfl, rfl, rfl⟩ := heq
  cases s with
  | some s => simp at hf
  | none =>
    simp only [Option.some.injEq] at hf
    subst hf
    obtain ⟨q, e2⟩ := hx _ _ _ h2
    refine ⟨⟨by simpa only [Expr.shaped] using q.1, by simp [Expr.prec]⟩, ?_⟩
    rw [just_inv h1, sg_cons rfl, e2, just_inv h3, number_inv h4, just_inv h5, Expr.toks, List.cons_append, sg_cons rfl]
    rw [sg_cons rfl, sg_cons rfl, sg_cons rfl, sg_append, sg_cons rfl, sg_cons rfl, sg_cons rfl]
    simp

theorem good_arrayLit : Good Expr.toks (Lvl 8) (arrayLit expr) := by
  intro ts a r h
  obtain ⟨es, m1, h1, h⟩ := bind_inv h
  obtain ⟨rfl, rfl⟩ := pure_inv h
  obtain ⟨m, rfl, hb⟩ := between_inv h1
  obtain ⟨q, e⟩ := good_exprs hx true _ _ _ hb
  refine ⟨⟨by simpa only [Expr.shaped] using q, by simp [Expr.prec]⟩, ?_⟩
  rw [sg_array, sg_cons rfl, e, sg_cons rfl]
  simp

include ha in
theorem good_new : Good Expr.toks (Lvl 8) (newExpr expr alloc) := by
  intro ts a r h
  obtain ⟨_, m1, h1, h⟩ := bind_inv h
  obtain ⟨t, m2, h2, h⟩ := bind_inv h
  obtain ⟨n, m3, h3, h⟩ := bind_inv h
  obtain ⟨rfl, rfl⟩ := pure_inv h
  obtain ⟨m, rfl, hb⟩ := between_inv h3
  obtain ⟨q2, e2⟩ := ha _ _ _ h2
  obtain ⟨q3, e3⟩ := hx _ _ _ hb
  refine ⟨⟨by simp [Expr.shaped, q2.1, q2.2, q3.1], by simp [Expr.prec]⟩, ?_⟩
  rw [just_inv h1, sg_cons rfl, e2, sg_cons rfl, e3, sg_cons rfl, Expr.toks]
  simp only [List.cons_append, sg_cons (t := .new_) rfl, sg_cons (t := .lBrack) rfl, sg_append,
    sg_cons (t := .rBrack) rfl, sg_nil]
  simp

include ha in
theorem good_atom : Good Expr.toks (Lvl 8) (atom expr alloc) := by
  refine .alt ?_ (.alt ?_ (.alt (good_new hx ha) (.alt (good_structLit hx) (.alt (good_arrayRepeat hx)
    (.alt (good_arrayLit hx) (.alt ?_ (good_paren hx)))))))
  · intro ts a r h
    obtain ⟨v, m1, h1, h⟩ := bind_inv h
    obtain ⟨rfl, rfl⟩ := pure_inv h
    refine ⟨⟨by simp [Expr.shaped], by simp [Expr.prec]⟩, ?_⟩
    rw [number_inv h1, Expr.toks, sg_cons']
  · refine .alt ?_ ?_
    · intro ts a r h
      obtain ⟨_, m1, h1, h⟩ := bind_inv h
      obtain ⟨rfl, rfl⟩ := pure_inv h
      refine ⟨⟨by simp [Expr.shaped], by simp [Expr.prec]⟩, ?_⟩
      rw [just_inv h1, Expr.toks, sg_cons']
      rfl
    · intro ts a r h
      obtain ⟨_, m1, h1, h⟩ := bind_inv h
      obtain ⟨rfl, rfl⟩ := pure_inv h
      refine ⟨⟨by simp [Expr.shaped], by simp [Expr.prec]⟩, ?_⟩
      rw [just_inv h1, Expr.toks, sg_cons']
      rfl
  · intro ts a r h
    obtain ⟨v, m1, h1, h⟩ := bind_inv h
    obtain ⟨rfl, rfl⟩ := pure_inv h
    refine ⟨⟨by simp [Expr.shaped], by simp [Expr.prec]⟩, ?_⟩
    rw [ident_inv h1, Expr.toks, sg_cons']

/-- A postfix operator after an expression. -/
theorem post_inv {ts r : List Token} {o : PostOp} (h : postOp expr ts = some (o, r)) {e : Expr} (he : Lvl 7 e) :
    Lvl 7 (applyPost e o) ∧ sg e.toks ++ sg ts = sg (applyPost e o).toks ++ sg r := by
  rcases alt_inv h with h | ⟨_, h⟩
  · obtain ⟨es, m1, h1, h⟩ := bind_inv h
    obtain ⟨rfl, rfl⟩ := pure_inv h
    obtain ⟨m, rfl, hb⟩ := between_inv h1
    obtain ⟨q, e1⟩ := good_exprs hx true _ _ _ hb
    refine ⟨⟨by simp [applyPost, Expr.shaped, q, he.1, he.2], by simp [applyPost, Expr.prec]⟩, ?_⟩
    rw [applyPost, sg_call, sg_lParen, e1, sg_rParen, List.append_assoc]
  · rcases alt_inv h with h | ⟨_, h⟩
    · obtain ⟨_, m1, h1, h⟩ := bind_inv h
      obtain ⟨⟨v, s⟩, ht, hf⟩ := tryMap_inv h
      cases s with
      | some s => simp at hf
      | none =>
        simp only [Option.some.injEq] at hf
        subst hf
        refine ⟨⟨by simp [applyPost, Expr.shaped, he.1, he.2], by simp [applyPost, Expr.prec]⟩, ?_⟩
        rw [just_inv h1, number_inv ht, applyPost, Expr.toks, sg_cons rfl, sg_cons rfl, sg_append, sg_cons rfl,
          sg_cons rfl]
        simp
    · rcases alt_inv h with h | ⟨_, h⟩
      · obtain ⟨_, m1, h1, h⟩ := bind_inv h
        obtain ⟨f, m2, h2, h⟩ := bind_inv h
        obtain ⟨rfl, rfl⟩ := pure_inv h
        refine ⟨⟨by simp [applyPost, Expr.shaped, he.1, he.2], by simp [applyPost, Expr.prec]⟩, ?_⟩
        rw [just_inv h1, ident_inv h2, applyPost, Expr.toks, sg_cons rfl, sg_cons rfl, sg_append, sg_cons rfl,
          sg_cons rfl]
        simp
      · obtain ⟨i, m1, h1, h⟩ := bind_inv h
        obtain ⟨rfl, rfl⟩ := pure_inv h
        obtain ⟨m, rfl, hb⟩ := between_inv h1
        obtain ⟨q, e1⟩ := hx _ _ _ hb
        refine ⟨⟨by simp [applyPost, Expr.shaped, he.1, he.2, q.1], by simp [applyPost, Expr.prec]⟩, ?_⟩
        rw [applyPost, Expr.toks, sg_cons rfl, e1, sg_cons rfl]
        simp only [sg_append, List.append_assoc, List.cons_append, sg_cons (t := .lBrack) rfl,
          sg_cons (t := .rBrack) rfl, sg_nil]
        simp

end

/-- Chains, given what one step does. -/
theorem good_chain {lower : P Expr} {step : P β} {f : Expr → β → Expr} {Q Q' : Expr → Prop} (hl : Good Expr.toks Q lower)
    (hq : ∀ e, Q e → Q' e)
    (hs : ∀ {ts r x}, step ts = some (x, r) → ∀ {e}, Q' e → Q' (f e x) ∧ sg e.toks ++ sg ts = sg (f e x).toks ++ sg r) :
    Good Expr.toks Q' (chain lower step f) := by
  intro ts a r h
  obtain ⟨e, m1, h1, h⟩ := bind_inv h
  obtain ⟨xs, m2, h2, h⟩ := bind_inv h
  obtain ⟨rfl, rfl⟩ := pure_inv h
  obtain ⟨q, e1⟩ := hl _ _ _ h1
  rw [e1]
  have key : ∀ n m1 m2 xs e, Q' e → manyN step n m1 = some (xs, m2) →
      Q' (xs.foldl f e) ∧ sg e.toks ++ sg m1 = sg (xs.foldl f e).toks ++ sg m2 := by
    clear h h1 h2 e1 q
    intro n
    induction n with
    | zero =>
      intro m1 m2 xs e he h
      simp only [P.manyN, Option.some.injEq, Prod.mk.injEq] at h
      obtain ⟨rfl, rfl⟩ := h
      exact ⟨he, rfl⟩
    | succ n ih =>
      intro m1 m2 xs e he h
      simp only [P.manyN] at h
      split at h
      · simp only [Option.some.injEq, Prod.mk.injEq] at h
        obtain ⟨rfl, rfl⟩ := h
        exact ⟨he, rfl⟩
      · rename_i x m hx
        split at h
        · simp at h
        · rename_i as r' has
          simp only [Option.some.injEq, Prod.mk.injEq] at h
          obtain ⟨rfl, rfl⟩ := h
          obtain ⟨q1, e1⟩ := hs hx he
          obtain ⟨q2, e2⟩ := ih _ _ _ _ q1 has
          exact ⟨q2, e1.trans e2⟩
  exact key _ _ _ _ _ (hq e q) h2

theorem opOf_inv {ops : List (Token × BinaryOp)} {ts r : List Token} {op : BinaryOp}
    (h : opOf ops ts = some (op, r)) : ∃ t, (t, op) ∈ ops ∧ ts = t :: r := by
  induction ops with
  | nil => simp [opOf] at h
  | cons x ops ih =>
    obtain ⟨t, o⟩ := x
    rcases alt_inv h with h | ⟨_, h⟩
    · obtain ⟨_, m, h1, h⟩ := bind_inv h
      obtain ⟨rfl, rfl⟩ := pure_inv h
      exact ⟨t, by simp, just_inv h1⟩
    · obtain ⟨t, h1, h2⟩ := ih h
      exact ⟨t, by simp [h1], h2⟩

theorem opsAt_tok : ∀ k, k ≤ 4 → ∀ t op, (t, op) ∈ opsAt k → op.prec = k ∧ t = op.tok := by
  intro k hk t op h
  match k, hk with
  | 0, _ => simp [opsAt, logicOps] at h; rcases h with h | h <;> (obtain ⟨rfl, rfl⟩ := h; exact ⟨rfl, rfl⟩)
  | 1, _ => simp [opsAt, bitOps] at h; rcases h with h | h | h <;> (obtain ⟨rfl, rfl⟩ := h; exact ⟨rfl, rfl⟩)
  | 2, _ => simp [opsAt, cmpOps] at h; rcases h with h | h | h | h | h | h <;> (obtain ⟨rfl, rfl⟩ := h; exact ⟨rfl, rfl⟩)
  | 3, _ => simp [opsAt, addOps] at h; rcases h with h | h <;> (obtain ⟨rfl, rfl⟩ := h; exact ⟨rfl, rfl⟩)
  | 4, _ => simp [opsAt, mulOps] at h; rcases h with h | h | h <;> (obtain ⟨rfl, rfl⟩ := h; exact ⟨rfl, rfl⟩)

theorem tok_significant (op : BinaryOp) : op.tok.significant = true := by cases op <;> rfl

theorem good_tier {expr : P Expr} {alloc : P TypeExpr} (hx : Good Expr.toks (Lvl 0) expr)
    (ha : Good TypeExpr.toks (fun t => t.shaped = true ∧ t.noArray = true) alloc) :
    ∀ k, k ≤ 8 → Good Expr.toks (Lvl k) (tierP expr alloc k) := by
  have h8 : Good Expr.toks (Lvl 8) (tierP expr alloc 8) := good_atom hx ha
  have h7 : Good Expr.toks (Lvl 7) (tierP expr alloc 7) := by
    rw [tierP_call]
    exact good_chain h8 (fun e h => h.mono (by decide)) (fun h _ he => post_inv hx h he)
  have h6 : Good Expr.toks (Lvl 6) (tierP expr alloc 6) := by
    intro ts a r h
    obtain ⟨ops, m1, h1, h⟩ := bind_inv h
    obtain ⟨e, m2, h2, h⟩ := bind_inv h
    obtain ⟨rfl, rfl⟩ := pure_inv h
    have hu : Good (fun o => [UnaryOp.tok o]) (fun _ => True) unaryOp := by
      refine .alt ?_ ?_
      · intro ts a r h
        obtain ⟨_, m, h1, h⟩ := bind_inv h
        obtain ⟨rfl, rfl⟩ := pure_inv h
        rw [just_inv h1, sg_cons']
        exact ⟨trivial, rfl⟩
      · intro ts a r h
        obtain ⟨_, m, h1, h⟩ := bind_inv h
        obtain ⟨rfl, rfl⟩ := pure_inv h
        rw [just_inv h1, sg_cons']
        exact ⟨trivial, rfl⟩
    obtain ⟨-, e1⟩ := hu.many _ _ _ h1
    obtain ⟨q2, e2⟩ := h7 _ _ _ h2
    rw [e1, e2]
    have key : ∀ ops : List UnaryOp, Lvl 6 (ops.foldr (fun op e => .unary op e) e) ∧
        sg (wlist (fun o => [UnaryOp.tok o]) ops) ++ (sg e.toks ++ sg r)
          = sg (ops.foldr (fun op e => Expr.unary op e) e).toks ++ sg r := by
      intro ops
      induction ops with
      | nil => exact ⟨q2.mono (by decide), by simp [wlist]⟩
      | cons o ops ih =>
        obtain ⟨q, e⟩ := ih
        refine ⟨⟨by simp [Expr.shaped, q.1, q.2], by simp [Expr.prec]⟩, ?_⟩
        rw [List.foldr_cons, Expr.toks, sg_cons', List.append_assoc, ← e]
        simp [wlist]
        rw [sg_cons', List.append_assoc]
    exact key ops
  have h5 : Good Expr.toks (Lvl 5) (tierP expr alloc 5) := by
    rw [tierP_cast]
    refine good_chain h6 (fun e h => h.mono (by decide)) ?_
    intro ts r x h e he
    obtain ⟨_, m, h1, h⟩ := bind_inv h
    obtain ⟨q, e2⟩ := good_named _ _ _ h
    refine ⟨⟨by simp [Expr.shaped, he.1, he.2, q.1, q.2.2], by simp [Expr.prec]⟩, ?_⟩
    rw [just_inv h1, sg_cons rfl, e2, Expr.toks, sg_append, sg_cons rfl]
    simp
  have hbin : ∀ k, k ≤ 4 → Good Expr.toks (Lvl (k + 1)) (tierP expr alloc (k + 1)) →
      Good Expr.toks (Lvl k) (tierP expr alloc k) := by
    intro k hk hl
    rw [tierP_bin hk]
    refine good_chain hl (fun e h => h.mono (Nat.le_succ k)) ?_
    intro ts r x h e he
    obtain ⟨op, m1, h1, h⟩ := bind_inv h
    obtain ⟨e2, m2, h2, h⟩ := bind_inv h
    obtain ⟨rfl, rfl⟩ := pure_inv h
    obtain ⟨q, eq⟩ := hl _ _ _ h2
    obtain ⟨t, ht, rfl⟩ := opOf_inv h1
    obtain ⟨hp, rfl⟩ := opsAt_tok k hk t op ht
    have h1 := he.2
    have h2 := q.2
    refine ⟨⟨?_, by simp [binFold, Expr.prec, hp]⟩, ?_⟩
    · simp only [binFold, Expr.shaped, he.1, q.1, hp, Bool.and_true, Bool.and_eq_true, decide_eq_true_eq]
      omega
    · rw [sg_cons (tok_significant op), eq, binFold, Expr.toks, sg_append, sg_cons (tok_significant op)]
      simp
  have h4 := hbin 4 (by decide) h5
  have h3 := hbin 3 (by decide) h4
  have h2 := hbin 2 (by decide) h3
  have h1 := hbin 1 (by decide) h2
  have h0 := hbin 0 (by decide) h1
  intro k hk
  match k, hk with
  | 0, _ => exact h0
  | 1, _ => exact h1
  | 2, _ => exact h2
  | 3, _ => exact h3
  | 4, _ => exact h4
  | 5, _ => exact h5
  | 6, _ => exact h6
  | 7, _ => exact h7
  | 8, _ => exact h8

theorem good_expr (n : Nat) : Good Expr.toks (Lvl 0) (parseExpr n) := by
  induction n with
  | zero => exact good_fail
  | succ n ih => exact good_tier ih (good_alloc n) 0 (by decide)

theorem good_type (n : Nat) : Good TypeExpr.toks (fun t => t.shaped = true) (parseType n) := by
  induction n with
  | zero => exact good_fail
  | succ n ih =>
    refine good_stars (fun t h => by simpa [TypeExpr.shaped] using h) (.alt (.alt ?_ ?_) ?_)
    · exact good_named.mono (fun t h => h.1)
    · intro ts a r h
      obtain ⟨_, m1, h1, h⟩ := bind_inv h
      obtain ⟨t, m2, h2, h⟩ := bind_inv h
      obtain ⟨_, m3, h3, h⟩ := bind_inv h
      obtain ⟨k, m4, h4, h⟩ := bind_inv h
      obtain ⟨_, m5, h5, h⟩ := bind_inv h
      obtain ⟨rfl, rfl⟩ := pure_inv h
      obtain ⟨e, h4, hf⟩ := tryMap_inv h4
      obtain ⟨q2, e2⟩ := ih _ _ _ h2
      obtain ⟨q4, e4⟩ := good_expr n _ _ _ h4
      split at hf
      · simp only [Option.some.injEq] at hf
        subst hf
        refine ⟨by simpa only [TypeExpr.shaped] using q2, ?_⟩
        rw [just_inv h1, sg_cons rfl, e2, just_inv h3, sg_cons rfl, e4, just_inv h5, TypeExpr.toks, Expr.toks]
        simp only [List.cons_append, sg_append, sg_cons (t := .lBrack) rfl, sg_cons (t := .semicolon) rfl, sg_cons (t := .rBrack) rfl, sg_nil, sg_cons (t := .number _ _) rfl]
        simp
      · simp at hf
    · exact good_tupleType (fun ts h => by simpa only [TypeExpr.shaped, typesShaped_iff] using h) ih

theorem sg_patternsToks (es : List Pattern) : sg (patternsToks es) = sg (wlist Pattern.toks es) := by
  induction es with
  | nil => simp [patternsToks, wlist]
  | cons t ts ih => simp [patternsToks, ih, wlist]

theorem good_pattern (n : Nat) : Good Pattern.toks (fun p => p.shaped = true) (parsePattern n) := by
  induction n with
  | zero => exact good_fail
  | succ n ih =>
    refine .alt ?_ ?_
    · intro ts a r h
      obtain ⟨ps, ht, hf⟩ := tryMap_inv h
      split at hf
      · rename_i hl
        simp only [Option.some.injEq] at hf
        subst hf
        obtain ⟨m, rfl, hb⟩ := between_inv ht
        obtain ⟨q, e⟩ := ih.sepBy false _ _ _ hb
        refine ⟨by simpa [Pattern.shaped, patternsShaped_iff] using ⟨hl, q⟩, ?_⟩
        rw [sg_lParen, e, sg_rParen]
        cases ps with
        | nil => simp at hl
        | cons p ps => simp [Pattern.toks, wlist, sg_patternsToks]
      · simp at hf
    · intro ts a r h
      obtain ⟨s, m1, h1, h⟩ := bind_inv h
      obtain ⟨rfl, rfl⟩ := pure_inv h
      refine ⟨by simp [Pattern.shaped], ?_⟩
      rw [ident_inv h1, Pattern.toks, sg_cons']

/-! ## Statements -/

theorem good_annot {n : Nat} {ts r : List Token} {t : Option TypeExpr}
    (h : typeAnnot (parseType n) ts = some (t, r)) : annotShaped t = true ∧ sg ts = sg (annotToks t) ++ sg r := by
  rcases opt_inv h with ⟨a, rfl, h0⟩ | ⟨rfl, rfl, _⟩
  · obtain ⟨_, m, h1, h2⟩ := bind_inv h0
    obtain ⟨q, e⟩ := good_type n _ _ _ h2
    refine ⟨q, ?_⟩
    rw [just_inv h1, annotToks, sg_cons rfl, e, sg_cons rfl]
    rfl
  · exact ⟨rfl, by simp [annotToks]⟩

theorem good_const (n : Nat) : Good ConstDef.toks (fun c => c.shaped = true) (constDef (parseExpr n) (parseType n)) := by
  intro ts a r h
  obtain ⟨_, m1, h1, h⟩ := bind_inv h
  obtain ⟨s, m2, h2, h⟩ := bind_inv h
  obtain ⟨t, m3, h3, h⟩ := bind_inv h
  obtain ⟨_, m4, h4, h⟩ := bind_inv h
  obtain ⟨e, m5, h5, h⟩ := bind_inv h
  obtain ⟨_, m6, h6, h⟩ := bind_inv h
  obtain ⟨rfl, rfl⟩ := pure_inv h
  obtain ⟨q3, e3⟩ := good_annot h3
  obtain ⟨q5, e5⟩ := good_expr n _ _ _ h5
  refine ⟨by simp [ConstDef.shaped, q3, q5.1], ?_⟩
  rw [just_inv h1, ident_inv h2, sg_cons rfl, sg_cons rfl, e3, just_inv h4, sg_cons rfl, e5, just_inv h6, sg_cons rfl]
  simp only [ConstDef.toks, List.cons_append, List.append_assoc, sg_append, sg_cons (t := .const_) rfl,
    sg_cons (t := .identifier _) rfl, sg_cons (t := .eq_) rfl, sg_cons (t := .semicolon) rfl, sg_nil, List.nil_append]

theorem good_let (n : Nat) : Good Stmt.toks (fun s => s.shaped = true ∧ s.isInit = true)
    (letStmt (parseExpr n) (parseType n) (parsePattern n)) := by
  intro ts a r h
  obtain ⟨_, m1, h1, h⟩ := bind_inv h
  obtain ⟨s, m2, h2, h⟩ := bind_inv h
  obtain ⟨t, m3, h3, h⟩ := bind_inv h
  obtain ⟨_, m4, h4, h⟩ := bind_inv h
  obtain ⟨e, m5, h5, h⟩ := bind_inv h
  obtain ⟨_, m6, h6, h⟩ := bind_inv h
  obtain ⟨rfl, rfl⟩ := pure_inv h
  obtain ⟨q2, e2⟩ := good_pattern n _ _ _ h2
  obtain ⟨q3, e3⟩ := good_annot h3
  obtain ⟨q5, e5⟩ := good_expr n _ _ _ h5
  refine ⟨⟨by simp [Stmt.shaped, q2, q3, q5.1], rfl⟩, ?_⟩
  rw [just_inv h1, sg_cons rfl, e2, e3, just_inv h4, sg_cons rfl, e5, just_inv h6, sg_cons rfl]
  simp only [Stmt.toks, List.cons_append, List.append_assoc, sg_append, sg_cons (t := .let_) rfl,
    sg_cons (t := .eq_) rfl, sg_cons (t := .semicolon) rfl, sg_nil, List.nil_append]

theorem good_step (n : Nat) : Good (fun s => s.toks.dropLast) (fun s => s.shaped = true ∧ s.isStep = true)
    (assignOrExpr (parseExpr n)) := by
  intro ts a r h
  obtain ⟨l, m1, h1, h⟩ := bind_inv h
  obtain ⟨x, m2, h2, h⟩ := bind_inv h
  obtain ⟨rfl, rfl⟩ := pure_inv h
  obtain ⟨q1, e1⟩ := good_expr n _ _ _ h1
  rcases opt_inv h2 with ⟨e, rfl, h4⟩ | ⟨rfl, rfl, _⟩
  · obtain ⟨_, m3, h3, h5⟩ := bind_inv h4
    obtain ⟨q2, e2⟩ := good_expr n _ _ _ h5
    refine ⟨⟨by simp [Stmt.shaped, q1.1, q2.1], rfl⟩, ?_⟩
    simp only [Stmt.toks]
    rw [List.dropLast_concat, e1, just_inv h3, sg_cons rfl, e2, sg_append, sg_cons rfl]
    simp
  · refine ⟨⟨by simp [Stmt.shaped, q1.1], rfl⟩, ?_⟩
    simp only [Stmt.toks]
    rw [List.dropLast_concat, e1]

theorem good_assign (n : Nat) : Good Stmt.toks (fun s => s.shaped = true ∧ s.isStep = true)
    (assignStmt (parseExpr n)) := by
  intro ts a r h
  obtain ⟨l, m1, h1, h⟩ := bind_inv h
  obtain ⟨_, m2, h2, h⟩ := bind_inv h
  obtain ⟨rfl, rfl⟩ := pure_inv h
  obtain ⟨q1, e1⟩ := good_step n _ _ _ h1
  refine ⟨q1, ?_⟩
  have h3 : sg a.toks = sg a.toks.dropLast ++ [.semicolon] := by
    have := congrArg sg (step_toks q1.2)
    rw [sg_append] at this
    exact this
  rw [e1, just_inv h2, h3, sg_cons rfl]
  simp

theorem good_cond {n : Nat} {ts r : List Token} {c : Expr} (h : condition (parseExpr n) ts = some (c, r)) :
    c.shaped = true ∧ sg ts = sg c.toks ++ sg r := by
  rcases alt_inv h with h | ⟨_, h⟩
  · obtain ⟨m, rfl, hb⟩ := between_inv h
    obtain ⟨q, e⟩ := good_expr n _ _ _ hb
    exact ⟨q.1, by rw [sg_lParen, e, sg_rParen]⟩
  · obtain ⟨q, e⟩ := good_expr n _ _ _ h
    exact ⟨q.1, e⟩

theorem sg_condToks (c : Expr) (body : List Token) : sg (condToks c body) = sg c.toks ++ sg body := by
  unfold condToks
  split <;> simp

/-- The statement parser with a sufficient bound. -/
def stmtAt (ts : List Token) : Option (Stmt × List Token) := parseStmt (ts.length + 2) ts

theorem stmtAt_eq {n : Nat} {ts : List Token} (h : ts.length + 2 ≤ n) : parseStmt n ts = stmtAt ts :=
  stmt_agree (ts.length + 1) n (ts.length + 2) h (Nat.le_refl _) ts (Nat.lt_succ_self _)

/-- What the statement parser returns on fewer than `k` tokens. If the statement ends in an `if` without `else`, no
`else` with a statement follows. -/
def GoodStmt (k : Nat) (p : P Stmt) : Prop :=
  ∀ ts s r, ts.length < k → p ts = some (s, r) → s.shaped = true ∧
    (s.openIf = true → ∀ r', r = .else_ :: r' → stmtAt r' = none) ∧ sg ts = sg s.toks ++ sg r

theorem GoodStmt.alt {k : Nat} {p q : P Stmt} (hp : GoodStmt k p) (hq : GoodStmt k q) : GoodStmt k (alt p q) := by
  intro ts a r hl h
  rcases alt_inv h with h | ⟨_, h⟩
  · exact hp _ _ _ hl h
  · exact hq _ _ _ hl h

theorem good_stmts {k : Nat} {p : P Stmt} (hp : GoodStmt k p) (hm : Mono p) : ∀ (n : Nat) (ts : List Token)
    (ss : List Stmt) (r : List Token), ts.length < k → manyN p n ts = some (ss, r) →
    stmtsShaped ss = true ∧ sg ts = sg (stmtsToks ss) ++ sg r := by
  intro n
  induction n with
  | zero =>
    intro ts ss r _ h
    simp only [manyN, Option.some.injEq, Prod.mk.injEq] at h
    obtain ⟨rfl, rfl⟩ := h
    simp [stmtsShaped, stmtsToks]
  | succ n ih =>
    intro ts ss r hl h
    simp only [manyN] at h
    split at h
    · simp only [Option.some.injEq, Prod.mk.injEq] at h
      obtain ⟨rfl, rfl⟩ := h
      simp [stmtsShaped, stmtsToks]
    · rename_i s m hs
      split at h
      · simp at h
      · rename_i ss' r' hr'
        simp only [Option.some.injEq, Prod.mk.injEq] at h
        obtain ⟨rfl, rfl⟩ := h
        have h1 := hm _ _ _ hs
        obtain ⟨q, _, e⟩ := hp _ _ _ hl hs
        obtain ⟨q2, e2⟩ := ih _ _ _ (by omega) hr'
        exact ⟨by simp [stmtsShaped, q, q2], by rw [e, e2, stmtsToks, sg_append, List.append_assoc]⟩

theorem good_block {k : Nat} {p : P Stmt} (hp : GoodStmt k p) (hm : Mono p) {ts r : List Token} {ss : List Stmt}
    (hl : ts.length ≤ k) (h : blockOf p ts = some (ss, r)) :
    stmtsShaped ss = true ∧ sg ts = .lBrace :: sg (stmtsToks ss) ++ .rBrace :: sg r := by
  obtain ⟨m, rfl, hb⟩ := between_inv h
  simp only [List.length_cons] at hl
  obtain ⟨q, e⟩ := good_stmts hp hm _ _ _ _ (by omega) hb
  refine ⟨q, ?_⟩
  rw [sg_cons rfl, e, sg_cons rfl]
  rfl

theorem mono_cond (n : Nat) : Mono (condition (parseExpr n)) := by
  have := mono_expr n
  unfold condition
  mono

theorem mono_assign (n : Nat) : Mono (assignOrExpr (parseExpr n)) := by
  have := mono_expr n
  unfold assignOrExpr
  mono

theorem mono_init (n : Nat) :
    Mono (P.alt (letStmt (parseExpr n) (parseType n) (parsePattern n)) (assignStmt (parseExpr n))) := by
  have := mono_expr n
  have := mono_type n
  have := mono_pattern n
  unfold letStmt typeAnnot assignStmt assignOrExpr
  mono

theorem good_stmt (k : Nat) : ∀ n, k + 1 ≤ n → GoodStmt k (parseStmt n) := by
  induction k with
  | zero => intro n _ ts s r hl; omega
  | succ k ih =>
    intro n hn
    obtain ⟨n, rfl⟩ : ∃ j, n = j + 1 := ⟨n - 1, by omega⟩
    have ih := ih n (by omega)
    have mx := mono_expr n
    have mc := mono_cond n
    have ms := mono_stmt n
    refine .alt ?_ (.alt ?_ (.alt ?_ (.alt ?_ (.alt ?_ (.alt ?_ (.alt ?_ (.alt ?_ (.alt ?_ (.alt ?_ ?_)))))))))
    · intro ts s r hl h
      obtain ⟨ss, m1, h1, h2⟩ := bind_inv h
      obtain ⟨rfl, rfl⟩ := pure_inv h2
      obtain ⟨q, e⟩ := good_block ih ms (by omega) h1
      refine ⟨by simpa only [Stmt.shaped] using q, by simp [Stmt.openIf], ?_⟩
      rw [e, Stmt.toks, List.cons_append, List.cons_append, sg_cons rfl, sg_append, sg_cons rfl]
      simp
    · intro ts s r hl h
      obtain ⟨_, m1, h1, h⟩ := bind_inv h
      obtain ⟨c, m2, h2, h⟩ := bind_inv h
      obtain ⟨t, m3, h3, h⟩ := bind_inv h
      obtain ⟨e, m4, h4, h⟩ := bind_inv h
      obtain ⟨rfl, rfl⟩ := pure_inv h
      have hj := just_inv h1
      subst hj
      simp only [List.length_cons] at hl
      have l2 := mc _ _ _ h2
      have l3 := ms _ _ _ h3
      obtain ⟨q2, e2⟩ := good_cond h2
      obtain ⟨q3, o3, e3⟩ := ih _ _ _ (by omega) h3
      rw [sg_cons rfl, e2, e3]
      rcases opt_inv h4 with ⟨e, rfl, h4'⟩ | ⟨rfl, rfl, hn⟩
      · obtain ⟨_, m5, h5, h6⟩ := bind_inv h4'
        have hm := just_inv h5
        subst hm
        simp only [List.length_cons] at l3
        obtain ⟨q4, o4, e4⟩ := ih _ _ _ (by omega) h6
        refine ⟨?_, by simpa only [Stmt.openIf] using o4, ?_⟩
        · have : t.openIf = false := by
            by_cases ho : t.openIf = true
            · have := o3 ho m5 rfl
              rw [← stmtAt_eq (n := n) (by omega), h6] at this
              simp at this
            · simpa using ho
          simp [Stmt.shaped, q2, q3, q4, this]
        · rw [sg_cons rfl, e4, Stmt.toks, sg_cons rfl, sg_condToks, sg_append, sg_cons rfl]
          simp
      · refine ⟨by simp [Stmt.shaped, q2, q3], ?_, ?_⟩
        · rintro - r' rfl
          rw [bind_some (just_same _ _)] at hn
          simp only [List.length_cons] at l3
          rw [← stmtAt_eq (n := n) (by omega)]
          exact hn
        · rw [Stmt.toks, sg_cons rfl, sg_condToks]
          simp
    · intro ts s r hl h
      obtain ⟨_, m1, h1, h⟩ := bind_inv h
      obtain ⟨b, m2, h2, h⟩ := bind_inv h
      obtain ⟨rfl, rfl⟩ := pure_inv h
      have hj := just_inv h1
      subst hj
      simp only [List.length_cons] at hl
      obtain ⟨q, o, e⟩ := ih _ _ _ (by omega) h2
      refine ⟨by simpa only [Stmt.shaped] using q, by simpa only [Stmt.openIf] using o, ?_⟩
      rw [sg_cons rfl, e, Stmt.toks, sg_cons rfl]
      rfl
    · intro ts s r hl h
      obtain ⟨_, m1, h1, h⟩ := bind_inv h
      obtain ⟨c, m2, h2, h⟩ := bind_inv h
      obtain ⟨b, m3, h3, h⟩ := bind_inv h
      obtain ⟨rfl, rfl⟩ := pure_inv h
      have hj := just_inv h1
      subst hj
      simp only [List.length_cons] at hl
      have l2 := mc _ _ _ h2
      obtain ⟨q2, e2⟩ := good_cond h2
      obtain ⟨q, o, e⟩ := ih _ _ _ (by omega) h3
      refine ⟨by simp [Stmt.shaped, q2, q], by simpa only [Stmt.openIf] using o, ?_⟩
      rw [sg_cons rfl, e2, e, Stmt.toks, sg_cons rfl, sg_condToks]
      simp
    · intro ts s r hl h
      obtain ⟨_, m1, h1, h⟩ := bind_inv h
      obtain ⟨_, m2, h2, h⟩ := bind_inv h
      obtain ⟨i, m3, h3, h⟩ := bind_inv h
      obtain ⟨c, m4, h4, h⟩ := bind_inv h
      obtain ⟨_, m5, h5, h⟩ := bind_inv h
      obtain ⟨st, m6, h6, h⟩ := bind_inv h
      obtain ⟨_, m7, h7, h⟩ := bind_inv h
      obtain ⟨b, m8, h8, h⟩ := bind_inv h
      obtain ⟨rfl, rfl⟩ := pure_inv h
      have hi : Good Stmt.toks (fun s => s.shaped = true ∧ s.isInit = true)
          (P.alt (letStmt (parseExpr n) (parseType n) (parsePattern n)) (assignStmt (parseExpr n))) :=
        .alt (good_let n) ((good_assign n).mono (fun s h => ⟨h.1, by cases s <;> simp_all [Stmt.isStep, Stmt.isInit]⟩))
      obtain ⟨q3, e3⟩ := hi _ _ _ h3
      obtain ⟨q4, e4⟩ := good_expr n _ _ _ h4
      obtain ⟨q6, e6⟩ := good_step n _ _ _ h6
      have l1 := mono_just _ _ _ _ h1
      have l2 := congrArg List.length (just_inv h2)
      have l3 := mono_init n _ _ _ h3
      have l4 := mx _ _ _ h4
      have l5 := mono_just _ _ _ _ h5
      have l6 := mono_assign n _ _ _ h6
      have l7 := mono_just _ _ _ _ h7
      simp only [List.length_cons] at l2
      obtain ⟨q, o, e⟩ := ih _ _ _ (by omega) h8
      refine ⟨by simp [Stmt.shaped, q3.1, q3.2, q4.1, q6.1, q6.2, q], by simpa only [Stmt.openIf] using o, ?_⟩
      rw [just_inv h1, just_inv h2, sg_cons rfl, sg_lParen, e3, e4, just_inv h5, sg_cons rfl, e6, just_inv h7,
        sg_rParen, e]
      simp only [Stmt.toks, List.cons_append, List.append_assoc, sg_append, sg_cons (t := .for_) rfl, sg_lParen,
        sg_cons (t := .semicolon) rfl, sg_rParen]
    · intro ts s r _ h
      obtain ⟨_, m1, h1, h⟩ := bind_inv h
      obtain ⟨_, m2, h2, h⟩ := bind_inv h
      obtain ⟨rfl, rfl⟩ := pure_inv h
      refine ⟨by simp [Stmt.shaped], by simp [Stmt.openIf], ?_⟩
      rw [just_inv h1, just_inv h2, Stmt.toks, sg_cons rfl, sg_cons rfl, sg_cons rfl, sg_cons rfl]
      simp
    · intro ts s r _ h
      obtain ⟨_, m1, h1, h⟩ := bind_inv h
      obtain ⟨_, m2, h2, h⟩ := bind_inv h
      obtain ⟨rfl, rfl⟩ := pure_inv h
      refine ⟨by simp [Stmt.shaped], by simp [Stmt.openIf], ?_⟩
      rw [just_inv h1, just_inv h2, Stmt.toks, sg_cons rfl, sg_cons rfl, sg_cons rfl, sg_cons rfl]
      simp
    · intro ts s r _ h
      obtain ⟨q, e⟩ := good_let n _ _ _ h
      exact ⟨q.1, by cases s <;> simp_all [Stmt.openIf, Stmt.isInit], e⟩
    · intro ts s r _ h
      obtain ⟨c, m1, h1, h⟩ := bind_inv h
      obtain ⟨rfl, rfl⟩ := pure_inv h
      obtain ⟨q, e⟩ := good_const n _ _ _ h1
      exact ⟨by simpa only [Stmt.shaped] using q, by simp [Stmt.openIf], by rw [e, Stmt.toks]⟩
    · intro ts s r _ h
      obtain ⟨_, m1, h1, h⟩ := bind_inv h
      obtain ⟨x, m2, h2, h⟩ := bind_inv h
      obtain ⟨_, m3, h3, h⟩ := bind_inv h
      obtain ⟨rfl, rfl⟩ := pure_inv h
      rw [just_inv h1, sg_cons rfl]
      have h4 := just_inv h3
      rcases opt_inv h2 with ⟨a, rfl, h5⟩ | ⟨rfl, rfl, _⟩
      · obtain ⟨q, e⟩ := good_expr n _ _ _ h5
        refine ⟨by simpa only [Stmt.shaped] using q.1, by simp [Stmt.openIf], ?_⟩
        rw [e, h4, Stmt.toks, sg_cons rfl, List.cons_append, sg_cons rfl, sg_append, sg_cons rfl]
        simp
      · refine ⟨by simp [Stmt.shaped], by simp [Stmt.openIf], ?_⟩
        rw [h4, Stmt.toks, sg_cons rfl, sg_cons rfl, sg_cons rfl]
        simp
    · intro ts s r _ h
      obtain ⟨q, e⟩ := good_assign n _ _ _ h
      exact ⟨q.1, by cases s <;> simp_all [Stmt.openIf, Stmt.isStep], e⟩

/-! ## Items -/

def typedNameToks (x : String × TypeExpr) : List Token := .identifier x.1 :: .colon :: x.2.toks

theorem good_typed (n : Nat) : Good typedNameToks (fun x => x.2.shaped = true) (typedName (parseType n)) := by
  intro ts a r h
  obtain ⟨s, m1, h1, h⟩ := bind_inv h
  obtain ⟨_, m2, h2, h⟩ := bind_inv h
  obtain ⟨e, m3, h3, h⟩ := bind_inv h
  obtain ⟨rfl, rfl⟩ := pure_inv h
  obtain ⟨q, e3⟩ := good_type n _ _ _ h3
  refine ⟨q, ?_⟩
  rw [ident_inv h1, just_inv h2, typedNameToks, sg_cons rfl, sg_cons rfl, sg_cons rfl, sg_cons rfl, e3]
  rfl

theorem typedShaped_iff {l : List (String × TypeExpr)} : typedShaped l = true ↔ ∀ x ∈ l, x.2.shaped = true := by
  simp [typedShaped]

theorem sg_structToks (l : List (String × TypeExpr)) : sg (structToks l) = sg (wlist typedNameToks l) := by
  induction l with
  | nil => rfl
  | cons x l ih =>
    obtain ⟨s, t⟩ := x
    simp only [structToks, wlist, List.flatMap_cons, typedNameToks, List.cons_append] at ih ⊢
    rw [sg_cons rfl, sg_cons rfl, sg_append, sg_comma, ih, sg_cons rfl, sg_cons rfl, sg_append]

theorem sg_typedToks (l : List (String × TypeExpr)) : sg (typedToks l) = sg (wlist typedNameToks l) := by
  induction l with
  | nil => rfl
  | cons x l ih =>
    obtain ⟨s, t⟩ := x
    simp only [typedToks, wlist, List.flatMap_cons, typedNameToks, List.cons_append] at ih ⊢
    rw [sg_comma, sg_cons rfl, sg_cons rfl, sg_append, ih, sg_cons rfl, sg_cons rfl, sg_append]

theorem sg_paramsToks (l : List (String × TypeExpr)) : sg (paramsToks l) = sg (wlist typedNameToks l) := by
  cases l with
  | nil => rfl
  | cons x l =>
    obtain ⟨s, t⟩ := x
    have := sg_typedToks ((s, t) :: l)
    rw [← this, paramsToks, typedToks, List.cons_append, List.cons_append, List.cons_append, List.cons_append,
      List.cons_append, sg_comma]

theorem sg_namesToks (l : List String) : sg (namesToks l) = sg (wlist (fun s => [.identifier s]) l) := by
  induction l with
  | nil => rfl
  | cons x l ih =>
    simp only [wlist] at ih
    rw [namesToks, sg_comma, sg_cons', ih, wlist, List.flatMap_cons, sg_append]

theorem sg_listToks (l : List String) :
    sg (UseItems.list l).toks = .lBrace :: sg (wlist (fun s => [.identifier s]) l) ++ [.rBrace] := by
  cases l with
  | nil => rfl
  | cons x l =>
    have : sg (wlist (fun s => [.identifier s]) (x :: l)) = sg [.identifier x] ++ sg (wlist (fun s => [.identifier s]) l) := by
      simp only [wlist, List.flatMap_cons, sg_append]
    rw [UseItems.toks, List.cons_append, List.cons_append, sg_cons rfl, sg_cons', sg_append, sg_namesToks, this]
    simp
    rfl

theorem good_use : Good Item.toks (fun i => i.shaped = true) useStmt := by
  intro ts a r h
  obtain ⟨_, m1, h1, h⟩ := bind_inv h
  rw [just_inv h1, sg_cons rfl]
  rcases alt_inv h with h | ⟨_, h⟩
  · obtain ⟨p, m2, h2, h⟩ := bind_inv h
    obtain ⟨_, m3, h3, h⟩ := bind_inv h
    obtain ⟨rfl, rfl⟩ := pure_inv h
    obtain ⟨hne, e1, e2⟩ := modulePath_inv h2
    refine ⟨by simp [Item.shaped], ?_⟩
    have hp : pathToks p = pathToks p.dropLast ++ [.identifier (p.getLast?.getD ""), .colonColon] := by
      have hpl : p = p.dropLast ++ [p.getLast?.getD ""] := by
        rw [List.getLast?_eq_some_getLast hne, Option.getD_some, List.dropLast_concat_getLast]
      have key : ∀ (l : List String) s, pathToks (l ++ [s]) = pathToks l ++ [.identifier s, .colonColon] := by
        intro l s
        induction l with
        | nil => rfl
        | cons a l ih => simp [pathToks, ih]
      rw [← key, ← hpl]
    have e3 := just_inv h3
    have : m1 = pathToks p.dropLast ++ .identifier (p.getLast?.getD "") :: m2 := by
      rw [e2]
      have : (m1.take (2 * p.length - 1) ++ [.colonColon]) ++ m2
        = (pathToks p.dropLast ++ [.identifier (p.getLast?.getD "")] ++ [.colonColon]) ++ m2 := by
        rw [List.append_assoc, List.cons_append, List.nil_append, ← e1, hp]
        simp
      have := List.append_cancel_right this
      have := List.append_cancel_right this
      rw [this]
      simp
    rw [this, e3, Item.toks, UseItems.toks, List.cons_append, List.cons_append, sg_cons rfl]
    simp only [sg_append, sg_cons (t := .identifier _) rfl, sg_cons (t := .semicolon) rfl, sg_nil]
    simp
  · obtain ⟨p, m2, h2, h⟩ := bind_inv h
    obtain ⟨_, m3, h3, h⟩ := bind_inv h
    obtain ⟨ns, m4, h4, h⟩ := bind_inv h
    obtain ⟨_, m5, h5, h⟩ := bind_inv h
    obtain ⟨rfl, rfl⟩ := pure_inv h
    obtain ⟨hne, e1, e2⟩ := modulePath_inv h2
    obtain ⟨m, rfl, hb⟩ := between_inv h4
    have hid : Good (fun s => [.identifier s]) (fun _ => True) ident := by
      intro ts s r h
      rw [ident_inv h]
      exact ⟨trivial, sg_cons' _ _⟩
    obtain ⟨_, e4⟩ := hid.sepBy true _ _ _ hb
    have e3 := just_inv h3
    have e5 := just_inv h5
    refine ⟨by simpa [Item.shaped] using hne, ?_⟩
    have : m1 = pathToks p ++ .lBrace :: m := by
      rw [e2, e3]
      have : m1.take (2 * p.length - 1) ++ [.colonColon] ++ m2 = pathToks p ++ m2 := by
        rw [e1]
        simp
      have := List.append_cancel_right this
      rw [← this]
      simp
    rw [this, Item.toks, List.cons_append, List.cons_append, sg_cons rfl]
    simp only [sg_append, sg_listToks]
    rw [sg_cons rfl, e4, sg_cons rfl, e5, sg_cons rfl, sg_cons rfl]
    simp

theorem good_function {k n : Nat} (hn : k ≤ n) {ts r : List Token} {f : FunctionDef} (hl : ts.length < k)
    (h : functionDef n ts = some (f, r)) : (Item.function f).shaped = true ∧ sg ts = sg f.toks ++ sg r := by
  obtain ⟨_, m1, h1, h⟩ := bind_inv h
  obtain ⟨s, m2, h2, h⟩ := bind_inv h
  obtain ⟨ps, m3, h3, h⟩ := bind_inv h
  obtain ⟨ret, m4, h4, h⟩ := bind_inv h
  obtain ⟨b, m5, h5, h⟩ := bind_inv h
  obtain ⟨rfl, rfl⟩ := pure_inv h
  have l1 := congrArg List.length (just_inv h1)
  have l2 := mono_ident _ _ _ h2
  have l3 := mono_between (mono_sepBy (mono_just _) (mono_typed n) _) _ _ _ _ _ h3
  have mt := mono_type n
  have l4 := (show Mono (opt (do just .arrow; parseType n)) by mono) _ _ _ h4
  simp only [List.length_cons] at l1
  obtain ⟨m, rfl, hb⟩ := between_inv h3
  obtain ⟨q3, e3⟩ := (good_typed n).sepBy true _ _ _ hb
  obtain ⟨q5, e5⟩ := good_block (good_stmt (k - 1) n (by omega)) (mono_stmt n) (by omega) h5
  have h6 : (ret.getD (.tuple [])).shaped = true ∧
      sg m3 = sg (if (ret.getD (.tuple [])).isUnit then [] else .arrow :: (ret.getD (.tuple [])).toks) ++ sg m4 := by
    rcases opt_inv h4 with ⟨t, rfl, h7⟩ | ⟨rfl, rfl, _⟩
    · obtain ⟨_, m6, h8, h9⟩ := bind_inv h7
      obtain ⟨q, e⟩ := good_type n _ _ _ h9
      refine ⟨q, ?_⟩
      rw [just_inv h8, sg_arrow, e, Option.getD_some]
      split
      · rename_i hu
        rw [isUnit_eq hu]
        simp [TypeExpr.toks]
      · simp
    · exact ⟨by simp [TypeExpr.shaped, typesShaped], by simp [TypeExpr.isUnit]⟩
  refine ⟨by simp [Item.shaped, typedShaped_iff.2 q3, h6.1, q5], ?_⟩
  rw [just_inv h1, ident_inv h2, sg_cons rfl, sg_cons rfl, sg_lParen, e3, sg_rParen, h6.2, e5]
  simp only [FunctionDef.toks, List.cons_append, List.append_assoc, sg_cons (t := .function_) rfl,
    sg_cons (t := .identifier _) rfl, sg_lParen, sg_append, sg_rParen, sg_paramsToks, sg_cons (t := .lBrace) rfl,
    sg_cons (t := .rBrace) rfl, sg_nil, List.nil_append]

theorem good_item {k n : Nat} (hn : k ≤ n) {ts r : List Token} {i : Item} (hl : ts.length < k)
    (h : item n ts = some (i, r)) : i.shaped = true ∧ sg ts = sg i.toks ++ sg r := by
  rcases alt_inv h with h | ⟨_, h⟩
  · obtain ⟨f, m, h1, h⟩ := bind_inv h
    obtain ⟨rfl, rfl⟩ := pure_inv h
    exact good_function hn hl h1
  rcases alt_inv h with h | ⟨_, h⟩
  · obtain ⟨_, m1, h1, h⟩ := bind_inv h
    obtain ⟨s, m2, h2, h⟩ := bind_inv h
    obtain ⟨fs, m3, h3, h⟩ := bind_inv h
    obtain ⟨rfl, rfl⟩ := pure_inv h
    obtain ⟨m, rfl, hb⟩ := between_inv h3
    obtain ⟨q3, e3⟩ := (good_typed n).sepBy true _ _ _ hb
    refine ⟨by simpa only [Item.shaped] using typedShaped_iff.2 q3, ?_⟩
    rw [just_inv h1, ident_inv h2, sg_cons rfl, sg_cons rfl, sg_cons rfl, e3, sg_cons rfl]
    simp only [Item.toks, List.cons_append, List.append_assoc, sg_cons (t := .struct_) rfl,
      sg_cons (t := .identifier _) rfl, sg_append, sg_structToks, sg_cons (t := .lBrace) rfl,
      sg_cons (t := .rBrace) rfl, sg_nil, List.nil_append]
  rcases alt_inv h with h | ⟨_, h⟩
  · obtain ⟨c, m, h1, h⟩ := bind_inv h
    obtain ⟨rfl, rfl⟩ := pure_inv h
    obtain ⟨q, e⟩ := good_const n _ _ _ h1
    exact ⟨by simpa only [Item.shaped] using q, by rw [e, Item.toks]⟩
  · exact good_use _ _ _ h

theorem good_items {k n : Nat} (hn : k ≤ n) : ∀ (j : Nat) (ts r : List Token) (is : List Item), ts.length < k →
    manyN (item n) j ts = some (is, r) → programShaped is = true ∧ sg ts = sg (programToks is) ++ sg r := by
  intro j
  induction j with
  | zero =>
    intro ts r is _ h
    simp only [manyN, Option.some.injEq, Prod.mk.injEq] at h
    obtain ⟨rfl, rfl⟩ := h
    simp [programShaped, programToks]
  | succ j ih =>
    intro ts r is hl h
    simp only [manyN] at h
    split at h
    · simp only [Option.some.injEq, Prod.mk.injEq] at h
      obtain ⟨rfl, rfl⟩ := h
      simp [programShaped, programToks]
    · rename_i s m hs
      split at h
      · simp at h
      · rename_i ss' r' hr'
        simp only [Option.some.injEq, Prod.mk.injEq] at h
        obtain ⟨rfl, rfl⟩ := h
        have h1 := mono_item n _ _ _ hs
        obtain ⟨q, e⟩ := good_item hn hl hs
        obtain ⟨q2, e2⟩ := ih _ _ _ (by omega) hr'
        exact ⟨by simp_all [programShaped], by rw [e, e2, programToks, sg_append, List.append_assoc]⟩

/-- What a parsed program looks like. -/
theorem good_program {ts : List Token} {is : List Item} (h : parseTokens ts = some is) :
    programShaped is = true ∧ sg ts = sg (programToks is) := by
  unfold parseTokens at h
  split at h
  · rename_i items hm
    simp only [Option.some.injEq] at h
    subst h
    have := good_items (Nat.le_refl (ts.length + 1)) _ _ _ _ (Nat.lt_succ_self _) hm
    simpa using this
  · simp at h

end CairoM.Syntax
