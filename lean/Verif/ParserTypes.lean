import Verif.ParserLemmas

/-!
# Reading back types and lists
-/

namespace CairoM.Syntax

open P

variable {α : Type}

/-! ## Lists of items after commas -/

theorem typesToks_eq (ts : List TypeExpr) : typesToks ts = ts.flatMap (fun t => .comma :: t.toks) := by
  induction ts with
  | nil => simp [typesToks]
  | cons t ts ih => simp [typesToks, ih]

theorem exprsToks_eq (es : List Expr) : exprsToks es = es.flatMap (fun e => .comma :: e.toks) := by
  induction es with
  | nil => simp [exprsToks]
  | cons t ts ih => simp [exprsToks, ih]

theorem fieldsToks_eq (fs : List (String × Expr)) :
    fieldsToks fs = fs.flatMap (fun x => .comma :: (.identifier x.1 :: .colon :: x.2.toks)) := by
  induction fs with
  | nil => simp [fieldsToks]
  | cons t ts ih => obtain ⟨f, e⟩ := t; simp [fieldsToks, ih]

theorem patternsToks_eq (ps : List Pattern) : patternsToks ps = ps.flatMap (fun e => .comma :: e.toks) := by
  induction ps with
  | nil => simp [patternsToks]
  | cons t ts ih => simp [patternsToks, ih]

theorem typedToks_eq (l : List (String × TypeExpr)) :
    typedToks l = l.flatMap (fun x => .comma :: (.identifier x.1 :: .colon :: x.2.toks)) := by
  induction l with
  | nil => simp [typedToks]
  | cons t ts ih => obtain ⟨f, e⟩ := t; simp [typedToks, ih]

theorem namesToks_eq (l : List String) : namesToks l = l.flatMap (fun x => .comma :: [.identifier x]) := by
  induction l with
  | nil => simp [namesToks]
  | cons t ts ih => simp [namesToks, ih]

theorem typesShaped_iff {ts : List TypeExpr} : typesShaped ts = true ↔ ∀ t ∈ ts, t.shaped = true := by
  induction ts with
  | nil => simp [typesShaped]
  | cons t ts ih => simp [typesShaped, ih]

theorem typesNoArray_iff {ts : List TypeExpr} : typesNoArray ts = true ↔ ∀ t ∈ ts, t.noArray = true := by
  induction ts with
  | nil => simp [typesNoArray]
  | cons t ts ih => simp [typesNoArray, ih]

theorem exprsShaped_iff {es : List Expr} : exprsShaped es = true ↔ ∀ e ∈ es, e.shaped = true := by
  induction es with
  | nil => simp [exprsShaped]
  | cons t ts ih => simp [exprsShaped, ih]

theorem fieldsShaped_iff {fs : List (String × Expr)} : fieldsShaped fs = true ↔ ∀ x ∈ fs, x.2.shaped = true := by
  induction fs with
  | nil => simp [fieldsShaped]
  | cons t ts ih => obtain ⟨f, e⟩ := t; simp [fieldsShaped, ih]

theorem patternsShaped_iff {ps : List Pattern} : patternsShaped ps = true ↔ ∀ e ∈ ps, e.shaped = true := by
  induction ps with
  | nil => simp [patternsShaped]
  | cons t ts ih => simp [patternsShaped, ih]

theorem length_lt_flatMap {pr : α → List Token} {as : List α} {a : α} (h : a ∈ as) :
    (pr a).length < (as.flatMap (fun x => Token.comma :: pr x)).length := by
  induction as with
  | nil => simp at h
  | cons b bs ih =>
    rw [List.mem_cons] at h
    simp only [List.flatMap_cons, List.length_append, List.length_cons]
    rcases h with rfl | h
    · omega
    · have := ih h; omega

/-- Items after separators are read one by one. `ok` says what may follow an item. -/
theorem steps_list {c : Token} {pr : α → List Token} {p : P α} {ok : List Token → Prop}
    (hsep : ∀ ts, ok (c :: ts)) {as : List α} {r : List Token}
    (hp : ∀ a ∈ as, ∀ r, ok r → p (pr a ++ r) = some (a, r)) (hr : ok r) :
    Steps (do just c; p) (as.flatMap (fun a => c :: pr a) ++ r) as r := by
  induction as with
  | nil => exact .nil r
  | cons a as ih =>
    have hnext : ok (as.flatMap (fun a => c :: pr a) ++ r) := by
      cases as with
      | nil => exact hr
      | cons b bs => exact hsep _
    refine .cons (ts' := as.flatMap (fun a => c :: pr a) ++ r) ?_ ?_
      (ih (fun b hb => hp b (List.mem_cons_of_mem _ hb)))
    · simp only [List.flatMap_cons, List.cons_append, List.append_assoc]
      rw [bind_some (just_same _ _)]
      exact hp a List.mem_cons_self _ hnext
    · simp only [List.flatMap_cons, List.cons_append, List.append_assoc, List.length_cons, List.length_append]
      omega

/-- A non-empty list of items is read back. -/
theorem sepBy_list {c : Token} {pr : α → List Token} {p : P α} {ok : List Token → Prop}
    (hsep : ∀ ts, ok (c :: ts)) {a : α} {as : List α} {r : List Token} {b : Bool}
    (hp : ∀ x ∈ a :: as, ∀ r, ok r → p (pr x ++ r) = some (x, r)) (hr : ok r)
    (hend : just c r = none) :
    sepBy b (just c) p (pr a ++ as.flatMap (fun a => c :: pr a) ++ r) = some (a :: as, r) := by
  have hnext : ok (as.flatMap (fun a => c :: pr a) ++ r) := by
    cases as with
    | nil => exact hr
    | cons b bs => exact hsep _
  rw [List.append_assoc]
  exact sepBy_run (hp a List.mem_cons_self _ hnext)
    (steps_list hsep (fun x hx => hp x (List.mem_cons_of_mem _ hx)) hr) hend

/-- A non-empty list of items and a separator that no item follows: the separator is left, or consumed with
`allow_trailing`. -/
theorem sepBy_list_trailing {c : Token} {pr : α → List Token} {p : P α} {ok : List Token → Prop}
    (hsep : ∀ ts, ok (c :: ts)) {a : α} {as : List α} {r : List Token} {b : Bool}
    (hp : ∀ x ∈ a :: as, ∀ r, ok r → p (pr x ++ r) = some (x, r)) (hend : p r = none) :
    sepBy b (just c) p (pr a ++ as.flatMap (fun a => c :: pr a) ++ c :: r)
      = some (a :: as, if b then r else c :: r) := by
  have hnext : ok (as.flatMap (fun a => c :: pr a) ++ c :: r) := by
    cases as with
    | nil => exact hsep _
    | cons b bs => exact hsep _
  have h1 := steps_list hsep (fun x hx => hp x (List.mem_cons_of_mem _ hx)) (hsep r)
  rw [List.append_assoc]
  simp only [sepBy, hp a List.mem_cons_self _ hnext,
    h1.sepRest_trailing (b := b) (just_same c r) hend (by simp) _ (Nat.le_refl _)]

/-- One item and a separator that no item follows: the separator is left, or consumed with `allow_trailing`. -/
theorem sepBy_one {p : P α} {ts r : List Token} {a : α} {b : Bool} (h1 : p ts = some (a, .comma :: r))
    (h2 : p r = none) : sepBy b (just .comma) p ts = some ([a], if b then r else .comma :: r) := by
  simp [sepBy, h1, sepRest, h2]

/-! ## Types -/

theorem namedOf_name {n : NamedType} (h : n.shaped = true) : namedOf n.name = .named n := by
  cases n with
  | custom s => simp [NamedType.shaped] at h; simp [namedOf, NamedType.name, h]
  | _ => rfl

theorem namedType_run {n : NamedType} (h : n.shaped = true) (r : List Token) :
    namedType (.identifier n.name :: r) = some (.named n, r) := by
  rw [namedType, bind_some (show ident (.identifier n.name :: r) = some (n.name, r) from rfl), namedOf_name h]; rfl

theorem namedType_none {t : Token} {r : List Token} (h : ∀ s, t ≠ .identifier s) : namedType (t :: r) = none := by
  rw [namedType, bind_none (ident_none h)]

/-- The next token is not a star. -/
def NoStar (r : List Token) : Prop := r.head? ≠ some .mul

theorem just_none_of_head {t : Token} {r : List Token} (h : r.head? ≠ some t) : just t r = none := by
  cases r with
  | nil => rfl
  | cons a r => exact just_ne (by simpa using h) r

/-- Tuple types, given the parser of components. -/
theorem tupleType_run {ty : P TypeExpr} {ts : List TypeExpr} (r : List Token)
    (h0 : ∀ r, ty (.rParen :: r) = none)
    (hty : ∀ t ∈ ts, ∀ r, NoStar r → ty (t.toks ++ r) = some (t, r)) :
    tupleType ty ((TypeExpr.tuple ts).toks ++ r) = some (.tuple ts, r) := by
  match ts with
  | [] =>
    simp only [TypeExpr.toks, List.cons_append, List.nil_append]
    rw [tupleType, bind_some (just_same _ _), bind_some (sepBy_nil (h0 r)),
      bind_some (opt_none (just_ne (by decide) r)), bind_some (just_same _ _)]
    rfl
  | [t] =>
    simp only [TypeExpr.toks, List.cons_append, List.nil_append, List.append_assoc]
    rw [tupleType, bind_some (just_same _ _),
      bind_some (sepBy_one (hty t (by simp) _ (by simp [NoStar])) (h0 r))]
    simp only [Bool.false_eq_true, if_false]
    rw [bind_some (opt_some (just_same _ _)), bind_some (just_same _ _)]
    rfl
  | t :: t2 :: ts =>
    simp only [TypeExpr.toks, List.cons_append, List.append_assoc, typesToks_eq]
    rw [tupleType, bind_some (just_same _ _), ← List.append_assoc]
    rw [bind_some (sepBy_list (ok := NoStar) (by simp [NoStar]) hty (by simp [NoStar]) (just_ne (by decide) _))]
    simp only [List.nil_append]
    rw [bind_some (opt_none (just_ne (by decide) _)), bind_some (just_same _ _)]
    rfl

theorem allocBody_none {ty : P TypeExpr} {t : Token} {r : List Token} (h1 : ∀ s, t ≠ .identifier s)
    (h2 : t ≠ .lParen) : allocBody ty (t :: r) = none := by
  rw [allocBody, stars_eq]
  refine chain_none ?_
  rw [alt_right (namedType_none h1), tupleType, bind_none (just_ne h2 _)]

theorem parseAlloc_none {t : Token} {r : List Token} (n : Nat) (h1 : ∀ s, t ≠ .identifier s)
    (h2 : t ≠ .lParen) : parseAlloc n (t :: r) = none := by
  cases n with
  | zero => rfl
  | succ n => exact allocBody_none h1 h2

def ptrFold (t : TypeExpr) (_ : Unit) : TypeExpr := .pointer t

theorem types_length {ts : List TypeExpr} {t : TypeExpr} (h : t ∈ ts) :
    t.toks.length < (TypeExpr.tuple ts).toks.length := by
  match ts with
  | [t'] =>
    rw [List.mem_singleton] at h
    subst h
    simp only [TypeExpr.toks, List.length_append, List.length_cons]
    omega
  | t' :: t2 :: ts =>
    rw [List.mem_cons] at h
    simp only [TypeExpr.toks, typesToks_eq, List.length_append, List.length_cons]
    rcases h with rfl | h
    · omega
    · have := length_lt_flatMap (pr := TypeExpr.toks) h
      omega

theorem TypeExpr.toks_pos (t : TypeExpr) : 0 < t.toks.length := by
  cases t with
  | tuple ts => match ts with
    | [] => simp [TypeExpr.toks]
    | [_] => simp [TypeExpr.toks]
    | _ :: _ :: _ => simp [TypeExpr.toks]
  | _ => simp [TypeExpr.toks]

theorem alloc_spine : ∀ (N : Nat) (t : TypeExpr), t.toks.length ≤ N → ∀ (m : Nat) (r : List Token),
    t.shaped = true → t.noArray = true → t.toks.length ≤ m + 1 →
    Spine (alt namedType (tupleType (parseAlloc m))) (just .mul) ptrFold (t.toks ++ r) t r := by
  intro N
  induction N with
  | zero =>
    intro t ht
    have := t.toks_pos
    omega
  | succ N ih =>
    intro t ht m r hs ha hm
    cases t with
    | named n =>
      simp only [TypeExpr.toks, TypeExpr.shaped] at hs ⊢
      exact .zero (alt_left (namedType_run hs r))
    | pointer t =>
      simp only [TypeExpr.toks, TypeExpr.shaped, TypeExpr.noArray, List.length_append, List.length_cons,
        List.length_nil] at ht hs ha hm ⊢
      have := ih t (by omega) m (.mul :: r) hs ha (by omega)
      rw [List.append_assoc]
      exact this.snoc (just_same _ _) (by simp)
    | fixedArray t n => simp [TypeExpr.noArray] at ha
    | tuple ts =>
      simp only [TypeExpr.shaped, TypeExpr.noArray, typesShaped_iff, typesNoArray_iff] at hs ha
      refine .zero ?_
      have hhead : ∃ x, (TypeExpr.tuple ts).toks ++ r = .lParen :: x := by
        match ts with
        | [] => exact ⟨_, rfl⟩
        | [_] => exact ⟨_, rfl⟩
        | _ :: _ :: _ => exact ⟨_, rfl⟩
      have hn : namedType ((TypeExpr.tuple ts).toks ++ r) = none := by
        obtain ⟨x, hx⟩ := hhead
        rw [hx]
        exact namedType_none (by simp)
      rw [alt_right hn]
      refine tupleType_run r (fun r => parseAlloc_none m (by simp) (by simp)) (fun t h r hr => ?_)
      have hl := types_length h
      obtain ⟨m, rfl⟩ : ∃ k, m = k + 1 := by
        have := t.toks_pos
        exact ⟨m - 1, by omega⟩
      have := ih t (by omega) m r (hs t h) (ha t h) (by omega)
      exact this.run (just_none_of_head hr)

/-- Element types of allocations are read back. -/
theorem alloc_run {t : TypeExpr} {m : Nat} {r : List Token} (hs : t.shaped = true) (ha : t.noArray = true)
    (hm : t.toks.length ≤ m + 1) (hr : NoStar r) : parseAlloc (m + 1) (t.toks ++ r) = some (t, r) :=
  (alloc_spine _ t (Nat.le_refl _) m r hs ha hm).run (just_none_of_head hr)

end CairoM.Syntax
