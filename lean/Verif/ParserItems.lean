import Verif.ParserStmt

/-!
# Reading back items and programs
-/

namespace CairoM.Syntax

open P

/-! ## Named lists of types -/

theorem typed_run {x : String × TypeExpr} {n : Nat} {r : List Token} (hs : x.2.shaped = true)
    (hn : x.2.toks.length ≤ n) (hr : NoStar r) :
    typedName (parseType n) ((.identifier x.1 :: .colon :: x.2.toks) ++ r) = some (x, r) := by
  obtain ⟨s, t⟩ := x
  rw [typedName, List.cons_append, bind_some (show ident (.identifier s :: _) = some (s, _) from rfl),
    List.cons_append, bind_some (just_same _ _), bind_some (type_run hs hn hr)]
  rfl

theorem typed_none {t : Token} (h : ∀ s, t ≠ .identifier s) (n : Nat) (r : List Token) :
    typedName (parseType n) (t :: r) = none := by
  rw [typedName, bind_none (ident_none h)]

theorem typedToks_mem {l : List (String × TypeExpr)} {x : String × TypeExpr} (h : x ∈ l) :
    x.2.toks.length ≤ (typedToks l).length := by
  rw [typedToks_eq]
  have := length_lt_flatMap (pr := fun x : String × TypeExpr => .identifier x.1 :: .colon :: x.2.toks) h
  simp only [List.length_cons] at this
  omega

theorem params_run {l : List (String × TypeExpr)} {n : Nat} {r : List Token} (hs : typedShaped l = true)
    (hn : (paramsToks l).length ≤ n) :
    sepBy true (just .comma) (typedName (parseType n)) (paramsToks l ++ .rParen :: r) = some (l, .rParen :: r) := by
  match l with
  | [] => exact sepBy_nil (typed_none (by simp) n r)
  | (s, t) :: l =>
    simp only [typedShaped, List.all_eq_true] at hs
    simp only [paramsToks, List.length_cons, List.length_append] at hn
    have hl : ∀ x ∈ (s, t) :: l, x.2.toks.length ≤ n := by
      intro x hx
      rw [List.mem_cons] at hx
      rcases hx with rfl | hx
      · simp only; omega
      · have := typedToks_mem hx; omega
    have := sepBy_list (c := .comma) (pr := fun x : String × TypeExpr => .identifier x.1 :: .colon :: x.2.toks)
      (p := typedName (parseType n)) (ok := NoStar) (by simp [NoStar]) (a := (s, t)) (as := l)
      (r := .rParen :: r) (b := true) (fun x hx r hr => typed_run (hs x hx) (hl x hx) hr) (by simp [NoStar])
      (just_ne (by decide) _)
    rw [← this, paramsToks, typedToks_eq]

theorem structToks_eq (x : String × TypeExpr) (l : List (String × TypeExpr)) :
    structToks (x :: l) = .identifier x.1 :: .colon :: x.2.toks ++
      l.flatMap (fun x => .comma :: (.identifier x.1 :: .colon :: x.2.toks)) ++ [.comma] := by
  obtain ⟨s, t⟩ := x
  induction l generalizing s t with
  | nil => simp [structToks]
  | cons y l ih =>
    obtain ⟨s', t'⟩ := y
    rw [structToks, ih]
    simp

theorem structToks_mem {l : List (String × TypeExpr)} {x : String × TypeExpr} (h : x ∈ l) :
    x.2.toks.length ≤ (structToks l).length := by
  induction l with
  | nil => simp at h
  | cons y l ih =>
    obtain ⟨s, t⟩ := y
    rw [List.mem_cons] at h
    simp only [structToks, List.length_cons, List.length_append]
    rcases h with rfl | h
    · simp only; omega
    · have := ih h; omega

theorem struct_fields_run {l : List (String × TypeExpr)} {n : Nat} {r : List Token} (hs : typedShaped l = true)
    (hn : (structToks l).length ≤ n) :
    sepBy true (just .comma) (typedName (parseType n)) (structToks l ++ .rBrace :: r) = some (l, .rBrace :: r) := by
  match l with
  | [] => exact sepBy_nil (typed_none (by simp) n r)
  | x :: l =>
    simp only [typedShaped, List.all_eq_true] at hs
    have hl : ∀ y ∈ x :: l, y.2.toks.length ≤ n := by
      intro y hy
      have := structToks_mem hy; omega
    have := sepBy_list_trailing (c := .comma) (pr := fun x : String × TypeExpr => .identifier x.1 :: .colon :: x.2.toks)
      (p := typedName (parseType n)) (ok := NoStar) (by simp [NoStar]) (a := x) (as := l)
      (r := .rBrace :: r) (b := true) (fun x hx r hr => typed_run (hs x hx) (hl x hx) hr)
      (typed_none (by simp) n r)
    rw [if_pos rfl] at this
    rw [← this, structToks_eq]
    simp

/-! ## Paths -/

theorem ident_run (s : String) (r : List Token) : ident ([.identifier s] ++ r) = some (s, r) := rfl

theorem pathToks_eq (a : String) (p : List String) :
    pathToks (a :: p) = [.identifier a] ++ p.flatMap (fun x => .colonColon :: [.identifier x]) ++ [.colonColon] := by
  induction p generalizing a with
  | nil => simp [pathToks]
  | cons b p ih =>
    rw [pathToks, ih]
    simp

theorem path_single (p : List String) (s : String) (r : List Token) (hr : r.head? ≠ some .colonColon) :
    modulePath (pathToks p ++ .identifier s :: r) = some (p ++ [s], r) := by
  refine tryMap_some (a := p ++ [s]) ?_ (by simp)
  match p with
  | [] =>
    exact sepBy_list (c := .colonColon) (pr := fun s => [.identifier s]) (ok := fun _ => True) (fun _ => trivial)
      (a := s) (as := []) (fun x _ r _ => ident_run x r) trivial (just_none_of_head hr)
  | a :: p =>
    have := sepBy_list (c := .colonColon) (pr := fun s => [.identifier s]) (p := ident) (ok := fun _ => True)
      (fun _ => trivial) (a := a) (as := p ++ [s]) (r := r) (b := false) (fun x _ r _ => ident_run x r) trivial
      (just_none_of_head hr)
    rw [List.cons_append, ← this, pathToks_eq]
    simp

theorem path_list (a : String) (p : List String) (r : List Token) (hr : ident r = none) :
    modulePath (pathToks (a :: p) ++ r) = some (a :: p, .colonColon :: r) := by
  refine tryMap_some (a := a :: p) ?_ (by simp)
  have := sepBy_list_trailing (c := .colonColon) (pr := fun s => [.identifier s]) (p := ident) (ok := fun _ => True)
    (fun _ => trivial) (a := a) (as := p) (r := r) (b := false) (fun x _ r _ => ident_run x r) hr
  rw [if_neg (by simp)] at this
  rw [← this, pathToks_eq]
  simp

theorem names_run (l : List String) (r : List Token) :
    between .lBrace .rBrace (sepBy true (just .comma) ident) ((UseItems.list l).toks ++ r) = some (l, r) := by
  match l with
  | [] => exact between_run (sepBy_nil rfl)
  | s :: l =>
    have := sepBy_list (c := .comma) (pr := fun s => [.identifier s]) (p := ident) (ok := fun _ => True)
      (fun _ => trivial) (a := s) (as := l) (r := .rBrace :: r) (b := true) (fun x _ r _ => ident_run x r) trivial
      (just_ne (by decide) _)
    rw [show (UseItems.list (s :: l)).toks ++ r = .lBrace :: ([.identifier s] ++ l.flatMap (fun x => .comma :: [.identifier x])
      ++ .rBrace :: r) by simp [UseItems.toks, namesToks_eq]]
    exact between_run this

theorem use_run {p : List String} {u : UseItems} (hs : (Item.use p u).shaped = true) (r : List Token) :
    useStmt ((Item.use p u).toks ++ r) = some (.use p u, r) := by
  cases u with
  | single s =>
    rw [show (Item.use p (.single s)).toks ++ r = .use_ :: (pathToks p ++ .identifier s :: .semicolon :: r) by
      simp [Item.toks, UseItems.toks]]
    rw [useStmt, bind_some (just_same _ _)]
    refine alt_left ?_
    rw [bind_some (path_single p s _ (by simp)), bind_some (just_same _ _)]
    simp
  | list l =>
    simp only [Item.shaped, decide_eq_true_eq] at hs
    obtain ⟨a, p, rfl⟩ := List.exists_cons_of_ne_nil hs
    rw [show (Item.use (a :: p) (.list l)).toks ++ r
      = .use_ :: (pathToks (a :: p) ++ ((UseItems.list l).toks ++ .semicolon :: r)) by simp [Item.toks]]
    have hp := path_list a p ((UseItems.list l).toks ++ .semicolon :: r) (by cases l <;> rfl)
    rw [useStmt, bind_some (just_same _ _), alt_right]
    · rw [bind_some hp, bind_some (just_same _ _), bind_some (names_run l _), bind_some (just_same _ _)]
      rfl
    · rw [bind_some hp, bind_none (just_ne (by decide) _)]

/-! ## Items -/

theorem isUnit_eq {t : TypeExpr} (h : t.isUnit = true) : t = .tuple [] := by
  unfold TypeExpr.isUnit at h
  split at h
  · rfl
  · simp at h

theorem function_run {f : FunctionDef} {n : Nat} {r : List Token} (hs : (Item.function f).shaped = true)
    (hn : f.toks.length ≤ n) : functionDef n (f.toks ++ r) = some (f, r) := by
  simp only [Item.shaped, Bool.and_eq_true, stmtsShaped_iff] at hs
  simp only [FunctionDef.toks, List.length_append, List.length_cons] at hn
  rw [show f.toks ++ r = .function_ :: .identifier f.name :: .lParen :: (paramsToks f.params ++ .rParen ::
    ((if f.returnType.isUnit then [] else .arrow :: f.returnType.toks) ++
      (.lBrace :: stmtsToks f.body ++ .rBrace :: r))) by simp [FunctionDef.toks]]
  have hbody : blockOf (parseStmt n) (.lBrace :: stmtsToks f.body ++ .rBrace :: r) = some (f.body, r) := by
    refine block_run (fun s h => ?_)
    have := stmtsToks_mem h
    exact stmt_run _ s (Nat.le_refl _) n (hs.2 s h) (by omega)
  rw [functionDef, bind_some (just_same _ _), bind_some (show ident (.identifier f.name :: _) = some (f.name, _) from rfl),
    bind_some (between_run (params_run hs.1.1 (by omega)))]
  by_cases hu : f.returnType.isUnit = true
  · rw [if_pos hu, List.nil_append,
      bind_some (opt_none (bind_none (by rw [List.cons_append]; exact just_ne (by decide) _))), bind_some hbody]
    show some _ = some _
    congr 2
    obtain ⟨a, b, c, d⟩ := f
    have := isUnit_eq hu
    simp only at this
    subst this
    rfl
  · rw [if_neg hu] at hn ⊢
    simp only [List.length_cons] at hn
    rw [List.cons_append, bind_some (opt_some (a := f.returnType) (r := .lBrace :: stmtsToks f.body ++ .rBrace :: r) (by
      rw [bind_some (just_same _ _)]
      exact type_run hs.1.2 (by omega) (by simp [NoStar]))), bind_some hbody]
    rfl

theorem item_run {i : Item} {n : Nat} {r : List Token} (hs : i.shaped = true) (hn : i.toks.length ≤ n) :
    item n (i.toks ++ r) = some (i, r) := by
  cases i with
  | function f =>
    refine alt_left ?_
    simp only [Item.toks] at hn ⊢
    rw [bind_some (function_run hs hn)]
    rfl
  | struct s fs =>
    simp only [Item.shaped] at hs
    simp only [Item.toks, List.length_append, List.length_cons] at hn
    rw [show (Item.struct s fs).toks ++ r = .struct_ :: .identifier s :: .lBrace :: (structToks fs ++ .rBrace :: r) by
      simp [Item.toks]]
    rw [item, alt_right (by rfl)]
    refine alt_left ?_
    rw [structDef, bind_some (just_same _ _), bind_some (show ident (.identifier s :: _) = some (s, _) from rfl),
      bind_some (between_run (struct_fields_run hs (by omega)))]
    rfl
  | const c =>
    simp only [Item.shaped, Item.toks] at hs hn ⊢
    have h := const_run (r := r) hs (n := n) (by omega)
    rw [show c.toks ++ r = .const_ :: (c.toks.tail ++ r) by simp [ConstDef.toks]] at h ⊢
    rw [item, alt_right (by rfl), alt_right (by rfl)]
    refine alt_left ?_
    rw [bind_some h]
    rfl
  | use p u =>
    have h := use_run hs r
    rw [show (Item.use p u).toks ++ r = .use_ :: ((Item.use p u).toks.tail ++ r) by simp [Item.toks]] at h ⊢
    rw [item, alt_right (by rfl), alt_right (by rfl), alt_right (by rfl)]
    exact h

theorem Item.toks_pos (i : Item) : 0 < i.toks.length := by
  cases i <;> simp [Item.toks, FunctionDef.toks, ConstDef.toks]

theorem item_nil (n : Nat) : item n [] = none := rfl

theorem items_steps {n : Nat} {is : List Item} (hs : ∀ i ∈ is, i.shaped = true) (hn : (programToks is).length ≤ n) :
    Steps (item n) (programToks is) is [] := by
  induction is with
  | nil => exact .nil _
  | cons i is ih =>
    simp only [programToks, List.length_append] at hn ⊢
    refine .cons (item_run (hs i (by simp)) (by omega)) ?_ (ih (fun x hx => hs x (by simp [hx])) (by omega))
    have := i.toks_pos
    simp only [List.length_append]
    omega

/-- Shaped programs are read back. -/
theorem program_run {is : List Item} (hs : programShaped is = true) : parseTokens (programToks is) = some is := by
  simp only [programShaped, List.all_eq_true] at hs
  rw [parseTokens, (items_steps hs (Nat.le_succ _)).many (item_nil _)]

end CairoM.Syntax
