import Verif.ImportedNamesSpec
import Verif.DuplicatesLemmas
import Verif.ImportsProps

/-!
# Helper lemmas: the root scope of a module
-/

namespace CairoM.Syntax
namespace Builder

/-- A visit that leaves the root scope alone. -/
structure Quiet (b b' : Builder) : Prop where
  stack : b'.stack = b.stack
  defs : b.defs <+: b'.defs
  names : b'.names 0 = b.names 0
  parents : b.parents.length ≤ b'.parents.length

theorem Quiet.refl (b : Builder) : Quiet b b := ⟨rfl, List.prefix_rfl, rfl, Nat.le_refl _⟩

theorem Quiet.trans {a b c : Builder} (h : Quiet a b) (k : Quiet b c) : Quiet a c :=
  ⟨k.stack.trans h.stack, h.defs.trans k.defs, k.names.trans h.names, h.parents.trans k.parents⟩

theorem getElem?_prefix {α : Type} {l l' : List α} (h : l <+: l') {i : Nat} {a : α} (hi : l[i]? = some a) : l'[i]? = some a := by
  obtain ⟨t, rfl⟩ := h
  rw [List.getElem?_append_left (List.getElem?_eq_some_iff.mp hi).1, hi]

/-- A scope other than the root. -/
structure Nested (b : Builder) : Prop where
  current : b.current ≠ 0
  parents : 0 < b.parents.length

theorem Quiet.nested {b b' : Builder} (h : Quiet b b') (hn : Nested b) : Nested b' :=
  ⟨by have := hn.current; rwa [Builder.current, h.stack], Nat.lt_of_lt_of_le hn.parents h.parents⟩

theorem push_nested {b : Builder} (h : 0 < b.parents.length) : Nested b.push :=
  ⟨by simp [push, current]; exact List.ne_nil_of_length_pos h, by simp [push]⟩

theorem quiet_addUse (b : Builder) (t : Bool) (c : Option String) (x : String) : Quiet b (b.addUse t c x) :=
  ⟨rfl, List.prefix_rfl, rfl, Nat.le_refl _⟩

theorem quiet_add {b : Builder} (h : Nested b) (x : String) (k : DefKind) : Quiet b (b.add x k) := by
  refine ⟨rfl, List.prefix_append _ _, ?_, Nat.le_refl _⟩
  funext y
  have : ¬ (0 = b.current ∧ y = x) := fun e => h.current e.1.symm
  simp [add, this]

theorem quiet_scope {b b' : Builder} (h : Quiet b.push b') : Quiet b b'.pop :=
  ⟨by simp [pop, h.stack, push], h.defs, h.names, by have := h.parents; simp [push] at this; simp [pop]; omega⟩

theorem quiet_type (t : TypeExpr) (b : Builder) : Quiet b (b.visitType t) := by
  rw [visitType]
  generalize t.names = xs
  induction xs generalizing b with
  | nil => exact .refl b
  | cons x xs ih => exact (quiet_addUse b true none x).trans (ih _)

theorem quiet_typeOpt (ty : Option TypeExpr) (b : Builder) : Quiet b (b.visitTypeOpt ty) := by
  cases ty with
  | none => exact .refl b
  | some t => exact quiet_type t b

mutual
theorem quiet_expr (c : Option String) : ∀ (e : Expr) (b : Builder), Quiet b (visitExpr c e b)
  | .literal .., b | .boolean _, b => by rw [visitExpr]; exact .refl b
  | .ident x, b => by rw [visitExpr]; exact quiet_addUse b false c x
  | .paren e, b | .unary _ e, b | .member e _, b | .tupleIndex e _, b | .arrayRepeat e _, b | .cast e _, b => by
    rw [visitExpr]; exact quiet_expr c e b
  | .binary _ l r, b | .index l r, b => by rw [visitExpr]; exact (quiet_expr c l b).trans (quiet_expr c r _)
  | .call f args, b => by rw [visitExpr]; exact (quiet_expr c f b).trans (quiet_exprs c args _)
  | .structLit _ fields, b => by rw [visitExpr]; exact quiet_fields c fields b
  | .tuple es, b | .array es, b => by rw [visitExpr]; exact quiet_exprs c es b
  | .new t e, b => by rw [visitExpr]; exact (quiet_type t b).trans (quiet_expr c e _)
theorem quiet_exprs (c : Option String) : ∀ (es : List Expr) (b : Builder), Quiet b (visitExprs c es b)
  | [], b => by rw [visitExprs]; exact .refl b
  | e :: es, b => by rw [visitExprs]; exact (quiet_expr c e b).trans (quiet_exprs c es _)
theorem quiet_fields (c : Option String) : ∀ (es : List (String × Expr)) (b : Builder), Quiet b (visitFields c es b)
  | [], b => by rw [visitFields]; exact .refl b
  | (_, e) :: es, b => by rw [visitFields]; exact (quiet_expr c e b).trans (quiet_fields c es _)
end

theorem quiet_addAll (k : DefKind) : ∀ (xs : List String) {b : Builder}, Nested b → Quiet b (b.addAll xs k)
  | [], b, _ => .refl b
  | x :: xs, _, h => (quiet_add h x k).trans (quiet_addAll k xs ((quiet_add h x k).nested h))

theorem quiet_const (c : ConstDef) {b : Builder} (h : Nested b) : Quiet b (visitConst c b) :=
  (quiet_expr _ c.value b).trans (quiet_add ((quiet_expr _ c.value b).nested h) _ _)

mutual
theorem quiet_stmt : ∀ (s : Stmt) {b : Builder}, Nested b → Quiet b (visitStmt s b)
  | .let_ p ty e, b, h => by
    rw [visitStmt]
    have h1 := (quiet_expr none e b).trans (quiet_typeOpt ty _)
    exact h1.trans (quiet_addAll .let_ p.names (h1.nested h))
  | .const c, b, h => by rw [visitStmt]; exact quiet_const c h
  | .assign l r, b, _ => by rw [visitStmt]; exact (quiet_expr none l b).trans (quiet_expr none r _)
  | .return_ none, b, _ | .break_, b, _ | .continue_, b, _ => by rw [visitStmt]; exact .refl b
  | .return_ (some e), b, _ | .expr e, b, _ => by rw [visitStmt]; exact quiet_expr none e b
  | .if_ c t none, b, h => by
    rw [visitStmt]
    have h1 := quiet_expr none c b
    exact h1.trans (quiet_scope (quiet_stmt t (push_nested (h1.nested h).parents)))
  | .if_ c t (some e), b, h => by
    rw [visitStmt]
    have h1 := quiet_expr none c b
    have h2 := h1.trans (quiet_scope (quiet_stmt t (push_nested (h1.nested h).parents)))
    exact h2.trans (quiet_scope (quiet_stmt e (push_nested (h2.nested h).parents)))
  | .block ss, b, h => by rw [visitStmt]; exact quiet_scope (quiet_stmts ss (push_nested h.parents))
  | .loop_ s, b, h => by rw [visitStmt]; exact quiet_scope (quiet_stmt s (push_nested h.parents))
  | .while_ c s, b, h => by
    rw [visitStmt]
    have h1 := quiet_expr none c b
    exact h1.trans (quiet_scope (quiet_stmt s (push_nested (h1.nested h).parents)))
  | .for_ i c st s, b, h => by
    rw [visitStmt]
    have hp := push_nested h.parents
    have h1 := quiet_stmt i hp
    have h2 := h1.trans (quiet_expr none c _)
    have h3 := h2.trans (quiet_stmt s (h2.nested hp))
    exact quiet_scope (h3.trans (quiet_stmt st (h3.nested hp)))
theorem quiet_stmts : ∀ (ss : List Stmt) {b : Builder}, Nested b → Quiet b (visitStmts ss b)
  | [], b, _ => by rw [visitStmts]; exact .refl b
  | s :: ss, b, h => by
    rw [visitStmts]; exact (quiet_stmt s h).trans (quiet_stmts ss ((quiet_stmt s h).nested h))
end

theorem quiet_params : ∀ (ps : List (String × TypeExpr)) {b : Builder}, Nested b → Quiet b (b.visitParams ps)
  | [], b, _ => .refl b
  | p :: ps, b, h => by
    have h1 := quiet_type p.2 b
    have h2 := h1.trans (quiet_add (h1.nested h) p.1 .param)
    exact h2.trans (quiet_params ps (h2.nested h))

theorem quiet_function (f : FunctionDef) {b : Builder} (h : 0 < b.parents.length) : Quiet b (visitFunction f b) := by
  have hp := push_nested h
  have h1 := quiet_type f.returnType b.push
  have h2 := h1.trans (quiet_params f.params (h1.nested hp))
  exact quiet_scope (h2.trans (quiet_stmts f.body (h2.nested hp)))

/-- At the root, with definitions of the kinds that `T` allows. -/
structure Root (T : String → DefKind → Prop) (b : Builder) : Prop where
  stack : b.stack = [0]
  parents : 0 < b.parents.length
  names : ∀ x, ∀ i ∈ b.names 0 x, ∃ d, b.defs[i]? = some d ∧ T x d.kind

theorem Root.quiet {T : String → DefKind → Prop} {b b' : Builder} (h : Root T b) (q : Quiet b b') : Root T b' := by
  refine ⟨q.stack.trans h.stack, Nat.lt_of_lt_of_le h.parents q.parents, fun x i hi => ?_⟩
  rw [q.names] at hi
  obtain ⟨d, hd, ht⟩ := h.names x i hi
  exact ⟨d, getElem?_prefix q.defs hd, ht⟩

theorem Root.add {T : String → DefKind → Prop} {b : Builder} (h : Root T b) {x : String} {k : DefKind} (ht : T x k) :
    Root T (b.add x k) := by
  refine ⟨h.stack, h.parents, fun y i hi => ?_⟩
  by_cases hy : 0 = b.current ∧ y = x
  · simp only [Builder.add, if_pos hy] at hi
    rw [List.mem_append, List.mem_singleton] at hi
    rcases hi with hi | rfl
    · obtain ⟨d, hd, hk⟩ := h.names y i hi
      exact ⟨d, getElem?_prefix (List.prefix_append _ _) hd, hk⟩
    · exact ⟨⟨x, b.current, k⟩, by simp [Builder.add], hy.2 ▸ ht⟩
  · simp only [Builder.add, hy, if_false] at hi
    obtain ⟨d, hd, hk⟩ := h.names y i hi
    exact ⟨d, getElem?_prefix (List.prefix_append _ _) hd, hk⟩

/-- The names of the root scope stay. -/
def Keeps (b b' : Builder) : Prop := ∀ x, b.names 0 x ≠ [] → b'.names 0 x ≠ []

theorem Quiet.keeps {b b' : Builder} (h : Quiet b b') : Keeps b b' := fun x hx => by rwa [h.names]

theorem keeps_add (b : Builder) (x : String) (k : DefKind) : Keeps b (b.add x k) := fun y hy => by
  simp only [add]; split <;> simp [hy]

theorem add_has {b : Builder} (h : b.stack = [0]) (x : String) (k : DefKind) : (b.add x k).names 0 x ≠ [] := by
  simp [add, current, h]

/-- What the items of a list define at the top level. -/
def Top (is : List Item) (x : String) (k : DefKind) : Prop := ∃ i ∈ is, Defines i x k

theorem declared_defines {i : Item} {d : String × DefKind} (h : d ∈ i.declared) : Defines i d.1 d.2 := by
  cases i with
  | function f => simp [Item.declared] at h; subst h; exact .function f
  | struct x fs => simp [Item.declared] at h; subst h; exact .struct x fs
  | const c => simp [Item.declared] at h
  | use p items =>
    cases p with
    | nil => simp [Item.declared] at h
    | cons q qs =>
      cases items with
      | single x => simp [Item.declared] at h; subst h; exact .single _ x (by simp)
      | list xs =>
        simp [Item.declared] at h
        obtain ⟨x, hx, rfl⟩ := h
        exact .list _ xs x (by simp) hx

theorem defines_declared {i : Item} {x : String} {k : DefKind} (h : Defines i x k) :
    (x, k) ∈ i.declared ∨ ∃ c, i = .const c ∧ c.name = x := by
  cases h with
  | function f => exact .inl (by simp [Item.declared])
  | struct x fs => exact .inl (by simp [Item.declared])
  | const c => exact .inr ⟨c, rfl, rfl⟩
  | single p x hp => cases p with
    | nil => exact absurd rfl hp
    | cons => exact .inl (by simp [Item.declared])
  | list p xs x hp hx => cases p with
    | nil => exact absurd rfl hp
    | cons => exact .inl (by simpa [Item.declared] using hx)

theorem root_declare {T : String → DefKind → Prop} : ∀ (ds : List (String × DefKind)) {b : Builder}, Root T b →
    (∀ d ∈ ds, T d.1 d.2) → Root T (ds.foldl (fun b d => b.add d.1 d.2) b) ∧
      Keeps b (ds.foldl (fun b d => b.add d.1 d.2) b) ∧
      ∀ d ∈ ds, (ds.foldl (fun b d => b.add d.1 d.2) b).names 0 d.1 ≠ []
  | [], b, h, _ => ⟨h, fun _ hx => hx, by simp⟩
  | d :: ds, b, h, ht => by
    obtain ⟨h1, h2, h3⟩ := root_declare ds (h.add (ht d (by simp))) fun e he => ht e (by simp [he])
    refine ⟨h1, fun x hx => h2 x (keeps_add b d.1 d.2 x hx), fun e he => ?_⟩
    rcases List.mem_cons.mp he with rfl | he
    · exact h2 _ (add_has h.stack _ _)
    · exact h3 e he

theorem root_item {T : String → DefKind → Prop} (i : Item) {b : Builder} (h : Root T b) (ht : ∀ x k, Defines i x k → T x k) :
    Root T (visitItem i b) ∧ Keeps b (visitItem i b) ∧ ∀ c, i = .const c → (visitItem i b).names 0 c.name ≠ [] := by
  cases i with
  | function f =>
    have q := quiet_function f h.parents
    exact ⟨h.quiet q, q.keeps, by simp⟩
  | struct x fs =>
    have q : Quiet b (visitItem (.struct x fs) b) := by
      rw [visitItem]
      clear h ht
      induction fs generalizing b with
      | nil => exact .refl b
      | cons f fs ih => exact (quiet_type f.2 b).trans ih
    exact ⟨h.quiet q, q.keeps, by simp⟩
  | const c =>
    have q := quiet_expr (some c.name) c.value b
    have h1 := h.quiet q
    refine ⟨h1.add (ht _ _ (.const c)), fun x hx => keeps_add _ _ _ x (q.keeps x hx), fun c' e => ?_⟩
    cases e
    exact add_has h1.stack _ _
  | use p items => exact ⟨h, fun _ hx => hx, by simp⟩

theorem root_items {T : String → DefKind → Prop} : ∀ (is : List Item) {b : Builder}, Root T b →
    (∀ i ∈ is, ∀ x k, Defines i x k → T x k) → Root T (is.foldl (fun b i => visitItem i b) b) ∧
      Keeps b (is.foldl (fun b i => visitItem i b) b) ∧
      ∀ c, .const c ∈ is → (is.foldl (fun b i => visitItem i b) b).names 0 c.name ≠ []
  | [], b, h, _ => ⟨h, fun _ hx => hx, by simp⟩
  | i :: is, b, h, ht => by
    obtain ⟨h1, h2, h3⟩ := root_item i h (ht i (by simp))
    obtain ⟨k1, k2, k3⟩ := root_items is h1 fun j hj => ht j (by simp [hj])
    refine ⟨k1, fun x hx => k2 x (h2 x hx), fun c hc => ?_⟩
    rcases List.mem_cons.mp hc with e | hc
    · exact k2 _ (h3 c e.symm)
    · exact k3 c hc

theorem build_root (is : List Item) : Root (Top is) (build is) ∧ ∀ x k, Top is x k → (build is).names 0 x ≠ [] := by
  have h0 : Root (Top is) new := ⟨rfl, by simp [new], by simp [new]⟩
  obtain ⟨h1, h2, h3⟩ := root_declare (is.flatMap Item.declared) h0 fun d hd => by
    obtain ⟨i, hi, hd⟩ := List.mem_flatMap.mp hd
    exact ⟨i, hi, declared_defines hd⟩
  obtain ⟨k1, k2, k3⟩ := root_items is h1 fun i hi x k hd => ⟨i, hi, hd⟩
  refine ⟨k1, fun x k ⟨i, hi, hd⟩ => ?_⟩
  rcases defines_declared hd with h | ⟨c, rfl, rfl⟩
  · exact k2 x (h3 (x, k) (List.mem_flatMap.mpr ⟨i, hi, h⟩))
  · exact k3 c hi

theorem latest_some {is : List Item} {x : String} {n : Nat} (h : (build is).latest 0 x = some n) :
    ∃ d, (build is).defs[n]? = some d ∧ Top is x d.kind :=
  (build_root is).1.names x n (List.mem_of_getLast? h)

theorem latest_none {is : List Item} {x : String} (h : (build is).latest 0 x = none) (k : DefKind) : ¬ Top is x k := fun ht =>
  (build_root is).2 x k ht (List.getLast?_eq_none_iff.mp h)

end Builder

theorem imports_iff (i : Item) (m x : String) : (m, x) ∈ i.imports ↔ Asks i m x := by
  constructor
  · intro h
    cases i with
    | use p items =>
      cases p with
      | nil => simp [Item.imports] at h
      | cons q qs =>
        cases items with
        | single y => simp [Item.imports] at h; obtain ⟨rfl, rfl⟩ := h; exact .single _ _ (by simp)
        | list ys => simp [Item.imports] at h; obtain ⟨hx, rfl⟩ := h; exact .list _ _ _ (by simp) hx
    | _ => simp [Item.imports] at h
  · intro h
    cases h with
    | single p x hp => cases p with
      | nil => exact absurd rfl hp
      | cons => simp [Item.imports]
    | list p xs x hp hx => cases p with
      | nil => exact absurd rfl hp
      | cons => simpa [Item.imports] using hx

theorem defines_use {i : Item} {x : String} (h : Defines i x .use) : ∃ m, Asks i m x := by
  cases h with
  | single p x hp => exact ⟨_, .single p x hp⟩
  | list p xs x hp hx => exact ⟨_, .list p xs x hp hx⟩

theorem asks_defines {i : Item} {m x : String} (h : Asks i m x) : Defines i x .use := by
  cases h with
  | single p x hp => exact .single p x hp
  | list p xs x hp hx => exact .list p xs x hp hx

theorem asks_edge {i : Item} {m x : String} (h : Asks i m x) : m ∈ i.edges := by
  cases h with
  | single p x hp => cases p with
    | nil => exact absurd rfl hp
    | cons => simp [Item.edges]
  | list p xs x hp hx => cases p with
    | nil => exact absurd rfl hp
    | cons => simp [Item.edges]

theorem mem_of_lookup {P : Project} {m : String} {is : List Item} (h : P.lookup m = some is) : (m, is) ∈ P := by
  rw [List.lookup_eq_some_iff] at h
  obtain ⟨l₁, l₂, rfl, _⟩ := h
  simp

theorem lookup_of_mem {P : Project} (hn : (P.map (·.1)).Nodup) {m : String} {is : List Item} (h : (m, is) ∈ P) :
    P.lookup m = some is := by
  induction P with
  | nil => simp at h
  | cons q P ih =>
    obtain ⟨a, b⟩ := q
    simp only [List.map_cons, List.nodup_cons] at hn
    rcases List.mem_cons.mp h with e | h
    · cases e; simp
    · have : m ≠ a := fun e => hn.1 (e ▸ List.mem_map.mpr ⟨_, h, rfl⟩)
      simp only [List.lookup_cons, beq_eq_false_iff_ne.mpr this]
      exact ih hn.2 h

theorem graph_lookup (P : Project) (m : String) : (importGraph P).lookup m = (P.lookup m).map (·.flatMap Item.edges) := by
  induction P with
  | nil => rfl
  | cons q P ih =>
    obtain ⟨a, b⟩ := q
    rw [importGraph, List.map_cons, List.lookup_cons, List.lookup_cons]
    cases m == a
    · exact ih
    · rfl

/-- Without a cycle there is no endless way along imports. -/
theorem detect_ends {α : Type} [DecidableEq α] [LinearOrder α] {g : Imports.Graph α}
    (h : Imports.detectImportCycle g = .ok none) (v : α) : Imports.Ends g v := by
  obtain ⟨r, h1, h2⟩ := Imports.search_ok (g := g) (Nat.le_refl _) ((g.map Prod.fst).insertionSort (· ≤ ·)) _
    (Imports.good_start g) rfl rfl (fun v hv => Imports.keys_names ((List.perm_insertionSort _ _).mem_iff.1 hv))
  have h1' : Imports.detectImportCycle g = .ok r := h1
  rw [h, Except.ok.injEq] at h1'
  subst h1'
  rcases h2 with ⟨c, e, _⟩ | h2
  · simp at e
  · by_cases hv : v ∈ g.map Prod.fst
    · exact h2.2 v ((List.perm_insertionSort _ _).mem_iff.2 hv)
    · exact ⟨_, fun b hb => absurd (Imports.imported_key hb) hv⟩

theorem asks_imported {P : Project} {m m' x : String} {is : List Item} {i : Item} (h : P.lookup m = some is) (hi : i ∈ is)
    (ha : Asks i m' x) : Imports.Imported (importGraph P) m m' :=
  ⟨_, by rw [graph_lookup, h]; rfl, List.mem_flatMap.mpr ⟨i, hi, asks_edge ha⟩⟩

/-- An item defines a name: it is among its names. -/
theorem defines_mem {i : Item} {x : String} {k : DefKind} (h : Defines i x k) : x ∈ i.defines := by
  cases h <;> simp_all [Item.defines]

theorem same_item {is : List Item} (h : Distinct (is.map Item.defines).flatten) {i j : Item} {x : String} (hi : i ∈ is)
    (hj : j ∈ is) (hx : x ∈ i.defines) (hy : x ∈ j.defines) : i = j := by
  rw [distinct_iff, List.nodup_flatten, List.pairwise_map] at h
  replace h := h.2
  induction h with
  | nil => simp at hi
  | cons ha _ ih =>
    rcases List.mem_cons.mp hi with rfl | hi' <;> rcases List.mem_cons.mp hj with rfl | hj'
    · rfl
    · exact absurd hy (ha j hj' hx)
    · exact absurd hx (ha i hi' hy)
    · exact ih hi' hj'

theorem defines_kind {i : Item} {x : String} {k k' : DefKind} (h : Defines i x k) (h' : Defines i x k') : k = k' := by
  cases h <;> cases h' <;> rfl

theorem asks_module {i : Item} {m m' x : String} (h : Asks i m x) (h' : Asks i m' x) : m = m' := by
  cases h <;> cases h' <;> rfl

end CairoM.Syntax
