import Verif.NamesLemmas

/-!
# C80: names mean what lexical scope says
-/

namespace CairoM.Syntax
namespace Builder

open Lexical

/-! ### The specification makes sense: a name means a definition of that name -/

/-- Meanings are definitions of the same name, among those made so far. -/
def Known (env : Env) (ds : List String) : Prop := ∀ x i, env x = some i → ds[i]? = some x

def Good (us : List Occurrence) (ds : List String) : Prop := ∀ o ∈ us, ∀ i, o.meaning = some i → ds[i]? = some o.name

theorem Known.mono {env : Env} {ds : List String} (h : Known env ds) (es : List String) : Known env (ds ++ es) := fun x i hx => by
  have h1 := h x i hx
  rw [List.getElem?_append_left (List.getElem?_eq_some_iff.1 h1).1]
  exact h1

theorem Good.mono {us : List Occurrence} {ds : List String} (h : Good us ds) (es : List String) : Good us (ds ++ es) :=
  fun o ho i hi => by
    have h1 := h o ho i hi
    rw [List.getElem?_append_left (List.getElem?_eq_some_iff.1 h1).1]
    exact h1

theorem Known.bind {env : Env} {ds : List String} (h : Known env ds) (x : String) : Known (env.bind x ds.length) (ds ++ [x]) :=
  fun y i hy => by
    unfold Env.bind at hy
    split at hy
    · rename_i e
      cases hy
      simp [e]
    · exact h.mono [x] y i hy

theorem Known.bindAll : ∀ (xs : List String) {env : Env} {ds : List String}, Known env ds →
    Known (env.bindAll ds.length xs) (ds ++ xs)
  | [], _, _, h => by simpa [Env.bindAll] using h
  | x :: xs, env, ds, h => by
    have := Known.bindAll xs (h.bind x)
    simpa [Env.bindAll] using this

theorem Known.look {env : Env} {ds : List String} (h : Known env ds) (xs : List (Bool × String)) (c : Option String) :
    Good (look env xs c) ds := by
  intro o ho i hi
  simp only [Lexical.look, List.mem_map] at ho
  obtain ⟨x, -, rfl⟩ := ho
  exact h _ i hi

/-- An effect whose uses and environment are as they should be. -/
def Fine (ds : List String) (r : Effect) : Prop := Good r.uses (ds ++ r.declared) ∧ Known r.env (ds ++ r.declared)

theorem Fine.within {ds : List String} {r : Effect} {env : Env} (h : Fine ds r) (he : Known env ds) : Fine ds (r.within env) :=
  ⟨h.1, he.mono _⟩

theorem Fine.after {ds : List String} {r : Effect} {us : List Occurrence} (h : Fine ds r) (hu : Good us ds) : Fine ds (r.after us) :=
  ⟨fun o ho => (List.mem_append.1 ho).elim (hu.mono _ o) (h.1 o), h.2⟩

theorem Fine.andThen {ds : List String} {r : Effect} {k : Env → Nat → Effect} (h : Fine ds r)
    (hk : ∀ ds', ds' = ds ++ r.declared → Known r.env ds' → Fine ds' (k r.env ds'.length)) : Fine ds (r.andThen ds.length k) := by
  have h1 := hk _ rfl h.2
  simp only [List.length_append] at h1
  unfold Fine at h1 ⊢
  simp only [Effect.andThen, ← List.append_assoc]
  refine ⟨fun o ho => ?_, h1.2⟩
  rcases List.mem_append.1 ho with ho | ho
  · exact h.1.mono _ o ho
  · exact h1.1 o ho

theorem fine_nil {ds : List String} {env : Env} (h : Known env ds) {us : List Occurrence} (hu : Good us ds) : Fine ds ⟨us, env, []⟩ := by
  constructor <;> simpa

theorem good_nil {ds : List String} : Good [] ds := by simp [Good]

theorem fine_constant (c : ConstDef) {env : Env} {ds : List String} (h : Known env ds) : Fine ds (constant c env ds.length) :=
  ⟨(h.look _ _).mono _, h.bind _⟩

mutual
theorem fine_stmt : ∀ (s : Stmt) {env : Env} {ds : List String}, Known env ds → Fine ds (stmt s env ds.length)
  | .let_ p ty e, env, ds, h => by
    simp only [stmt]
    exact ⟨(h.look _ _).mono _, h.bindAll _⟩
  | .const c, env, ds, h => by
    simp only [stmt]
    exact fine_constant c h
  | .assign .., env, ds, h | .return_ (some _), env, ds, h | .expr _, env, ds, h => by
    simp only [stmt]
    exact fine_nil h (h.look _ _)
  | .return_ none, env, ds, h | .break_, env, ds, h | .continue_, env, ds, h => by
    simp only [stmt]
    exact fine_nil h good_nil
  | .if_ c t none, env, ds, h => by
    simp only [stmt]
    exact ((fine_stmt t h).within h).after (h.look _ _)
  | .if_ c t (some e), env, ds, h => by
    simp only [stmt]
    exact ((((fine_stmt t h).within h).andThen fun ds' _ h' => fine_stmt e h').within h).after (h.look _ _)
  | .block ss, env, ds, h => by
    simp only [stmt]
    exact (fine_stmts ss h).within h
  | .loop_ s, env, ds, h => by
    simp only [stmt]
    exact (fine_stmt s h).within h
  | .while_ c s, env, ds, h => by
    simp only [stmt]
    exact ((fine_stmt s h).within h).after (h.look _ _)
  | .for_ i c st s, env, ds, h => by
    simp only [stmt]
    exact ((fine_stmt i h).andThen fun ds' _ h' =>
      (((fine_stmt s h').within h').andThen fun ds'' _ h'' => fine_stmt st h'').after (h'.look _ _)).within h
theorem fine_stmts : ∀ (ss : List Stmt) {env : Env} {ds : List String}, Known env ds → Fine ds (stmts ss env ds.length)
  | [], env, ds, h => by
    simp only [stmts]
    exact fine_nil h good_nil
  | s :: ss, env, ds, h => by
    simp only [stmts]
    exact (fine_stmt s h).andThen fun ds' _ h' => fine_stmts ss h'
end

theorem fine_params : ∀ (ps : List (String × TypeExpr)) {env : Env} {ds : List String}, Known env ds →
    Fine ds (params ps env ds.length)
  | [], env, ds, h => by
    simp only [params]
    exact fine_nil h good_nil
  | (x, t) :: ps, env, ds, h => by
    simp only [params]
    exact Fine.andThen ⟨(h.look _ _).mono _, h.bind _⟩ fun ds' _ h' => fine_params ps h'

theorem fine_item (i : Item) {env : Env} {ds : List String} (h : Known env ds) : Fine ds (item i env ds.length) := by
  cases i with
  | function f =>
    exact (((fine_params f.params h).andThen fun ds' _ h' => fine_stmts f.body h').within h).after (h.look _ _)
  | struct x fs => exact fine_nil h (h.look _ _)
  | const c => exact fine_constant c h
  | use p us => exact fine_nil h good_nil

theorem fine_items : ∀ (is : List Item) {env : Env} {ds : List String}, Known env ds → Fine ds (items is env ds.length)
  | [], _, _, h => fine_nil h good_nil
  | i :: is, _, _, h => (fine_item i h).andThen fun _ _ h' => fine_items is h'

theorem fine_file (is : List Item) : Fine [] (file is) := by
  have h0 : Known (fun _ => none) [] := by simp [Known]
  exact Fine.andThen (ds := []) ⟨good_nil, by simpa using h0.bindAll (is.flatMap forward)⟩ fun ds' _ h' => fine_items is h'

/-! ### C80 -/

/-- **C80.** The index links every use of a name, in the order in which they stand in the file, to the definition that
lexical scope gives it (or to none if it has none), and numbers the definitions in the same way. Missing here and
below: `for` loops whose body is a bare declaration, see `C80_violated_body`. -/
theorem C80_resolution_partial (is : List Item) (h : ∀ i ∈ is, Item.blocks i = true) :
    (build is).uses.map (fun u => (u.isType, u.name, u.def_)) = (file is).uses.map (fun o => (o.isType, o.name, o.meaning)) ∧
    (build is).defs.map (·.name) = (file is).declared := by
  have h1 := build_ok is h
  refine ⟨?_, by simpa [new] using h1.defs⟩
  have h2 : (build is).uses.map key = (file is).uses := by simpa [new] using h1.uses
  rw [← h2, List.map_map]
  rfl

/-- **C80.** A name is linked to a definition of that name. -/
theorem C80_same_name_partial (is : List Item) (h : ∀ i ∈ is, Item.blocks i = true) (u : Use) (hu : u ∈ (build is).uses) (i : Nat)
    (hi : u.def_ = some i) : ∃ d, (build is).defs[i]? = some d ∧ d.name = u.name := by
  have h1 := build_ok is h
  have h2 : (build is).uses.map key = (file is).uses := by simpa [new] using h1.uses
  have h3 : (build is).defs.map (·.name) = (file is).declared := by simpa [new] using h1.defs
  have h4 := (fine_file is).1 (key u) (by rw [← h2]; exact List.mem_map_of_mem hu) i hi
  rw [List.nil_append, ← h3, List.getElem?_map, Option.map_eq_some_iff] at h4
  exact h4

/-- **C80.** A name is reported as undeclared exactly when some use of it has no meaning. Exceptions are `assert`, and uses
in the value of the constant that is being declared: see `C80_violated_own`. -/
theorem C80_undeclared_partial (is : List Item) (h : ∀ i ∈ is, Item.blocks i = true) (x : String) :
    x ∈ (build is).undeclared ↔
      ∃ o ∈ (file is).uses, o.name = x ∧ o.isType = false ∧ o.meaning = none ∧ o.own = false ∧ x ≠ "assert" := by
  have h1 := build_ok is h
  have h2 : (build is).uses.map key = (file is).uses := by simpa [new] using h1.uses
  rw [← h2]
  simp only [undeclared, List.mem_map, List.mem_filter, Bool.and_eq_true, Bool.not_eq_true', Option.isNone_iff_eq_none,
    bne_iff_ne]
  constructor
  · rintro ⟨u, ⟨hu, ⟨⟨h3, h4⟩, h5⟩, h6⟩, rfl⟩
    exact ⟨key u, ⟨u, hu, rfl⟩, rfl, h3, h4, h5, h6⟩
  · rintro ⟨_, ⟨u, hu, rfl⟩, rfl, h3, h4, h5, h6⟩
    exact ⟨u, ⟨hu, ⟨⟨h3, h4⟩, h5⟩, h6⟩, rfl⟩

/-- **C80.** A definition is reported as unused exactly when no use in the file means it (functions, structs and names
that begin with an underscore are not reported). -/
theorem C80_unused_partial (is : List Item) (h : ∀ i ∈ is, Item.blocks i = true) (i : Nat) :
    i ∈ (build is).unused ↔
      ∃ d, (build is).defs[i]? = some d ∧ d.kind ≠ .function ∧ d.kind ≠ .struct ∧ d.name.toList.head? ≠ some '_' ∧
        ∀ o ∈ (file is).uses, o.meaning ≠ some i := by
  have h1 := (build_ok is h).used i
  have h2 : i ∈ (build is).used ↔ ∃ u ∈ (file is).uses, u.meaning = some i := by rw [h1]; simp [new]
  simp only [unused, List.mem_filter, List.mem_range]
  cases hd : (build is).defs[i]? with
  | none => simp
  | some d =>
    have hlt := (List.getElem?_eq_some_iff.1 hd).1
    simp only [hlt, true_and, Bool.and_eq_true, bne_iff_ne, Bool.not_eq_true', Option.some.injEq, exists_eq_left',
      List.contains_eq_mem, decide_eq_false_iff_not, h2, not_exists, not_and, and_assoc]
    simp

/-! ### Examples -/

private def felt : TypeExpr := .named .felt
private def use (x : String) : Expr := .ident x

/-- `fn f(x: felt) -> felt { let y = x; { let x = y; x = y + x; } if y == x { let y = g(x); return y; } return x + y; }`
`fn g(x: felt) -> felt { const c = x; return c; }` -/
private def shadows : List Item := [
  .function ⟨"f", [("x", felt)], felt, [
    .let_ (.ident "y") none (use "x"),
    .block [.let_ (.ident "x") none (use "y"), .assign (use "x") (.binary .add (use "y") (use "x"))],
    .if_ (.binary .eq (use "y") (use "x")) (.block [.let_ (.ident "y") none (.call (use "g") [use "x"]), .return_ (some (use "y"))]) none,
    .return_ (some (.binary .add (use "x") (use "y")))]⟩,
  .function ⟨"g", [("x", felt)], felt, [.const ⟨"c", none, use "x"⟩, .return_ (some (use "c"))]⟩]

example : (∀ i ∈ shadows, Item.blocks i = true) ∧
    (build shadows).uses.map (fun u => (u.name, u.def_)) =
      [("x", some 2), ("y", some 3), ("x", some 4), ("y", some 3), ("x", some 4), ("y", some 3), ("x", some 2), ("g", some 1),
        ("x", some 2), ("y", some 5), ("x", some 2), ("y", some 3), ("x", some 6), ("c", some 7)] ∧
    (build shadows).defs.map (·.name) = ["f", "g", "x", "y", "x", "y", "x", "c"] ∧
    (build shadows).undeclared = [] ∧ (build shadows).unused = [] := by
  decide +kernel

/-- `fn f(x: felt) -> felt { for (let i = 0; i != x; i = i + 1) { let i = x; } for (x = 0; x != 3; x = x + 1) assert(true); return x; }` -/
private def loops : List Item := [
  .function ⟨"f", [("x", felt)], felt, [
    .for_ (.let_ (.ident "i") none (.literal 0 none)) (.binary .neq (use "i") (use "x"))
      (.assign (use "i") (.binary .add (use "i") (.literal 1 none))) (.block [.let_ (.ident "i") none (use "x")]),
    .for_ (.assign (use "x") (.literal 0 none)) (.binary .neq (use "x") (.literal 3 none))
      (.assign (use "x") (.binary .add (use "x") (.literal 1 none))) (.expr (.call (use "assert") [.boolean true])),
    .return_ (some (use "x"))]⟩]

example : (∀ i ∈ loops, Item.blocks i = true) ∧
    (build loops).uses.map (fun u => (u.name, u.def_)) =
      [("i", some 2), ("x", some 1), ("x", some 1), ("i", some 2), ("i", some 2), ("x", some 1), ("x", some 1), ("assert", none),
        ("x", some 1), ("x", some 1), ("x", some 1)] ∧ (build loops).undeclared = [] := by
  decide +kernel

/-- `fn f(x: felt) -> felt { if true { let z = x; } return z; }` -/
private def escapes : List Item := [
  .function ⟨"f", [("x", felt)], felt, [.if_ (.boolean true) (.block [.let_ (.ident "z") none (use "x")]) none,
    .return_ (some (use "z"))]⟩]

example : (build escapes).undeclared = ["z"] ∧ (build escapes).unused = [2] := by decide +kernel

/-- `const x: felt = x;` -/
private def ownValue : List Item := [.const ⟨"x", some felt, use "x"⟩]

/-- **C80 (violated).** A constant that is defined by itself: the use has no meaning, and is not reported as undeclared. -/
theorem C80_violated_own : (build ownValue).undeclared = [] ∧ (file ownValue).uses = [⟨false, "x", none, true⟩] := by
  decide +kernel

/-- `fn f() -> felt { for (let i = 0; i != 3; i = i + 1) let i = 7; return 0; }` -/
private def bareBody : List Item := [
  .function ⟨"f", [], felt, [
    .for_ (.let_ (.ident "i") none (.literal 0 none)) (.binary .neq (use "i") (.literal 3 none))
      (.assign (use "i") (.binary .add (use "i") (.literal 1 none))) (.let_ (.ident "i") none (.literal 7 none)),
    .return_ (some (.literal 0 none))]⟩]

/-- **C80 (violated).** The body of a `for` loop has no scope of its own: when it is a bare declaration, the step of the
loop means the declared name (2) instead of the loop variable (1), so that the loop variable never changes. -/
theorem C80_violated_body :
    (build bareBody).uses.map (fun u => (u.name, u.def_)) = [("i", some 1), ("i", some 2), ("i", some 2)] ∧
    (file bareBody).uses.map (fun o => (o.name, o.meaning)) = [("i", some 1), ("i", some 1), ("i", some 1)] ∧
    (build bareBody).undeclared = [] := by
  decide +kernel

end Builder
end CairoM.Syntax
