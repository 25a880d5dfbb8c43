import Verif.AssignCheck
import Verif.ImportedUseProps

/-!
# C100: constants are not assigned to
-/

namespace CairoM.Syntax

/-! ### Specification -/

/-- The expression is a part of the variable: the variable itself, or a field or element of a part, in parentheses or not. -/
inductive PartOf (x : String) : Expr → Prop
  | self : PartOf x (.ident x)
  | field {e : Expr} {f : String} (h : PartOf x e) : PartOf x (.member e f)
  | element {e : Expr} {n : Nat} (h : PartOf x e) : PartOf x (.tupleIndex e n)
  | index {e i : Expr} (h : PartOf x e) : PartOf x (.index e i)
  | paren {e : Expr} (h : PartOf x e) : PartOf x (.paren e)
  | cast {e : Expr} {t : TypeExpr} (h : PartOf x e) : PartOf x (.cast e t)

/-- What can be written on the left of an assignment: a variable, a field or an element. -/
inductive Target : Expr → Prop
  | var (x : String) : Target (.ident x)
  | field (e : Expr) (f : String) : Target (.member e f)
  | element (e : Expr) (n : Nat) : Target (.tupleIndex e n)
  | index (e i : Expr) : Target (.index e i)

/-- In the module `m`, a name with a definition of this kind is a constant, of the module or imported. -/
def IsConstant (P : Project) (m : String) (kind : DefKind) (x : String) : Prop :=
  kind = .const ∨ kind = .use ∧ ∃ k, Means P m x k .const

/-! ### Theorems -/

theorem lvalueConst_iff (P : Project) (is : List Item) (kindOf : String → Option DefKind) (e : Expr) :
    lvalueConst P is kindOf e = true ↔ ∃ x k, PartOf x e ∧ kindOf x = some k ∧ isConstName P is k x = true := by
  constructor
  · intro h
    fun_induction lvalueConst P is kindOf e with
    | case1 x k hk => exact ⟨x, k, .self, hk, h⟩
    | case2 => simp at h
    | case3 e f ih => obtain ⟨x, k, h1, h2⟩ := ih h; exact ⟨x, k, .field h1, h2⟩
    | case4 e f ih => obtain ⟨x, k, h1, h2⟩ := ih h; exact ⟨x, k, .element h1, h2⟩
    | case5 e f ih => obtain ⟨x, k, h1, h2⟩ := ih h; exact ⟨x, k, .index h1, h2⟩
    | case6 e f ih => obtain ⟨x, k, h1, h2⟩ := ih h; exact ⟨x, k, .cast h1, h2⟩
    | case7 e ih => obtain ⟨x, k, h1, h2⟩ := ih h; exact ⟨x, k, .paren h1, h2⟩
    | case8 => simp at h
  · rintro ⟨x, k, hp, hk, hc⟩
    induction hp with
    | self => rw [lvalueConst, hk]; exact hc
    | field _ ih | element _ ih | index _ ih | paren _ ih | cast _ ih => rw [lvalueConst]; exact ih

/-- **C100.** What is neither a variable nor a field nor an element is reported as an invalid target, and nothing else is. -/
theorem C100_target (P : Project) (is : List Item) (kindOf : String → Option DefKind) (lhs : Expr) :
    .invalidTarget ∈ checkTarget P is kindOf lhs ↔ ¬ Target lhs := by
  constructor
  · intro h ht
    cases ht <;> (rw [checkTarget] at h; split at h <;> simp at h)
  · intro h
    cases lhs with
    | ident x => exact absurd (.var x) h
    | member e f => exact absurd (.field e f) h
    | tupleIndex e n => exact absurd (.element e n) h
    | index e i => exact absurd (.index e i) h
    | _ => simp [checkTarget]

/-- **C100.** An assignment is reported as one to a constant only if its target is part of a constant. -/
theorem C100_no_false_alarm (P : Project) (m : String) (is : List Item) (hm : (m, is) ∈ P) (kindOf : String → Option DefKind)
    (lhs : Expr) (h : .constant ∈ checkTarget P is kindOf lhs) :
    Target lhs ∧ ∃ x kind, PartOf x lhs ∧ kindOf x = some kind ∧ IsConstant P m kind x := by
  have ht : Target lhs := by
    cases lhs with
    | ident x => exact .var x
    | member e f => exact .field e f
    | tupleIndex e n => exact .element e n
    | index e i => exact .index e i
    | _ => simp [checkTarget] at h
  have hc : lvalueConst P is kindOf lhs = true := by
    by_contra hn
    cases ht <;> (rw [checkTarget, if_neg hn] at h; simp at h)
  obtain ⟨x, kind, h1, h2, h3⟩ := (lvalueConst_iff P is kindOf lhs).mp hc
  refine ⟨ht, x, kind, h1, h2, ?_⟩
  cases kind with
  | const => exact .inl rfl
  | use =>
    refine .inr ⟨rfl, ?_⟩
    replace h3 : importedKind P is x = some .const := of_decide_eq_true h3
    rw [importedKind] at h3
    split at h3
    · simp at h3
    · rename_i i hi
      split at h3
      · simp at h3
      · rename_i js hjs
        obtain ⟨d, hd, hk⟩ := Option.map_eq_some_iff.mp h3
        obtain ⟨n, hn, hd⟩ := Option.bind_eq_some_iff.mp hd
        obtain ⟨d', hd', j, hj, hdef⟩ := Builder.latest_some hn
        rw [hd, Option.some.injEq] at hd'
        subst hd'
        have hx : i.2 = x := by simpa using List.find?_some hi
        obtain ⟨i', hi', hii⟩ := List.mem_flatMap.mp (List.mem_of_find?_eq_some hi)
        rw [hk] at hdef
        exact ⟨i.1, .via hm hi' (hx ▸ (imports_iff i' _ _).mp hii) (.own (mem_of_lookup hjs) hj hdef (by simp))⟩
  | _ => simp [isConstName] at h3

/-- **C100, in part.** Every assignment to a part of a constant of the module, or of a constant imported from the module that
defines it, is reported, if no module of the crate defines a name twice. Missing: constants imported from a module that
imports them in turn, see `C100_violated`. -/
theorem C100_partial (P : Project) (hP : (P.map (·.1)).Nodup)
    (hd : ∀ m is, (m, is) ∈ P → Distinct (is.map Item.defines).flatten) {m : String} {is : List Item} (hm : (m, is) ∈ P)
    (kindOf : String → Option DefKind) (lhs : Expr) (ht : Target lhs) (x : String) (hx : PartOf x lhs)
    (hc : kindOf x = some .const ∨ kindOf x = some .use ∧
      ∃ m' js i c, (m', js) ∈ P ∧ i ∈ is ∧ Asks i m' x ∧ Item.const c ∈ js ∧ c.name = x) :
    checkTarget P is kindOf lhs = [.constant] := by
  have key : lvalueConst P is kindOf lhs = true := by
    rw [lvalueConst_iff]
    rcases hc with hc | ⟨hc, m', js, i, c, hm', hi, ha, hcj, rfl⟩
    · exact ⟨x, _, hx, hc, rfl⟩
    · refine ⟨_, _, hx, hc, ?_⟩
      obtain ⟨d, e1, e2⟩ := latest_only (hd m' js hm') hcj (.const c)
      suffices h : importedKind P is c.name = some .const from decide_eq_true h
      rw [importedKind]
      cases hfind : (is.flatMap Item.imports).find? (fun i => i.2 = c.name) with
      | none =>
        have := List.find?_eq_none.mp hfind (m', c.name) (List.mem_flatMap.mpr ⟨i, hi, (imports_iff i _ _).mpr ha⟩)
        simp at this
      | some j =>
        have hx : j.2 = c.name := by simpa using List.find?_some hfind
        obtain ⟨i', hi', hji⟩ := List.mem_flatMap.mp (List.mem_of_find?_eq_some hfind)
        have ha' : Asks i' j.1 c.name := hx ▸ (imports_iff i' _ _).mp hji
        have := same_item (hd m is hm) hi' hi (defines_mem (asks_defines ha')) (defines_mem (asks_defines ha))
        subst this
        have := asks_module ha' ha
        simp [this, lookup_of_mem hP hm', e1, e2]
  cases ht <;> rw [checkTarget, if_pos key]

/-! ### A constant that can be assigned to -/

/-- `main` imports the constant `N` from `api`, which imports it from `core`. -/
private def crate : Project :=
  [("main", [.use ["api"] (.single "N"),
      .function ⟨"main", [], .named .felt, [.assign (.ident "N") (.literal 5 none), .return_ (some (.literal 0 none))]⟩]),
   ("api", [.use ["core"] (.single "N")]),
   ("core", [.const ⟨"N", none, .literal 1 none⟩])]

/-- **C100 does not hold for re-exported constants.** The crate passes the checks of names and imports, the name is linked to the
import and stands for a constant, and the assignment is accepted. -/
theorem C100_violated : ∃ (P : Project) (is : List Item) (x : String) (i : ℕ) (d : Def) (kindOf : String → Option DefKind),
    Accepted P ∧ ("main", is) ∈ P ∧ (∃ u ∈ (Builder.build is).uses, u.name = x ∧ u.def_ = some i) ∧
    (Builder.build is).defs[i]? = some d ∧ kindOf x = some d.kind ∧ IsConstant P "main" d.kind x ∧
    checkTarget P is kindOf (.ident x) = [] := by
  refine ⟨crate, _, "N", 0, ⟨"N", 0, .use⟩, fun _ => some .use, ⟨by decide +kernel, by decide +kernel, ?_, ?_⟩,
    List.mem_cons_self, by decide +kernel, by decide +kernel, rfl, .inr ⟨rfl, "core", ?_⟩, by decide +kernel⟩
  · have : ∀ q ∈ crate, importReports crate q.2 = [] := by decide +kernel
    exact fun m is h => this _ h
  · have : ∀ q ∈ crate, duplicates q.2 = [] ∧ (Builder.build q.2).undeclared = [] := by decide +kernel
    exact fun m is h => this _ h
  · exact (C97_sound _ 3 _ _ _ _ (by decide +kernel)).1

/-! ### Examples -/

/-- `api` may not assign to the second component of an element of `N`, which it imports from `core`. -/
example : checkTarget crate [.use ["core"] (.single "N")] (fun _ => some .use)
    (.tupleIndex (.paren (.index (.ident "N") (.literal 3 none))) 1) = [.constant] :=
  C100_partial crate (by decide +kernel) (fun m is h => (distinct_iff _).mpr ((by decide +kernel :
      ∀ q ∈ crate, (q.2.map Item.defines).flatten.Nodup) _ h)) (m := "api") (by simp [crate]) _ _ (.element _ _) "N"
    (.element (.paren (.index .self))) (.inr ⟨rfl, "core", _, _, ⟨"N", none, .literal 1 none⟩,
      List.mem_cons_of_mem _ (List.mem_cons_of_mem _ List.mem_cons_self), List.mem_cons_self, .single ["core"] "N" (by simp),
      List.mem_cons_self, rfl⟩)

example : checkTarget crate [] (fun _ => some .let_) (.member (.ident "s") "f") = [] := by decide +kernel
example : checkTarget crate [] (fun _ => some .let_) (.paren (.ident "s")) = [.invalidTarget] := by decide +kernel

end CairoM.Syntax
