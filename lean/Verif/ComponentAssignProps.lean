import Verif.ComponentAssignLemmas

/-!
# C101: an assignment changes what it names and nothing else
-/

namespace CairoM
namespace ComponentAssign

open Mir Syntax Agg

/-- Binding a variable to a value. -/
theorem bindVariable_run {types : ValueId → Option MirType} {calls : ACalls} {next : ℕ} {x : String} {t : MirType} {rhs : Value}
    {vars : String → Option ValueId} {env : AEnv} {r : AVal} (hlt : ∀ y v, vars y = some v → v < next)
    (hr : readA env t rhs = some r) :
    ∃ env', evalAs types calls (bindVariable next x t rhs).instrs env = some env' ∧
      (rebind vars (bindVariable next x t rhs).bound x).bind env' = some r ∧
      ∀ y, y ≠ x → (rebind vars (bindVariable next x t rhs).bound y).bind env' = (vars y).bind env := by
  cases rhs with
  | Operand v =>
    exact ⟨env, rfl, by simpa [bindVariable, rebind, readA] using hr, fun y hy => by simp [bindVariable, rebind, hy]⟩
  | Error => simp [readA] at hr
  | Literal l =>
    refine ⟨Function.update env next (some r), by simp [bindVariable, evalAs, evalA, hr], by simp [bindVariable, rebind],
      fun y hy => ?_⟩
    simp only [bindVariable, rebind, if_neg hy]
    cases hv : vars y with
    | none => rfl
    | some v =>
      have := hlt y v hv
      simp only [Option.bind_some]
      rw [Function.update_of_ne (Nat.ne_of_lt this)]

theorem lowerAssign_base {ty : Expr → Option MirType} {next : ℕ} {lhs : Expr} {rhs base : Value} {x : String} {ss : List LhsStep}
    {t : MirType} (hd : decompose ty lhs = some (.ident x, ss)) (ht : ty (.ident x) = some t) (hne : ss ≠ []) :
    lowerAssign ty next lhs rhs base none =
      (let r := rebuild next base ss.zipIdx.reverse (next + ss.length) rhs
       let tys := ss.map LhsStep.result ++ ss.reverse.map LhsStep.container
       let e := bindVariable (next + tys.length) x t r.2
       some ⟨extracts ss next base ++ r.1 ++ e.instrs, tys ++ e.tys, e.bound⟩) := by
  obtain ⟨s, ss, rfl⟩ := List.exists_cons_of_ne_nil hne
  cases lhs with
  | ident y => simp [decompose] at hd
  | _ =>
    unfold lowerAssign
    dsimp only
    rw [hd]
    simp only [Option.bind_some, ht, Option.map_some]

theorem lowerAssign_plain {ty : Expr → Option MirType} {next : ℕ} {lhs : Expr} {rhs base : Value} {x : String}
    {t : MirType} (hd : decompose ty lhs = some (.ident x, [])) (ht : ty (.ident x) = some t) :
    lowerAssign ty next lhs rhs base none = some (bindVariable next x t rhs) := by
  cases lhs with
  | ident y =>
    simp only [decompose, Option.some.injEq, Prod.mk.injEq, Expr.ident.injEq, and_true] at hd
    subst hd
    simp [lowerAssign, ht]
  | _ =>
    unfold lowerAssign
    dsimp only
    rw [hd]
    simp only [Option.bind_some, ht, Option.map_some]

/-- **C101.** An assignment to a variable or to a component of one (of any depth) is lowered to instructions after which the
component has the assigned value, every other component of the variable and every other variable has its old value. -/
theorem C101_variable {ty : Expr → Option MirType} {lhs : Expr} {x : String} {path : List ℕ} {t : MirType}
    (hroot : root lhs = some x) (hpath : pathOf ty lhs = some path) (hty : exprTy ty lhs = some t)
    {types : ValueId → Option MirType} {vars : String → Option ValueId} {next b : ℕ} {env : AEnv} {rhs : Value} {old part r : AVal}
    (hvars : ∀ y v, vars y = some v → v < next) (hx : vars x = some b) (hT : types b = ty (.ident x)) (hold : env b = some old)
    (hpart : get path old = some part) (hnew : ∀ v, rhs = .Operand v → v < next) (hr : readA env t rhs = some r) (calls : ACalls) :
    ∃ e, lowerAssign ty next lhs rhs (.Operand b) none = some e ∧
      ∃ env', evalAs (addTypes types next e.tys) calls e.instrs env = some env' ∧
        (∃ new, (rebind vars e.bound x).bind env' = some new ∧ Updated old path r new) ∧
        ∀ y, y ≠ x → (rebind vars e.bound y).bind env' = (vars y).bind env := by
  obtain ⟨ss, t0, hd, ht0, hc⟩ := decompose_chain ty lhs hroot hpath hty
  by_cases hss : ss = []
  · subst hss
    cases path with
    | cons j p => simp [Chain] at hc
    | nil =>
      have : t0 = t := hc
      subst this
      refine ⟨_, lowerAssign_plain hd ht0, ?_⟩
      obtain ⟨env', a, b, c⟩ := bindVariable_run (x := x) (calls := calls)
        (types := addTypes types next (bindVariable next x t0 rhs).tys) hvars hr
      exact ⟨env', a, ⟨r, b, Updated.self old r⟩, c⟩
  · refine ⟨_, lowerAssign_base hd ht0 hss, ?_⟩
    simp only
    have hb := hvars x b hx
    generalize hTT : addTypes types next (ss.map LhsStep.result ++ ss.reverse.map LhsStep.container ++
      (bindVariable (next + (ss.map LhsStep.result ++ ss.reverse.map LhsStep.container).length) x t0
        (rebuild next (.Operand b) ss.zipIdx.reverse (next + ss.length) rhs).2).tys) = T
    have hTb : T b = some t0 := by rw [← hTT, addTypes, if_pos hb, hT, ht0]
    have hTs : ∀ i s, ss[i]? = some s → T (next + i) = some s.result := by
      intro i s hi
      have hl : i < ss.length := (List.getElem?_eq_some_iff.1 hi).1
      rw [← hTT, addTypes, if_neg (Nat.not_lt.2 (Nat.le_add_right _ _)), Nat.add_sub_cancel_left, List.append_assoc,
        List.getElem?_append_left (by simpa using hl), List.getElem?_map, hi]
      rfl
    obtain ⟨env1, a1, a2, a3⟩ := extracts_run T calls ss hc hb hTb hTs hold hpart
    have hr1 : readA env1 t rhs = some r := by
      cases rhs with
      | Operand v => rw [← hr]; exact a2 v (hnew v rfl)
      | Literal l => exact hr
      | Error => exact hr
    obtain ⟨env2, w, new, b1, b2, b3, b4, b5⟩ := rebuild_run T calls hb ss (next := next + ss.length) (u := rhs) hc (by omega)
      (by rw [a2 b hb, hold]) a3 hpart (fun h => absurd h hss) hr1
    refine ⟨env2, ?_, ⟨new, ?_, b4⟩, fun y hy => ?_⟩
    · rw [evalAs_append, evalAs_append, a1]
      simp only [Option.bind_some]
      rw [b1, b2]
      rfl
    · rw [b2]; simpa [bindVariable, rebind] using b3
    · rw [b2]
      simp only [bindVariable, rebind, if_neg hy]
      cases hv : vars y with
      | none => rfl
      | some v =>
        have := hvars y v hv
        simp only [Option.bind_some]
        rw [b5 v (Nat.lt_add_right _ this), a2 v this]

/-- The names by which a target continues from its base. -/
def selectors : Expr → List Projection
  | .member o f => selectors o ++ [.Field f.toList]
  | .tupleIndex o i => selectors o ++ [.Tuple i]
  | .paren e => selectors e
  | _ => []

theorem project_append (p : Place) (ss ts : List LhsStep) : project p (ss ++ ts) = project (project p ss) ts := by
  induction ss generalizing p with
  | nil => rfl
  | cons s ss ih => simp [project, ih]

theorem project_decompose (ty : Expr → Option MirType) (p : Place) : ∀ (e : Expr) {b : Expr} {ss : List LhsStep},
    decompose ty e = some (b, ss) → project p ss = ⟨p.base, p.projections ++ selectors e⟩
  | .paren e, _, _, h => project_decompose ty p e (by simpa [decompose] using h)
  | .member o f, b, ss, h => by
    simp only [decompose, Option.bind_eq_some_iff, Option.map_eq_some_iff] at h
    obtain ⟨q, h1, c, -, r, -, h2⟩ := h
    cases h2
    rw [project_append, project_decompose ty p o h1]
    simp [project, selectors]
  | .tupleIndex o i, b, ss, h => by
    simp only [decompose, Option.bind_eq_some_iff, Option.map_eq_some_iff] at h
    obtain ⟨q, h1, c, -, r, -, h2⟩ := h
    cases h2
    rw [project_append, project_decompose ty p o h1]
    simp [project, selectors]
  | .ident _, _, _, h | .literal .., _, _, h | .boolean .., _, _, h | .unary .., _, _, h | .binary .., _, _, h
  | .call .., _, _, h | .index .., _, _, h | .structLit .., _, _, h | .tuple .., _, _, h
  | .array .., _, _, h | .arrayRepeat .., _, _, h | .cast .., _, _, h | .new .., _, _, h => by
    simp only [decompose, Option.some.injEq, Prod.mk.injEq] at h
    obtain ⟨-, rfl⟩ := h
    simp [project, selectors]

/-- **C101.** An assignment to (a component of) an element of an array is one store, of the assigned value, to the place of the
element followed by the names of the components (what a store does is `C65`). -/
theorem C101_element_partial {ty : Expr → Option MirType} {next : ℕ} {lhs : Expr} {rhs base : Value} {p : Place} {e : Emitted}
    (hv : ∀ x, lhs ≠ .ident x) (h : lowerAssign ty next lhs rhs base (some p) = some e) :
    ∃ t, exprTy ty lhs = some t ∧ e = ⟨[.Store ⟨p.base, p.projections ++ selectors lhs⟩ rhs t], [], none⟩ := by
  have h' : (decompose ty lhs).bind (fun q => (exprTy ty lhs).map fun t =>
      (⟨[.Store (project p q.2) rhs t], [], none⟩ : Emitted)) = some e := by
    cases lhs <;> first | exact absurd rfl (hv _) | exact h
  simp only [Option.bind_eq_some_iff, Option.map_eq_some_iff] at h'
  obtain ⟨q, h1, t, h2, rfl⟩ := h'
  exact ⟨t, h2, by rw [project_decompose ty p lhs h1]⟩

/-! ### Examples -/

/-- `struct Inner { a: felt, b: u32 }`, `struct Outer { p: felt, q: (Inner, felt) }`, and a variable `x: Outer`. -/
def innerTy : MirType := .Struct ['I'] [(['a'], .Felt), (['b'], .U32)]
def outerTy : MirType := .Struct ['O'] [(['p'], .Felt), (['q'], .Tuple [innerTy, .Felt])]
def exampleTy : Expr → Option MirType
  | .ident "x" => some outerTy
  | _ => none

/-- `x.q.0.b` -/
def exampleLhs : Expr := .member (.tupleIndex (.member (.ident "x") "q") 0) "b"

/-- The hypotheses of `C101_variable` hold for `x.q.0.b = 7;`. -/
example : root exampleLhs = some "x" ∧ pathOf exampleTy exampleLhs = some [1, 0, 1] ∧ exprTy exampleTy exampleLhs = some .U32 := by
  refine ⟨rfl, ?_, ?_⟩ <;> simp [exampleLhs, pathOf, exprTy, exampleTy, component, fieldIndex, List.findIdx?_cons, outerTy, innerTy]

/-- The value of `x`: `Outer { p: 1, q: (Inner { a: 2, b: 3 }, 4) }`. -/
def exampleVal : AVal :=
  .agg [.scalar (.felt 1), .agg [.agg [.scalar (.felt 2), .scalar (.u32 3)], .scalar (.felt 4)]]

/-- After `x.q.0.b = 7;` the component is 7, and the others are as before. -/
example : ∃ e, lowerAssign exampleTy 5 exampleLhs (.Literal (.Integer 7)) (.Operand 2) none = some e ∧
    ∃ env', evalAs (addTypes (fun _ => some outerTy) 5 e.tys) (fun _ _ => none) e.instrs (fun _ => some exampleVal) = some env' ∧
      (∃ new, (rebind (fun _ => some 2) e.bound "x").bind env' = some new ∧
        get [1, 0, 1] new = some (.scalar (.u32 7)) ∧ get [1, 0, 0] new = some (.scalar (.felt 2)) ∧
        get [0] new = some (.scalar (.felt 1)) ∧ get [1, 1] new = some (.scalar (.felt 4))) := by
  obtain ⟨e, h1, env', h2, ⟨new, h3, h4⟩, -⟩ := C101_variable (ty := exampleTy) (lhs := exampleLhs) (x := "x") (path := [1, 0, 1]) (t := .U32)
    rfl (by simp [exampleLhs, pathOf, exprTy, exampleTy, component, fieldIndex, List.findIdx?_cons, outerTy, innerTy])
    (by simp [exampleLhs, exprTy, exampleTy, component, fieldIndex, List.findIdx?_cons, outerTy, innerTy])
    (types := fun _ => some outerTy) (vars := fun _ => some 2) (next := 5) (b := 2) (env := fun _ => some exampleVal)
    (rhs := .Literal (.Integer 7)) (old := exampleVal) (part := .scalar (.u32 3)) (r := .scalar (.u32 7))
    (fun _ v h => by cases h; decide) rfl rfl rfl rfl (fun v h => by cases h) rfl (fun _ _ => none)
  exact ⟨e, h1, env', h2, new, h3, h4.there, h4.elsewhere _ (by decide) (by decide), h4.elsewhere _ (by decide) (by decide),
    h4.elsewhere _ (by decide) (by decide)⟩

/-- The instructions of `x.q.0.b = 7;`: three reads and three updates. -/
example : lowerAssign exampleTy 5 exampleLhs (.Literal (.Integer 7)) (.Operand 2) none = some
    ⟨[.ExtractStructField 5 (.Operand 2) ['q'] (.Tuple [innerTy, .Felt]), .ExtractTupleElement 6 (.Operand 5) 0 innerTy,
      .ExtractStructField 7 (.Operand 6) ['b'] .U32, .InsertField 8 (.Operand 6) ['b'] (.Literal (.Integer 7)) innerTy,
      .InsertTuple 9 (.Operand 5) 0 (.Operand 8) (.Tuple [innerTy, .Felt]), .InsertField 10 (.Operand 2) ['q'] (.Operand 9) outerTy],
     [.Tuple [innerTy, .Felt], innerTy, .U32, innerTy, .Tuple [innerTy, .Felt], outerTy], some ("x", 10)⟩ := by
  simp [lowerAssign, exampleLhs, decompose, exprTy, exampleTy, component, fieldIndex, List.findIdx?_cons, outerTy, innerTy, extracts, rebuild,
    extractInstr, insertInstr, bindVariable, List.zipIdx]

/-- `a[i].b = 7;` -/
example : lowerAssign (fun _ => some innerTy) 5 (.member (.index (.ident "a") (.ident "i")) "b") (.Literal (.Integer 7)) (.Operand 2)
    (some ⟨1, [.Index (.Operand 0)]⟩) = some ⟨[.Store ⟨1, [.Index (.Operand 0), .Field ['b']]⟩ (.Literal (.Integer 7)) .U32], [], none⟩ := by
  simp [lowerAssign, decompose, exprTy, component, fieldIndex, List.findIdx?_cons, innerTy, project]

end ComponentAssign
end CairoM
