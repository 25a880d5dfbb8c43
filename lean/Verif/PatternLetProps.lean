import Verif.PatternLetLemmas
import Verif.ComponentAssignProps

/-!
# C102: a `let` with a pattern binds each name to its component
-/

namespace CairoM
namespace PatternLet

open Mir Syntax Agg ComponentAssign

/-- **C102.** When a `let` with a pattern of any depth is lowered, each name of the pattern has the value of its component afterwards,
and every other variable has its old value. -/
theorem C102_binds {varTy : String → MirType} {types : ValueId → Option MirType} {next : ℕ} {p : Pattern} {rhs : Value} {o : Emitted}
    (h : lowerPattern varTy types next p rhs = some o) (hnames : ((bindings p).map Prod.fst).Nodup)
    {vars : String → Option ValueId} {env : AEnv} {t : MirType} {val : AVal} (hvars : ∀ y v, vars y = some v → v < next)
    (hv : ∀ v, rhs = .Operand v → v < next ∧ types v = some t) (hid : ∀ x, p = .ident x → varTy x = t)
    (hr : readA env t rhs = some val) (hf : Fits t val) (T : ValueId → Option MirType) (calls : ACalls) :
    ∃ env', evalAs T calls o.instrs env = some env' ∧
      (∀ x path, (x, path) ∈ bindings p → ∃ y, get path val = some y ∧ (after vars o.bound x).bind env' = some y) ∧
      ∀ y, y ∉ (bindings p).map Prod.fst → (after vars o.bound y).bind env' = (vars y).bind env := by
  obtain ⟨env', l, a1, a2, a3⟩ : ∃ (env' : AEnv) (l : ℕ), evalAs T calls o.instrs env = some env' ∧
      (∀ w, w < next → env' w = env w) ∧ Bound l env' val o.bound (bindings p) := by
    cases p with
    | ident x =>
      simp only [lowerPattern, Option.some.injEq] at h
      subst h
      have ht := hid x rfl
      subst ht
      cases rhs with
      | Operand v =>
        refine ⟨env, v + 1, rfl, fun _ _ => rfl, ?_⟩
        simp only [Bound, bind1, bindVariable, bindings, Option.toList_some, List.forall₂_cons, List.Forall₂.nil, and_true]
        exact ⟨trivial, Nat.lt_succ_self _, val, rfl, hr⟩
      | Literal l =>
        refine ⟨Function.update env next (some val), next + 1, by simp [bind1, bindVariable, evalAs, evalA, hr],
          fun w hw => Function.update_of_ne (Nat.ne_of_lt hw) _ _, ?_⟩
        simp only [Bound, bind1, bindVariable, bindings, Option.toList_some, List.forall₂_cons, List.Forall₂.nil, and_true]
        exact ⟨trivial, Nat.lt_succ_self _, val, rfl, by simp⟩
      | Error => simp [readA] at hr
    | tuple ps =>
      cases rhs with
      | Operand v =>
        obtain ⟨h1, h2⟩ := hv v rfl
        simp only [lowerPattern, h2] at h
        cases t <;> simp only [reduceCtorEq] at h
        cases val with
        | scalar x => simp [Fits] at hf
        | agg xs =>
          obtain ⟨env', a, b, c⟩ := elements_run (T := T) (calls := calls) ps h h1 hr (by simpa [Fits] using hf)
          exact ⟨env', _, a, b, by simpa [bindings] using c⟩
      | Literal l => simp [lowerPattern] at h
      | Error => simp [lowerPattern] at h
  refine ⟨env', a1, fun x path hx => ?_, fun y hy => ?_⟩
  · obtain ⟨b, ⟨-, -, y, h1, h2⟩, h3⟩ := after_mem (vars := vars) (fun _ _ h => h.1) a3 hnames hx
    exact ⟨y, h1, by rw [h3]; exact h2⟩
  · rw [after_other (fun _ _ h => h.1) a3 hy]
    cases hvy : vars y with
    | none => rfl
    | some v => exact a2 v (hvars y v hvy)

/-- **C102.** A pattern with the shape of the value is accepted. -/
theorem C102_no_false_alarm {p : Pattern} {t : MirType} (h : Matches p t) : checkLet p t = [] := by
  cases p with
  | ident x => rfl
  | tuple ps =>
    cases t <;> simp only [Matches] at h
    rename_i ts
    have h' := (matchesAll_iff ps ts).1 h
    simp only [checkLet, h'.1, ne_eq, not_true_eq_false, ite_false, List.nil_append, List.flatMap_eq_nil_iff]
    exact fun q hq => (h'.2 q hq).element

/-- **C102.** A pattern with the shape of the value is lowered. -/
theorem C102_lowered {varTy : String → MirType} {types : ValueId → Option MirType} {next v : ℕ} {p : Pattern} {t : MirType}
    (h : Matches p t) (hv : types v = some t) : ∃ o, lowerPattern varTy types next p (.Operand v) = some o := by
  cases p with
  | ident x => exact ⟨_, rfl⟩
  | tuple ps =>
    cases t <;> simp only [Matches] at h
    simp only [lowerPattern, hv]
    exact lowerElements_some ps [] (by simpa using h)

/-- **C102.** An accepted pattern in which tuples are nested at most twice has the shape of the value. Missing: deeper patterns, for
which it does not hold. -/
theorem C102_check_partial {p : Pattern} {t : MirType} (hd : depth p ≤ 2) (h : checkLet p t = []) : Matches p t := by
  cases p with
  | ident x => simp [Matches]
  | tuple ps =>
    cases t <;> simp only [checkLet, reduceCtorEq] at h
    rename_i ts
    simp only [Matches]
    rw [matchesAll_iff]
    simp only [List.append_eq_nil_iff, List.flatMap_eq_nil_iff] at h
    refine ⟨by by_contra hn; simp [hn] at h, fun q hq => (checkElement_iff ?_).1 (h.2 q hq)⟩
    have := mem_depths (List.of_mem_zip hq).1
    simp only [depth] at hd
    omega

/-- `(a, (b, (c, d)))` -/
def deep : Pattern := .tuple [.ident "a", .tuple [.ident "b", .tuple [.ident "c", .ident "d"]]]

/-- **C102 violated.** `let (a, (b, (c, d))) = e;` is accepted for a value of type `(felt, (felt, (felt, felt, felt)))`, and the last
element is dropped without notice. -/
theorem C102_violated_dropped : ∃ (p : Pattern) (t : MirType), checkLet p t = [] ∧ ¬ Matches p t ∧
    ∃ o, lowerPattern (fun _ => .Felt) (fun _ => some t) 5 p (.Operand 1) = some o ∧ o.bound.map Prod.fst = ["a", "b", "c", "d"] := by
  refine ⟨deep, .Tuple [.Felt, .Tuple [.Felt, .Tuple [.Felt, .Felt, .Felt]]], rfl, ?_, _, rfl, rfl⟩
  simp [deep, Matches, MatchesAll]

/-- **C102 violated.** The same pattern is accepted for a value of type `(felt, (felt, felt))`, and the lowering fails. -/
theorem C102_violated_lowering : ∃ (p : Pattern) (t : MirType), checkLet p t = [] ∧ ¬ Matches p t ∧
    ∀ (varTy : String → MirType) (next v : ℕ), lowerPattern varTy (fun _ => some t) next p (.Operand v) = none := by
  refine ⟨deep, .Tuple [.Felt, .Tuple [.Felt, .Felt]], rfl, ?_, fun _ _ _ => ?_⟩
  · simp [deep, Matches, MatchesAll]
  · rfl

/-! ### Examples -/

/-- `let (a, (b, c)) = e;` with `e = (1, (2, 3))`: the hypotheses of the theorems hold. -/
def pair : Pattern := .tuple [.ident "a", .tuple [.ident "b", .ident "c"]]
def pairTy : MirType := .Tuple [.Felt, .Tuple [.Felt, .Felt]]
def pairVal : AVal := .agg [.scalar (.felt 1), .agg [.scalar (.felt 2), .scalar (.felt 3)]]

example : depth pair ≤ 2 ∧ checkLet pair pairTy = [] ∧ checkLet pair (.Tuple [.Felt, .Felt]) = [.nestedNotTuple] ∧
    checkLet pair (.Tuple [.Felt]) = [.arity] ∧ checkLet pair .Felt = [.notTuple] := by
  refine ⟨by simp [pair, depth, depths], rfl, rfl, rfl, rfl⟩

example : Matches pair pairTy ∧ Fits pairTy pairVal ∧ ((bindings pair).map Prod.fst).Nodup ∧
    bindings pair = [("a", [0]), ("b", [1, 0]), ("c", [1, 1])] := by
  refine ⟨by simp [pair, pairTy, Matches, MatchesAll], by simp [pairTy, pairVal, Fits, FitsAll], ?_, ?_⟩ <;>
    simp [pair, bindings, elementBindings]

/-- After the `let`, `c` is 3 and `z` is as before. -/
example (vars : String → Option ValueId) (hvars : ∀ y v, vars y = some v → v < 5) :
    ∃ o, lowerPattern (fun _ => .Felt) (fun _ => some pairTy) 5 pair (.Operand 1) = some o ∧
      ∃ env', evalAs (fun _ => none) (fun _ _ => none) o.instrs (fun _ => some pairVal) = some env' ∧
        (after vars o.bound "c").bind env' = some (.scalar (.felt 3)) ∧
        (after vars o.bound "z").bind env' = (vars "z").bind fun _ => some pairVal := by
  obtain ⟨o, h⟩ := C102_lowered (varTy := fun _ => .Felt) (types := fun _ => some pairTy) (next := 5) (v := 1) (p := pair) (t := pairTy)
    (by simp [pair, pairTy, Matches, MatchesAll]) rfl
  refine ⟨o, h, ?_⟩
  obtain ⟨env', h1, h2, h3⟩ := C102_binds h (by simp [pair, bindings, elementBindings]) (vars := vars) (env := fun _ => some pairVal)
    (t := pairTy) (val := pairVal) hvars (fun v e => by cases e; exact ⟨by decide, rfl⟩) (fun x e => by cases e) rfl
    (by simp [pairTy, pairVal, Fits, FitsAll]) (fun _ => none) (fun _ _ => none)
  refine ⟨env', h1, ?_, h3 "z" (by simp [pair, bindings, elementBindings])⟩
  obtain ⟨y, h4, h5⟩ := h2 "c" [1, 1] (by simp [pair, bindings, elementBindings])
  rw [h5, ← h4]
  rfl

end PatternLet
end CairoM
