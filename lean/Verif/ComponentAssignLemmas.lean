import Verif.ComponentAssignSpec

/-!
# Lemmas on assignments to components
-/

namespace CairoM
namespace ComponentAssign

open Mir Syntax Agg

theorem get_append (p q : List ℕ) (v : AVal) : get (p ++ q) v = (get p v).bind (get q) := by
  induction p generalizing v with
  | nil => simp [get]
  | cons i p ih =>
    cases v with
    | scalar x => simp [get]
    | agg xs =>
      simp only [List.cons_append, get]
      cases xs[i]? with
      | none => rfl
      | some x => simp [ih]

/-- The last part of a path. -/
theorem get_last {p : List ℕ} {j : ℕ} {v y : AVal} (h : get (p ++ [j]) v = some y) :
    ∃ xs, get p v = some (.agg xs) ∧ xs[j]? = some y := by
  rw [get_append] at h
  cases hp : get p v with
  | none => simp [hp] at h
  | some w =>
    cases w with
    | scalar x => simp [hp, get] at h
    | agg xs =>
      refine ⟨xs, rfl, ?_⟩
      cases hx : xs[j]? with
      | none => simp [hp, get, hx] at h
      | some x => simpa [hp, get, hx] using h

/-- Putting an aggregate with one element replaced is putting the element. -/
theorem Updated.inner {old new r : AVal} {p : List ℕ} {j : ℕ} {xs : List AVal} (hg : get p old = some (.agg xs))
    (hj : j < xs.length) (h : Updated old p (.agg (xs.set j r)) new) : Updated old (p ++ [j]) r new := by
  constructor
  · rw [get_append, h.there]
    simp [get, hj]
  · intro q h1 h2
    by_cases hq : p <+: q
    · obtain ⟨t, rfl⟩ := hq
      cases t with
      | nil => exact absurd (by simp) h1
      | cons k t =>
        have hk : k ≠ j := by
          rintro rfl
          exact h2 ⟨t, by simp⟩
        rw [get_append, get_append, h.there, hg]
        simp only [Option.bind_some, get]
        rw [List.getElem?_set_ne (fun e => hk e.symm)]
    · exact h.elsewhere q (fun e => h1 (e.trans (List.prefix_append _ _))) hq

theorem Updated.self (old r : AVal) : Updated old [] r r :=
  ⟨rfl, fun _ _ h => absurd List.nil_prefix h⟩

/-- Steps that follow the types from `t` to `t'`, with the numbers of the components. -/
def Chain : MirType → List LhsStep → List ℕ → MirType → Prop
  | t, [], [], t' => t = t'
  | t, s :: ss, j :: p, t' => s.container = t ∧ component t s.sel = some (j, s.result) ∧ Chain s.result ss p t'
  | _, _, _, _ => False

theorem Chain.length : ∀ {t : MirType} {ss : List LhsStep} {p : List ℕ} {t' : MirType}, Chain t ss p t' → p.length = ss.length
  | _, [], [], _, _ => rfl
  | _, _ :: _, _ :: _, _, h => by simp [Chain.length h.2.2]

theorem Chain.snoc : ∀ {t : MirType} {ss : List LhsStep} {p : List ℕ} {t' : MirType} {s : LhsStep} {j : ℕ}, Chain t ss p t' →
    s.container = t' → component t' s.sel = some (j, s.result) → Chain t (ss ++ [s]) (p ++ [j]) s.result
  | _, [], [], _, _, _, h, h1, h2 => by
    cases h
    exact ⟨h1, h2, rfl⟩
  | _, _ :: _, _ :: _, _, _, _, h, h1, h2 => ⟨h.1, h.2.1, Chain.snoc h.2.2 h1 h2⟩

theorem Chain.unsnoc : ∀ {t : MirType} {ss : List LhsStep} {q : List ℕ} {t' : MirType} {s : LhsStep}, Chain t (ss ++ [s]) q t' →
    ∃ p j, q = p ++ [j] ∧ Chain t ss p s.container ∧ component s.container s.sel = some (j, s.result) ∧ t' = s.result
  | _, [], [], _, _, h => by simp [Chain] at h
  | _, [], [j], _, _, h => ⟨[], j, rfl, h.1.symm, by rw [h.1]; exact h.2.1, h.2.2.symm⟩
  | _, [], _ :: _ :: _, _, _, h => by simp [Chain] at h
  | _, _ :: _, [], _, _, h => by simp [Chain] at h
  | _, _ :: _, k :: _, _, _, h => by
    obtain ⟨p, j, rfl, h1, h2, h3⟩ := Chain.unsnoc h.2.2
    exact ⟨k :: p, j, rfl, ⟨h.1, h.2.1, h1⟩, h2, h3⟩

theorem evalA_extract {T : ValueId → Option MirType} {calls : ACalls} {s : LhsStep} {j : ℕ} {d v : ValueId} {env : AEnv}
    {xs : List AVal} {x : AVal} (hc : component s.container s.sel = some (j, s.result)) (hT : T v = some s.container)
    (he : env v = some (.agg xs)) (hx : xs[j]? = some x) :
    evalA T calls (extractInstr d (.Operand v) s) env = some (Function.update env d (some x)) := by
  obtain ⟨sel, c, r⟩ := s
  simp only at hc hT
  cases sel with
  | field f =>
    cases c <;> simp only [component, reduceCtorEq] at hc
    rename_i nm fs
    cases hi : fieldIndex (.Struct nm fs) f with
    | none => simp [hi] at hc
    | some i =>
      cases hf : fs[i]? with
      | none => simp [hi, hf] at hc
      | some p =>
        simp only [hi, hf, Option.bind_some, Option.map_some, Option.some.injEq, Prod.mk.injEq] at hc
        obtain ⟨rfl, rfl⟩ := hc
        simp [extractInstr, evalA, hT, hi, elements, he, hx]
  | tuple i =>
    cases c <;> simp only [component, reduceCtorEq] at hc
    rename_i ts
    cases hf : ts[i]? with
    | none => simp [hf] at hc
    | some p =>
      simp only [hf, Option.map_some, Option.some.injEq, Prod.mk.injEq] at hc
      obtain ⟨rfl, rfl⟩ := hc
      simp [extractInstr, evalA, elements, he, hx]

theorem evalA_insert {T : ValueId → Option MirType} {calls : ACalls} {s : LhsStep} {j : ℕ} {d v : ValueId} {u : Value} {env : AEnv}
    {xs : List AVal} {r : AVal} (hc : component s.container s.sel = some (j, s.result))
    (he : env v = some (.agg xs)) (hj : j < xs.length) (hu : readA env s.result u = some r) :
    evalA T calls (insertInstr d (.Operand v) s u) env = some (Function.update env d (some (.agg (xs.set j r)))) := by
  obtain ⟨sel, c, t⟩ := s
  simp only at hc hu
  cases sel with
  | field f =>
    cases c <;> simp only [component, reduceCtorEq] at hc
    rename_i nm fs
    cases hi : fieldIndex (.Struct nm fs) f with
    | none => simp [hi] at hc
    | some i =>
      cases hf : fs[i]? with
      | none => simp [hi, hf] at hc
      | some p =>
        simp only [hi, hf, Option.bind_some, Option.map_some, Option.some.injEq, Prod.mk.injEq] at hc
        obtain ⟨rfl, rfl⟩ := hc
        simp [insertInstr, evalA, hi, hf, elements, elementTys, he, hj, hu]
  | tuple i =>
    cases c <;> simp only [component, reduceCtorEq] at hc
    rename_i ts
    cases hf : ts[i]? with
    | none => simp [hf] at hc
    | some p =>
      simp only [hf, Option.map_some, Option.some.injEq, Prod.mk.injEq] at hc
      obtain ⟨rfl, rfl⟩ := hc
      simp [insertInstr, evalA, hf, elements, elementTys, he, hj, hu]

theorem evalAs_append (T : ValueId → Option MirType) (calls : ACalls) (is js : List Instr) (env : AEnv) :
    evalAs T calls (is ++ js) env = (evalAs T calls is env).bind (evalAs T calls js) := by
  induction is generalizing env with
  | nil => rfl
  | cons i is ih =>
    simp only [List.cons_append, evalAs]
    cases evalA T calls i env with
    | none => rfl
    | some e => simp [ih]

/-- The reads on the way to the target. -/
theorem extracts_run (T : ValueId → Option MirType) (calls : ACalls) : ∀ (ss : List LhsStep) {t t' : MirType} {p : List ℕ} {n v : ℕ}
    {env : AEnv} {val y : AVal}, Chain t ss p t' → v < n → T v = some t → (∀ i s, ss[i]? = some s → T (n + i) = some s.result) →
    env v = some val → get p val = some y →
    ∃ env', evalAs T calls (extracts ss n (.Operand v)) env = some env' ∧ (∀ w, w < n → env' w = env w) ∧
      ∀ i, i < ss.length → env' (n + i) = get (p.take (i + 1)) val
  | [], _, _, _, _, _, env, _, _, _, _, _, _, _, _ => ⟨env, rfl, fun _ _ => rfl, fun _ h => by simp at h⟩
  | s :: ss, t, t', [], _, _, _, _, _, h, _, _, _, _, _ => by simp [Chain] at h
  | s :: ss, t, t', j :: p, n, v, env, val, y, h, hv, hT, hTs, he, hg => by
    obtain ⟨h1, h2, h3⟩ := h
    cases val with
    | scalar x => simp [get] at hg
    | agg xs =>
      cases hx : xs[j]? with
      | none => simp [get, hx] at hg
      | some x =>
        simp only [get, hx, Option.bind_some] at hg
        have e1 := evalA_extract (T := T) (calls := calls) (d := n) (by rw [h1]; exact h2) (by rw [h1]; exact hT) he hx
        obtain ⟨env', a, b, c⟩ := extracts_run T calls ss (n := n + 1) (v := n) (env := Function.update env n (some x)) h3
          (by omega) (by simpa using hTs 0 s (by simp))
          (fun i s' hi => by
            have := hTs (i + 1) s' (by simpa using hi)
            rwa [show n + (i + 1) = n + 1 + i by omega] at this)
          (by simp) hg
        refine ⟨env', by simp [extracts, evalAs, e1, a], fun w hw => ?_, fun i hi => ?_⟩
        · rw [b w (by omega), Function.update_of_ne (Nat.ne_of_lt hw)]
        · cases i with
          | zero => rw [Nat.add_zero, b n (by omega)]; simp [get, hx]
          | succ i =>
            rw [show n + (i + 1) = n + 1 + i by omega, c i (by simpa using hi)]
            simp [get, hx]

/-- The rebuilding from the target to the base. -/
theorem rebuild_run (T : ValueId → Option MirType) (calls : ACalls) {t : MirType} {n b : ℕ} {val : AVal} (hb : b < n) (ss : List LhsStep) :
    ∀ {t' : MirType} {p : List ℕ} {next : ℕ} {u : Value} {r y : AVal} {env : AEnv}, Chain t ss p t' → n + ss.length ≤ next →
    env b = some val → (∀ i, i < ss.length → env (n + i) = get (p.take (i + 1)) val) → get p val = some y →
    (ss = [] → ∃ w, u = .Operand w) → readA env t' u = some r →
    ∃ env' w new, evalAs T calls (rebuild n (.Operand b) ss.zipIdx.reverse next u).1 env = some env' ∧
      (rebuild n (.Operand b) ss.zipIdx.reverse next u).2 = .Operand w ∧ env' w = some new ∧ Updated val p r new ∧
      ∀ v, v < next → env' v = env v := by
  induction ss using List.reverseRecOn with
  | nil =>
    intro t' p next u r y env hc _ _ _ _ hu hr
    obtain ⟨w, rfl⟩ := hu rfl
    cases p with
    | nil => exact ⟨env, w, r, rfl, rfl, hr, Updated.self val r, fun _ _ => rfl⟩
    | cons j p => simp [Chain] at hc
  | append_singleton ss s ih =>
    intro t' q next u r y env hc hn he hvs hg _ hr
    obtain ⟨p, j, rfl, h1, h2, rfl⟩ := hc.unsnoc
    have hlen := h1.length
    simp only [List.length_append, List.length_cons, List.length_nil] at hn hvs
    obtain ⟨xs, h3, h4⟩ := get_last hg
    have hj : j < xs.length := (List.getElem?_eq_some_iff.1 h4).1
    have htake : ∀ i, i < ss.length → (p ++ [j]).take (i + 1) = p.take (i + 1) := fun i hi => by
      rw [List.take_append_of_le_length (by omega)]
    -- the container
    obtain ⟨c, hcv, hce, hcn⟩ : ∃ c : ℕ, (if ss.length = 0 then Value.Operand b else .Operand (n + (ss.length - 1))) = .Operand c ∧
        env c = some (.agg xs) ∧ c < next := by
      by_cases h0 : ss.length = 0
      · refine ⟨b, by simp [h0], ?_, by omega⟩
        have : p = [] := List.length_eq_zero_iff.1 (by omega)
        subst this
        rw [he]; simpa [get] using h3
      · refine ⟨n + (ss.length - 1), by simp [h0], ?_, by omega⟩
        rw [hvs _ (by omega), htake _ (by omega), show ss.length - 1 + 1 = p.length by omega, List.take_length, h3]
    have e1 := evalA_insert (T := T) (calls := calls) (d := next) h2 hce hj hr
    obtain ⟨env', w, new, a1, a2, a3, a4, a5⟩ := ih (next := next + 1) (u := .Operand next) (r := .agg (xs.set j r))
      (env := Function.update env next (some (.agg (xs.set j r)))) h1 (by omega)
      (by rw [Function.update_of_ne (Nat.ne_of_lt (by omega)), he])
      (fun i hi => by rw [Function.update_of_ne (Nat.ne_of_lt (by omega)), hvs i (by omega), htake i hi])
      h3 (fun _ => ⟨next, rfl⟩) (by simp [readA])
    have hz : (ss ++ [s]).zipIdx.reverse = (s, ss.length) :: ss.zipIdx.reverse := by
      simp [List.zipIdx_append]
    refine ⟨env', w, new, ?_, ?_, a3, a4.inner h3 hj, fun v hv => ?_⟩
    · simp only [hz, rebuild, evalAs, hcv, e1, Option.bind_some]
      exact a1
    · simp only [hz, rebuild]
      exact a2
    · rw [a5 v (by omega), Function.update_of_ne (Nat.ne_of_lt hv)]

/-- The decomposition of a target. -/
theorem decompose_chain (ty : Expr → Option MirType) : ∀ (e : Expr) {x : String} {p : List ℕ} {t : MirType}, root e = some x →
    pathOf ty e = some p → exprTy ty e = some t →
    ∃ ss t0, decompose ty e = some (.ident x, ss) ∧ ty (.ident x) = some t0 ∧ Chain t0 ss p t
  | .ident y, x, p, t, h1, h2, h3 => by
    simp only [root, Option.some.injEq] at h1
    simp only [pathOf, Option.some.injEq] at h2
    subst h1 h2
    exact ⟨[], t, rfl, h3, rfl⟩
  | .paren e, x, p, t, h1, h2, h3 => by
    simpa [decompose] using decompose_chain ty e h1 h2 h3
  | .member o f, x, p, t, h1, h2, h3 => by
    simp only [pathOf] at h2
    simp only [exprTy] at h3
    cases hp : pathOf ty o with
    | none => simp [hp] at h2
    | some q =>
      cases ho : exprTy ty o with
      | none => simp [ho] at h3
      | some c =>
        cases hc : component c (.field f.toList) with
        | none => simp [ho, hc] at h3
        | some jt =>
          simp only [ho, hp, hc, Option.bind_some, Option.map_some, Option.some.injEq] at h2 h3
          obtain ⟨ss, t0, a, b, d⟩ := decompose_chain ty o h1 hp ho
          refine ⟨ss ++ [⟨.field f.toList, c, t⟩], t0, by simp [decompose, exprTy, a, ho, hc, h3], b, ?_⟩
          rw [← h2]
          exact d.snoc (s := ⟨.field f.toList, c, t⟩) rfl (by simp [hc, ← h3])
  | .tupleIndex o i, x, p, t, h1, h2, h3 => by
    simp only [pathOf] at h2
    simp only [exprTy] at h3
    cases hp : pathOf ty o with
    | none => simp [hp] at h2
    | some q =>
      cases ho : exprTy ty o with
      | none => simp [ho] at h3
      | some c =>
        cases hc : component c (.tuple i) with
        | none => simp [ho, hc] at h3
        | some jt =>
          simp only [ho, hp, hc, Option.bind_some, Option.map_some, Option.some.injEq] at h2 h3
          obtain ⟨ss, t0, a, b, d⟩ := decompose_chain ty o h1 hp ho
          refine ⟨ss ++ [⟨.tuple i, c, t⟩], t0, by simp [decompose, exprTy, a, ho, hc, h3], b, ?_⟩
          rw [← h2]
          exact d.snoc (s := ⟨.tuple i, c, t⟩) rfl (by simp [hc, ← h3])
  | .literal .., _, _, _, h, _, _ | .boolean .., _, _, _, h, _, _ | .unary .., _, _, _, h, _, _ | .binary .., _, _, _, h, _, _
  | .call .., _, _, _, h, _, _ | .index .., _, _, _, h, _, _ | .structLit .., _, _, _, h, _, _ | .tuple .., _, _, _, h, _, _
  | .array .., _, _, _, h, _, _ | .arrayRepeat .., _, _, _, h, _, _ | .cast .., _, _, _, h, _, _ | .new .., _, _, _, h, _, _ => by
    simp [root] at h

end ComponentAssign
end CairoM
