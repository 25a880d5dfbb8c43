import Verif.PatternLetSpec
import Verif.ComponentAssignLemmas

/-!
# Lemmas on `let` with a pattern
-/

namespace CairoM
namespace PatternLet

open Mir Syntax Agg ComponentAssign

/-- The names bound so far have the values of the components. -/
def Bound (limit : ℕ) (env : AEnv) (val : AVal) (bs : List (String × ValueId)) (qs : List (String × List ℕ)) : Prop :=
  List.Forall₂ (fun b q => b.1 = q.1 ∧ b.2 < limit ∧ ∃ y, get q.2 val = some y ∧ env b.2 = some y) bs qs

theorem FitsAll.get : ∀ {ts : List MirType} {xs : List AVal} {i : ℕ} {t : MirType}, FitsAll ts xs → ts[i]? = some t →
    ∃ x, xs[i]? = some x ∧ Fits t x
  | [], _, _, _, _, h => by simp at h
  | _ :: _, [], _, _, h, _ => by simp [FitsAll] at h
  | t :: ts, x :: xs, 0, u, h, e => by
    simp only [List.getElem?_cons_zero, Option.some.injEq] at e
    subst e
    exact ⟨x, rfl, h.1⟩
  | t :: ts, x :: xs, i + 1, u, h, e => by
    simpa using FitsAll.get h.2 (by simpa using e)

theorem Bound.mono {l l' : ℕ} {env env' : AEnv} {val : AVal} {bs : List (String × ValueId)} {qs : List (String × List ℕ)}
    (h : Bound l env val bs qs) (hl : l ≤ l') (he : ∀ w, w < l → env' w = env w) : Bound l' env' val bs qs := by
  refine List.Forall₂.imp ?_ h
  rintro b q ⟨h1, h2, y, h3, h4⟩
  exact ⟨h1, by omega, y, h3, by rw [he _ h2, h4]⟩

theorem Bound.inner {l : ℕ} {env : AEnv} {xs : List AVal} {x : AVal} {i : ℕ} {bs : List (String × ValueId)} {qs : List (String × List ℕ)}
    (hx : xs[i]? = some x) (h : Bound l env x bs qs) : Bound l env (.agg xs) bs (qs.map fun q => (q.1, i :: q.2)) := by
  rw [Bound, List.forall₂_map_right_iff]
  refine List.Forall₂.imp ?_ h
  rintro b q ⟨h1, h2, y, h3, h4⟩
  exact ⟨h1, h2, y, by simp [ComponentAssign.get, hx, h3], h4⟩

mutual
theorem typed_run {varTy : String → MirType} {T : ValueId → Option MirType} {calls : ACalls} : ∀ (p : Pattern) {next v : ℕ} {t : MirType} {o : Emitted}
    {env : AEnv} {val : AVal}, lowerTyped varTy next p (.Operand v) t = some o → v < next → env v = some val → Fits t val →
    ∃ env', evalAs T calls o.instrs env = some env' ∧ (∀ w, w < next → env' w = env w) ∧
      Bound (next + o.tys.length) env' val o.bound (bindings p)
  | .ident x, next, v, t, o, env, val, h, hv, he, _ => by
    simp only [lowerTyped, Option.some.injEq] at h
    subst h
    refine ⟨env, rfl, fun _ _ => rfl, ?_⟩
    simp only [Bound, bind1, bindVariable, bindings, Option.toList_some, List.forall₂_cons, List.Forall₂.nil, and_true]
    exact ⟨trivial, by simpa using hv, val, rfl, he⟩
  | .tuple ps, next, v, t, o, env, val, h, hv, he, hf => by
    cases t <;> simp only [lowerTyped, reduceCtorEq] at h
    rename_i ts
    cases val with
    | scalar x => simp [Fits] at hf
    | agg xs =>
      simp only [bindings]
      exact elements_run ps h hv he (by simpa [Fits] using hf)
theorem elements_run {varTy : String → MirType} {T : ValueId → Option MirType} {calls : ACalls} : ∀ (ps : List Pattern) {next v i : ℕ}
    {ts : List MirType} {o : Emitted} {env : AEnv} {xs : List AVal}, lowerElements varTy next ps v ts i = some o → v < next →
    env v = some (.agg xs) → FitsAll ts xs →
    ∃ env', evalAs T calls o.instrs env = some env' ∧ (∀ w, w < next → env' w = env w) ∧
      Bound (next + o.tys.length) env' (.agg xs) o.bound (elementBindings ps i)
  | [], next, v, i, ts, o, env, xs, h, _, _, _ => by
    simp only [lowerElements, Option.some.injEq] at h
    subst h
    exact ⟨env, rfl, fun _ _ => rfl, .nil⟩
  | p :: ps, next, v, i, ts, o, env, xs, h, hv, he, hf => by
    simp only [lowerElements, Option.bind_eq_some_iff, Option.map_eq_some_iff] at h
    obtain ⟨t, h1, o1, h2, o2, h3, rfl⟩ := h
    obtain ⟨x, hx, hfx⟩ := hf.get h1
    obtain ⟨env1, a1, a2, a3⟩ := typed_run (T := T) (calls := calls) p (env := Function.update env next (some x)) (val := x) h2
      (Nat.lt_succ_self _) (by simp) hfx
    have hv1 : env1 v = some (.agg xs) := by
      rw [a2 v (by omega), Function.update_of_ne (Nat.ne_of_lt hv), he]
    obtain ⟨env2, b1, b2, b3⟩ := elements_run (T := T) (calls := calls) ps h3 (by omega) hv1 hf
    refine ⟨env2, ?_, fun w hw => ?_, ?_⟩
    · simp only [evalAs, evalA, elements, he, Option.bind_some, hx, Option.map_some, evalAs_append, a1, b1]
    · rw [b2 w (by omega), a2 w (by omega), Function.update_of_ne (Nat.ne_of_lt hw)]
    · simp only [elementBindings]
      have hl : next + (t :: (o1.tys ++ o2.tys)).length = next + 1 + o1.tys.length + o2.tys.length := by
        simp only [List.length_cons, List.length_append]; omega
      rw [hl]
      exact List.rel_append ((a3.mono (l' := next + 1 + o1.tys.length + o2.tys.length) (by omega) b2).inner hx) b3
end

/-- A name that is bound once stands for its binding. -/
theorem after_mem {P : String × ValueId → String × List ℕ → Prop} (hP : ∀ b q, P b q → b.1 = q.1) {vars : String → Option ValueId} :
    ∀ {bs : List (String × ValueId)} {qs : List (String × List ℕ)}, List.Forall₂ P bs qs → (qs.map Prod.fst).Nodup →
    ∀ {q}, q ∈ qs → ∃ b, P b q ∧ after vars bs q.1 = some b.2 := by
  have key : ∀ {bs : List (String × ValueId)} {qs : List (String × List ℕ)}, List.Forall₂ P bs qs → ∀ (y : String) (a : Option ValueId),
      y ∉ qs.map Prod.fst → bs.foldl (fun acc b => if y = b.1 then some b.2 else acc) a = a := by
    intro bs qs h
    induction h with
    | nil => intro _ _ _; rfl
    | cons hb _ ih =>
      intro y a hy
      simp only [List.map_cons, List.mem_cons, not_or] at hy
      rw [List.foldl_cons, if_neg (by rw [hP _ _ hb]; exact hy.1), ih y a hy.2]
  intro bs qs h
  unfold after
  generalize hv : vars = vs
  clear hv
  suffices H : ∀ a : String → Option ValueId, (qs.map Prod.fst).Nodup → ∀ {q}, q ∈ qs →
      ∃ b, P b q ∧ bs.foldl (fun acc b => if q.1 = b.1 then some b.2 else acc) (a q.1) = some b.2 from fun hn _ hq => H vs hn hq
  intro a hn
  induction h generalizing a with
  | nil => intro q hq; simp at hq
  | cons hb hrest ih =>
    rename_i b q bs qs
    intro q' hq'
    simp only [List.map_cons, List.nodup_cons] at hn
    rcases List.mem_cons.1 hq' with rfl | hq'
    · refine ⟨b, hb, ?_⟩
      rw [List.foldl_cons, if_pos (hP _ _ hb).symm]
      exact key hrest _ _ hn.1
    · have hne : q'.1 ≠ b.1 := by
        rw [hP _ _ hb]
        intro e
        exact hn.1 (by rw [← e]; exact List.mem_map_of_mem hq')
      obtain ⟨c, h1, h2⟩ := ih a hn.2 hq'
      exact ⟨c, h1, by rw [List.foldl_cons, if_neg hne]; exact h2⟩

theorem after_other {P : String × ValueId → String × List ℕ → Prop} (hP : ∀ b q, P b q → b.1 = q.1) {vars : String → Option ValueId}
    {bs : List (String × ValueId)} {qs : List (String × List ℕ)} (h : List.Forall₂ P bs qs) {y : String} (hy : y ∉ qs.map Prod.fst) :
    after vars bs y = vars y := by
  unfold after
  generalize vars y = a
  induction h generalizing a with
  | nil => rfl
  | cons hb _ ih =>
    simp only [List.map_cons, List.mem_cons, not_or] at hy
    rw [List.foldl_cons, if_neg (by rw [hP _ _ hb]; exact hy.1), ih hy.2]

/-! ### The check -/

theorem MatchesAll.length : ∀ {ps : List Pattern} {ts : List MirType}, MatchesAll ps ts → ts.length = ps.length
  | [], [], _ => rfl
  | [], _ :: _, h | _ :: _, [], h => by simp [MatchesAll] at h
  | _ :: _, _ :: _, h => by simp [MatchesAll.length h.2]

theorem matchesAll_iff : ∀ (ps : List Pattern) (ts : List MirType), MatchesAll ps ts ↔
    ts.length = ps.length ∧ ∀ q ∈ ps.zip ts, Matches q.1 q.2
  | [], [] => by simp [MatchesAll]
  | [], _ :: _ | _ :: _, [] => by simp [MatchesAll]
  | p :: ps, t :: ts => by simp [MatchesAll, matchesAll_iff ps ts]; tauto

theorem mem_depths : ∀ {ps : List Pattern} {p : Pattern}, p ∈ ps → depth p ≤ depths ps
  | p :: ps, q, h => by
    simp only [depths]
    rcases List.mem_cons.1 h with rfl | h
    · omega
    · have := mem_depths h; omega

/-- Patterns that are names match everything. -/
theorem matches_flat {p : Pattern} (h : depth p = 0) (t : MirType) : Matches p t := by
  cases p with
  | ident x => simp [Matches]
  | tuple ps => simp [depth] at h

theorem checkElement_iff {p : Pattern} {t : MirType} (h : depth p ≤ 1) : checkElement (p, t) = [] ↔ Matches p t := by
  cases p with
  | ident x => simp [checkElement, Matches]
  | tuple ps =>
    simp only [depth] at h
    cases t <;> simp only [checkElement, Matches, reduceCtorEq]
    rename_i ts
    rw [matchesAll_iff]
    constructor
    · intro hc
      refine ⟨by by_contra hn; simp [hn] at hc, fun q hq => matches_flat ?_ _⟩
      have := mem_depths (List.of_mem_zip hq).1
      omega
    · rintro ⟨hl, -⟩
      simp [hl]

theorem Matches.element {p : Pattern} {t : MirType} (h : Matches p t) : checkElement (p, t) = [] := by
  cases p with
  | ident x => simp [checkElement]
  | tuple ps =>
    cases t <;> simp only [Matches] at h
    simp [checkElement, h.length]

mutual
theorem lowerTyped_some {varTy : String → MirType} : ∀ (p : Pattern) {next v : ℕ} {t : MirType}, Matches p t →
    ∃ o, lowerTyped varTy next p (.Operand v) t = some o
  | .ident x, _, _, _, _ => ⟨_, by simp only [lowerTyped]; rfl⟩
  | .tuple ps, next, v, t, h => by
    cases t <;> simp only [Matches] at h
    rename_i ts
    simp only [lowerTyped]
    exact lowerElements_some ps [] (by simpa using h)
theorem lowerElements_some {varTy : String → MirType} : ∀ (ps : List Pattern) {next v : ℕ} (pre : List MirType) {ts : List MirType},
    MatchesAll ps ts → ∃ o, lowerElements varTy next ps v (pre ++ ts) pre.length = some o
  | [], _, _, _, _, _ => ⟨_, by simp only [lowerElements]; rfl⟩
  | _ :: _, _, _, _, [], h => by simp [MatchesAll] at h
  | p :: ps, next, v, pre, t :: ts, h => by
    obtain ⟨o1, h1⟩ := lowerTyped_some (varTy := varTy) p (next := next + 1) (v := next) h.1
    obtain ⟨o2, h2⟩ := lowerElements_some (varTy := varTy) ps (next := next + 1 + o1.tys.length) (v := v) (pre ++ [t]) h.2
    simp only [List.append_assoc, List.cons_append, List.nil_append, List.length_append, List.length_cons, List.length_nil] at h2
    exact ⟨_, by simp [lowerElements, h1, h2]; rfl⟩
end

end PatternLet
end CairoM
