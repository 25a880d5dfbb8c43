import Verif.SourceSpec

/-!
# Evaluating both operands of `&&` and `||`

When it does not fault, it gives what evaluating the right operand only when needed gives.
-/

namespace CairoM
namespace Source

open Lang

variable {calls : Calls}

theorem decides_binop {op : BinOp} {x y z : Val} (hd : decides op x = true) (h : binop op x y = some z) : z = x := by
  cases op <;> cases x <;> simp only [decides, Bool.false_eq_true] at hd
  all_goals
    rename_i b
    cases b <;> simp only [Bool.false_eq_true] at hd
    cases y <;> simp [binop] at h
    exact h.symm

/-- What one table returns, the other returns too. -/
def Below (calls calls' : Calls) : Prop := ∀ c xs ys, calls c xs = some ys → calls' c xs = some ys

theorem Below.refl : Below calls calls := fun _ _ _ h => h

variable {calls' : Calls}

mutual
theorem eval_lazy (hle : Below calls calls') (st : Store) : ∀ (e : Expr) (v : Val), eval false calls st e = some v → eval true calls' st e = some v
  | .int _ _, _, h => by simpa only [eval] using h
  | .bool _, _, h => by simpa only [eval] using h
  | .var _, _, h => by simpa only [eval] using h
  | .un op e, v, h => by
    simp only [eval, Option.bind_eq_some_iff] at h ⊢
    obtain ⟨x, h1, h2⟩ := h
    exact ⟨x, eval_lazy hle st e x h1, h2⟩
  | .bin op l r, v, h => by
    simp only [eval, Option.bind_eq_some_iff, Bool.false_and, Bool.false_eq_true, if_false, Bool.true_and] at h ⊢
    obtain ⟨x, h1, y, h2, h3⟩ := h
    refine ⟨x, eval_lazy hle st l x h1, ?_⟩
    split_ifs with hd
    · rw [decides_binop hd h3]
    · rw [eval_lazy hle st r y h2]; exact h3
  | .call f args, v, h => by
    simp only [eval, Option.bind_eq_some_iff] at h ⊢
    obtain ⟨xs, h1, ys, h2, h3⟩ := h
    exact ⟨xs, evalArgs_lazy hle st args xs h1, ys, hle _ _ _ h2, h3⟩
  | .cast e t, v, h => by
    simp only [eval, Option.bind_eq_some_iff] at h ⊢
    obtain ⟨x, h1, h2⟩ := h
    exact ⟨x, eval_lazy hle st e x h1, h2⟩
theorem evalArgs_lazy (hle : Below calls calls') (st : Store) : ∀ (es : List Expr) (vs : List Val), evalArgs false calls st es = some vs →
    evalArgs true calls' st es = some vs
  | [], _, h => by simpa only [evalArgs] using h
  | e :: es, v, h => by
    simp only [evalArgs, Option.bind_eq_some_iff, Option.map_eq_some_iff] at h ⊢
    obtain ⟨x, h1, xs, h2, h3⟩ := h
    exact ⟨x, eval_lazy hle st e x h1, xs, evalArgs_lazy hle st es xs h2, h3⟩
end

theorem execList_lazy {ex ex' : Stmt → Store → Outcome} (h : ∀ s st, ex s st = .fault ∨ ex' s st = ex s st) :
    ∀ (ss : List Stmt) (st : Store), execList ex ss st = .fault ∨ execList ex' ss st = execList ex ss st
  | [], st => .inr rfl
  | s :: ss, st => by
    simp only [execList]
    rcases h s st with h1 | h1
    · left; rw [h1]
    · rw [h1]
      cases hx : ex s st <;> first | exact .inr rfl | exact execList_lazy h ss _

theorem forLoop_lazy {c c' : Store → Option Val} {b b' s s' : Store → Outcome}
    (hc : ∀ st, c st = none ∨ c' st = c st) (hb : ∀ st, b st = .fault ∨ b' st = b st)
    (hs : ∀ st, s st = .fault ∨ s' st = s st) :
    ∀ (n : ℕ) (st : Store), exec.forLoop c b s n st = .fault ∨ exec.forLoop c' b' s' n st = exec.forLoop c b s n st
  | 0, st => .inr (by simp only [exec.forLoop])
  | n + 1, st => by
    have tail : ∀ st', (match s st' with
          | .normal st'' => exec.forLoop c b s n st''
          | o => o) = .fault ∨ (match s' st' with
          | .normal st'' => exec.forLoop c' b' s' n st''
          | o => o) = (match s st' with
          | .normal st'' => exec.forLoop c b s n st''
          | o => o) := by
      intro st'
      rcases hs st' with h | h
      · left; rw [h]
      · rw [h]
        cases s st' <;> first | exact .inr rfl | exact forLoop_lazy hc hb hs n _
    simp only [exec.forLoop]
    rcases hc st with h | h
    · left; rw [h]
    · rw [h]
      rcases c st with _ | (_ | _ | (_ | _) | _) <;> try exact .inr rfl
      rcases hb st with h | h
      · left; simp only [h]
      · simp only [h]
        cases b st <;> first | exact .inr rfl | exact tail _

theorem exec_lazy (hle : Below calls calls') : ∀ (n : ℕ) (s : Stmt) (st : Store), exec false calls n s st = .fault ∨
    exec true calls' n s st = exec false calls n s st
  | 0, s, st => .inr (by simp only [exec])
  | n + 1, s, st => by
    have ev : ∀ st e, eval false calls st e = none ∨ eval true calls' st e = eval false calls st e := by
      intro st e
      cases h : eval false calls st e with
      | none => exact .inl rfl
      | some v => exact .inr (eval_lazy hle st e v h)
    cases s with
    | letS x e | assign x e | retE e | expr e | assert e =>
      simp only [exec]
      rcases ev st e with h | h
      · left; rw [h]
      · right; rw [h]
    | ret | «break» | «continue» => right; simp only [exec]
    | call f args =>
      simp only [exec]
      cases h : evalArgs false calls st args with
      | none => left; rfl
      | some vs =>
        rw [evalArgs_lazy hle st args vs h]
        simp only [Option.bind_some]
        cases hc : calls f vs with
        | none => left; rfl
        | some ys => right; rw [hle _ _ _ hc]
    | ifThen c t =>
      simp only [exec]
      rcases ev st c with h | h
      · left; rw [h]
      · rw [h]
        rcases eval false calls st c with _ | (_ | _ | (_ | _) | _) <;>
          first | exact .inr rfl | exact exec_lazy hle n t st
    | ifElse c t e =>
      simp only [exec]
      rcases ev st c with h | h
      · left; rw [h]
      · rw [h]
        rcases eval false calls st c with _ | (_ | _ | (_ | _) | _) <;>
          first | exact .inr rfl | exact exec_lazy hle n t st | exact exec_lazy hle n e st
    | block ss => simp only [exec]; exact execList_lazy (exec_lazy hle n) ss st
    | «while» c body =>
      simp only [exec]
      rcases ev st c with h | h
      · left; rw [h]
      · rw [h]
        rcases eval false calls st c with _ | (_ | _ | (_ | _) | _) <;> try exact .inr rfl
        rcases exec_lazy hle n body st with h | h
        · left; simp only [h]
        · simp only [h]
          cases exec false calls n body st <;> first | exact .inr rfl | exact exec_lazy hle n (.while c body) _
    | loop body =>
      simp only [exec]
      rcases exec_lazy hle n body st with h | h
      · left; simp only [h]
      · simp only [h]
        cases exec false calls n body st <;> first | exact .inr rfl | exact exec_lazy hle n (.loop body) _
    | «for» init c step body =>
      simp only [exec]
      rcases exec_lazy hle n init st with h | h
      · left; rw [h]
      · rw [h]
        cases exec false calls n init st <;>
          first
            | exact .inr rfl
            | exact forLoop_lazy (fun st => ev st c) (exec_lazy hle n body) (exec_lazy hle n step) n _

/-- A result obtained by evaluating both operands is the one obtained by evaluating the right one when needed. -/
theorem run_lazy (hle : Below calls calls') {f : Fn} {n : ℕ} {args : List Val} {vs : List Val} (h : run false calls f n args = .returned vs) :
    run true calls' f n args = .returned vs := by
  simp only [run] at h ⊢
  cases hb : bindParams (fun _ => none) f.params args with
  | none => rw [hb] at h; simp at h
  | some st =>
    rw [hb] at h
    simp only at h ⊢
    rcases exec_lazy hle n (.block f.body) st with hx | hx
    · rw [hx] at h; simp at h
    · rw [hx]; exact h

end Source
end CairoM
