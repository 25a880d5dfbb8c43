import Verif.ConstInlineLemmas
import Verif.LoweringProps

/-!
# Constants keep the value of their definition (C95)
-/

namespace CairoM
namespace Source

open Lang Lower Mir

/-- **C95** (partial: the expressions of the constants mention constants only). A well-typed function whose constants
are names for the values at their definitions, and its lowering, which evaluates the expressions again at every use, end
with the same results: whenever the function has a result in the sense of the source language, the lowered function has
the same one. A constant that mentions a variable can change: `C95_violated`. -/
theorem C95_partial (o : Opts) (hord : ∀ l, (o.order l).Perm l) (S : Sem) (calls : Calls) (hc : CallsTyped S calls)
    (K : Consts) (hK : K.Closed S) (depth : ℕ) (f f' : Fn) (hok : f.ok S = true) (hdef : f.Defines K)
    (hexp : f.expand K depth = some f') (name : Name) (F : Function) (hlow : lowerFn o S name f' = some F)
    (hcl : closed F = true) (args : List Val) (hargs : args.map valTy = f.params.map S.varTy) (n : ℕ) (vs : List Val)
    (hrun : Source.run false calls f n args = .returned vs) :
    ∃ N, ∀ m, Lang.run calls F (m + N) args = .returned vs := by
  obtain ⟨hok', hp⟩ := fn_ok hK hexp hok
  have he := run_expand (lazy := false) (calls := calls) hK hdef hexp n args (by rw [hrun]; simp)
  rw [hrun] at he
  have := C72_lowering_partial o hord S calls hc f' hok' name F hlow hcl args (by rw [hp]; exact hargs) n
    (by rw [he]; simp)
  rwa [he] at this

/-- A function that does not end does not end when its constants are replaced. -/
theorem C95_unfinished_partial (o : Opts) (hord : ∀ l, (o.order l).Perm l) (S : Sem) (calls : Calls)
    (hc : CallsTyped S calls) (K : Consts) (hK : K.Closed S) (depth : ℕ) (f f' : Fn) (hok : f.ok S = true)
    (hdef : f.Defines K) (hexp : f.expand K depth = some f') (name : Name) (F : Function)
    (hlow : lowerFn o S name f' = some F) (hcl : closed F = true) (args : List Val)
    (hargs : args.map valTy = f.params.map S.varTy)
    (hrun : ∀ n, Source.run false calls f n args = .unfinished) :
    ∀ n, Lang.run calls F n args = .unfinished := by
  obtain ⟨hok', hp⟩ := fn_ok hK hexp hok
  refine (C72_lowering_iff_partial o hord S calls hc f' hok' name F hlow hcl args (by rw [hp]; exact hargs)).2.mp fun n => ?_
  rw [run_expand (lazy := false) (calls := calls) hK hdef hexp n args (by rw [hrun]; simp), hrun]

/-! ### Non-vacuity and counterexample -/

/-- `const A = 3; const B = A * A + double(A);` -/
def exConsts : Consts := fun x =>
  if x = 5 then some (.int 3 .felt)
  else if x = 6 then some (.bin .Add (.bin .Mul (.var 5) (.var 5)) (.call 0 [.var 5]))
  else none

/-- The constants are used in a loop and after it:
`fn f(a: felt) -> felt { const A = …; const B = …; let i = 0; while (i != A) { a = a + B; i = i + 1; } return a * B; }` -/
def constFn : Fn :=
  { params := [0], rets := [.felt]
    body := [
      .letS 5 (.int 3 .felt),
      .letS 6 (.bin .Add (.bin .Mul (.var 5) (.var 5)) (.call 0 [.var 5])),
      .letS 1 (.int 0 .felt),
      .while (.bin .Neq (.var 1) (.var 5)) (.block [
        .assign 0 (.bin .Add (.var 0) (.var 6)),
        .assign 1 (.bin .Add (.var 1) (.int 1 .felt))]),
      .retE (.bin .Mul (.var 0) (.var 6))] }

theorem exConsts_closed : exConsts.Closed exSem := by
  intro x c h
  unfold exConsts at h
  split_ifs at h with h5 h6
  · cases h; subst h5; decide +kernel
  · cases h; subst h6; decide +kernel

/-- The hypotheses of `C95_partial` are met, and the function returns `(1 + 3·15)·15`. -/
example : exConsts.Closed exSem ∧ constFn.ok exSem = true ∧ constFn.Defines exConsts ∧
    Source.run false exCalls constFn 20 [.felt 1] = .returned [.felt 690] ∧
    ((constFn.expand exConsts 2).bind (lowerFn exOpts exSem [])).map closed = some true := by
  refine ⟨exConsts_closed, by decide +kernel, ?_, by decide +kernel, by decide +kernel⟩
  refine ⟨by simp [constFn, exConsts], ?_⟩
  simp [constFn, Stmt.DefinesAll, Stmt.Defines, exConsts]

/-- `const C = x + 1;` for a variable `x`. -/
def varConst : Consts := fun x => if x = 5 then some (.bin .Add (.var 1) (.int 1 .felt)) else none

/-- `fn f(a: felt) -> felt { let x = a; const C = x + 1; x = 100; return C; }` -/
def varConstFn : Fn :=
  { params := [0], rets := [.felt]
    body := [
      .letS 1 (.var 0),
      .letS 5 (.bin .Add (.var 1) (.int 1 .felt)),
      .assign 1 (.int 100 .felt),
      .retE (.var 5)] }

/-- **C95 violated**: no check restricts the expression of a local constant, and it is evaluated where the constant is
used. After the assignment, `C` is 101 instead of 8. -/
theorem C95_violated : varConstFn.ok exSem = true ∧ varConstFn.Defines varConst ∧
    Source.run false exCalls varConstFn 10 [.felt 7] = .returned [.felt 8] ∧
    ∃ f' F, varConstFn.expand varConst 1 = some f' ∧ lowerFn exOpts exSem [] f' = some F ∧ closed F = true ∧
      ∀ m, Lang.run exCalls F (10 + m) [.felt 7] = .returned [.felt 101] := by
  refine ⟨by decide +kernel, ⟨by simp [varConstFn, varConst], by simp [varConstFn, Stmt.DefinesAll, Stmt.Defines, varConst]⟩,
    by decide +kernel, ?_⟩
  have h : ((varConstFn.expand varConst 1).bind fun f' => (lowerFn exOpts exSem [] f').map fun F =>
      (closed F, Lang.run exCalls F 10 [.felt 7])) = some (true, .returned [.felt 101]) := by decide +kernel
  simp only [Option.bind_eq_some_iff, Option.map_eq_some_iff, Prod.mk.injEq] at h
  obtain ⟨f', h1, F, h2, h3, h4⟩ := h
  exact ⟨f', F, h1, h2, h3, run_fixed h4 (by simp)⟩

end Source
end CairoM
