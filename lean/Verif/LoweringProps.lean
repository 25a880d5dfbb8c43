import Verif.LoweringFinal
import Verif.SourceLemmas

/-!
# C72: a lowered function computes what the source function means

The specification is the interpreter of the source language in `SourceSpec.lean` and the meaning of the mid-level
representation in `MirSem.lean`. The lowered function is the one before the optimization passes.

The full property, for every well-typed function, is false: see `C72_violated_copy`, `C72_violated_break` and
`C72_violated_eager` below. What is proved is the property for the functions whose lowering leaves no undefined
name behind (`closed`, a check of the result of the lowering), with both operands of `&&` and `||` evaluated.
-/

namespace CairoM
namespace Lower

open Mir Lang Source

/-- A well-typed source function and its lowering have the same result on all arguments of the right types,
whatever the callees compute, whenever the source function ends, normally or with a fault, and the lowering left no
undefined name. The incomplete phi nodes may be completed in any order. -/
theorem C72_lowering_partial (o : Opts) (hord : ∀ l, (o.order l).Perm l) (S : Sem) (calls : Calls)
    (hc : CallsTyped S calls) (f : Fn) (hok : f.ok S = true) (name : Name) (F : Function)
    (hlow : lowerFn o S name f = some F) (hcl : closed F = true)
    (args : List Val) (hargs : args.map valTy = f.params.map S.varTy) (n : ℕ)
    (hfin : Source.run false calls f n args ≠ .unfinished) :
    ∃ N, ∀ m, Lang.run calls F (m + N) args = Source.run false calls f n args :=
  let ⟨_, h⟩ := lowerFn_run hord hc hok hlow hcl hargs
  (h n).1 hfin

/-- A well-typed source function and its lowering end with the same results, and one runs forever exactly when the
other does. -/
theorem C72_lowering_iff_partial (o : Opts) (hord : ∀ l, (o.order l).Perm l) (S : Sem) (calls : Calls)
    (hc : CallsTyped S calls) (f : Fn) (hok : f.ok S = true) (name : Name) (F : Function)
    (hlow : lowerFn o S name f = some F) (hcl : closed F = true)
    (args : List Val) (hargs : args.map valTy = f.params.map S.varTy) :
    (∀ r, r ≠ .unfinished →
      ((∃ n, Source.run false calls f n args = r) ↔ ∃ n, Lang.run calls F n args = r)) ∧
    ((∀ n, Source.run false calls f n args = .unfinished) ↔ ∀ n, Lang.run calls F n args = .unfinished) := by
  obtain ⟨d, h⟩ := lowerFn_run hord hc hok hlow hcl hargs
  refine ⟨fun r hr => ⟨?_, ?_⟩, fun hu n => (h (n + d)).2 (hu _) n le_rfl, fun hu n => ?_⟩
  · rintro ⟨n, rfl⟩
    obtain ⟨N, hN⟩ := (h n).1 hr
    exact ⟨0 + N, hN 0⟩
  · rintro ⟨n, rfl⟩
    by_cases hx : Source.run false calls f (n + d) args = .unfinished
    · exact absurd ((h _).2 hx n le_rfl) hr
    · obtain ⟨N, hN⟩ := (h _).1 hx
      refine ⟨n + d, ?_⟩
      rw [← hN n, run_more hr]
  · by_contra hx
    obtain ⟨N, hN⟩ := (h n).1 hx
    exact hx ((hN 0).symm.trans (hu _))

/-- When evaluating both operands of `&&` and `||` does not fault, the lowered function returns what the source
function returns when the right operand is evaluated only if the left one does not decide. -/
theorem C72_lowering_lazy_partial (o : Opts) (hord : ∀ l, (o.order l).Perm l) (S : Sem) (calls : Calls)
    (hc : CallsTyped S calls) (f : Fn) (hok : f.ok S = true) (name : Name) (F : Function)
    (hlow : lowerFn o S name f = some F) (hcl : closed F = true)
    (args : List Val) (hargs : args.map valTy = f.params.map S.varTy) (n : ℕ) (vs : List Val)
    (heager : Source.run false calls f n args = .returned vs) :
    Source.run true calls f n args = .returned vs ∧ ∃ N, ∀ m, Lang.run calls F (m + N) args = .returned vs := by
  refine ⟨run_lazy Below.refl heager, ?_⟩
  have := C72_lowering_partial o hord S calls hc f hok name F hlow hcl args hargs n (by rw [heager]; simp)
  rwa [heager] at this

/-! ### A function that meets the hypotheses -/

/-- Variables 0 to 9 are felts, the others `u32`; function 0 takes a felt and returns a felt. -/
def exSem : Sem :=
  { varTy := fun x => if x < 10 then .felt else .u32, sig := fun f => if f = 0 then some ([.felt], [.felt]) else none }

def exOpts : Opts := ⟨20, id⟩

/-- Function 0 doubles its argument. -/
def exCalls : Calls := fun f xs =>
  match f, xs with
  | 0, [.felt x] => some [.felt (x + x)]
  | _, _ => none

theorem exCalls_typed : CallsTyped exSem exCalls := by
  intro f ps rs xs ys hs hx h
  simp only [exSem] at hs
  split_ifs at hs with hf
  subst hf
  simp only [Option.some.injEq, Prod.mk.injEq] at hs
  obtain ⟨rfl, rfl⟩ := hs
  unfold exCalls at h
  split at h
  · simp only [Option.some.injEq] at h
    subst h; rfl
  · simp at h

/-- Nested loops, conditionals, a call, `break`, `continue` and `return` in a loop:
```
fn f(a: felt, n: u32) -> felt {
    let s = 0;
    for (let i = 0u32; i < n; i = i + 1) {
        if (i == 2) { continue; }
        s = double(s) + a;
        let j = i + 0;
        while (j > 0) { j = j - 1; s = s + 1; }
        if (s == 1000) { return a; } else { }
        if (i == 7) { s = s + 1; break; }
    }
    assert!(n == n);
    return s;
}
``` -/
def exFn : Fn :=
  { params := [0, 10], rets := [.felt]
    body := [
      .letS 1 (.int 0 .felt),
      .for (.letS 11 (.int 0 .u32)) (.bin .Less (.var 11) (.var 10)) (.assign 11 (.bin .Add (.var 11) (.int 1 .u32)))
        (.block [
          .ifThen (.bin .Eq (.var 11) (.int 2 .u32)) (.block [.continue]),
          .assign 1 (.bin .Add (.call 0 [.var 1]) (.var 0)),
          .letS 12 (.bin .Add (.var 11) (.int 0 .u32)),
          .while (.bin .Greater (.var 12) (.int 0 .u32)) (.block [
            .assign 12 (.bin .Sub (.var 12) (.int 1 .u32)),
            .assign 1 (.bin .Add (.var 1) (.int 1 .felt))]),
          .ifElse (.bin .Eq (.var 1) (.int 1000 .felt)) (.block [.retE (.var 0)]) (.block []),
          .ifThen (.bin .Eq (.var 11) (.int 7 .u32)) (.block [
            .assign 1 (.bin .Add (.var 1) (.int 1 .felt)), .break])]),
      .assert (.bin .Eq (.int 3 .u32) (.int 3 .u32)),
      .retE (.var 1)] }

example : exFn.ok exSem = true ∧ ((lowerFn exOpts exSem [] exFn).map closed) = some true := by decide +kernel

/-- The arguments, the end of the source function, and its result. -/
example : ([.felt 3, .u32 5] : List Val).map valTy = exFn.params.map exSem.varTy ∧
    Source.run false exCalls exFn 40 [.felt 3, .u32 5] = .returned [.felt 59] := by decide +kernel

/-- What the theorem says here. -/
example : ∃ F, lowerFn exOpts exSem [] exFn = some F ∧
    ∃ N, ∀ m, Lang.run exCalls F (m + N) [.felt 3, .u32 5] = .returned [.felt 59] := by
  have h : ((lowerFn exOpts exSem [] exFn).map closed) = some true := by decide +kernel
  simp only [Option.map_eq_some_iff] at h
  obtain ⟨F, hF, hcl⟩ := h
  have hr : Source.run false exCalls exFn 40 [.felt 3, .u32 5] = .returned [.felt 59] := by decide +kernel
  have := C72_lowering_partial exOpts (fun l => List.Perm.refl l) exSem exCalls exCalls_typed exFn
    (by decide +kernel) [] F hF hcl [.felt 3, .u32 5] (by decide +kernel) 40 (by rw [hr]; simp)
  rw [hr] at this
  exact ⟨F, hF, this⟩

/-- `fn f(a: felt) -> felt { let i = 0; while (i == 0) { i = a + 0; } return i; }` -/
def spinFn : Fn :=
  { params := [0], rets := [.felt]
    body := [
      .letS 1 (.int 0 .felt),
      .while (.bin .Eq (.var 1) (.int 0 .felt)) (.block [.assign 1 (.bin .Add (.var 0) (.int 0 .felt))]),
      .retE (.var 1)] }

/-- A source function that ends on one argument and not on another, and so does its lowering. -/
example : ∃ F, lowerFn exOpts exSem [] spinFn = some F ∧ (∃ n, Lang.run exCalls F n [.felt 3] = .returned [.felt 3]) ∧
    ∀ n, Lang.run exCalls F n [.felt 0] = .unfinished := by
  have h : ((lowerFn exOpts exSem [] spinFn).map closed) = some true := by decide +kernel
  simp only [Option.map_eq_some_iff] at h
  obtain ⟨F, hF, hcl⟩ := h
  have key := fun a => C72_lowering_iff_partial exOpts (fun l => List.Perm.refl l) exSem exCalls exCalls_typed spinFn
    (by decide +kernel) [] F hF hcl [.felt a] rfl
  refine ⟨F, hF, ((key 3).1 _ (by simp)).1 ⟨10, by decide +kernel⟩, (key 0).2.1 ?_⟩
  have hw : ∀ n (s : Store), s 0 = some (.felt 0) → s 1 = some (.felt 0) → Source.exec false exCalls n
      (.while (.bin .Eq (.var 1) (.int 0 .felt)) (.block [.assign 1 (.bin .Add (.var 0) (.int 0 .felt))])) s =
        .timeout := by
    have hE : (integer 0 .felt).bind (binop .Eq (.felt 0)) = some (.bool true) := by decide +kernel
    have hA : (integer 0 .felt).bind (binop .Add (.felt 0)) = some (.felt 0) := by decide +kernel
    intro n
    induction n with
    | zero => simp [Source.exec]
    | succ n ih =>
      intro s h0 h1
      match n, ih with
      | 0, _ => simp [Source.exec, eval, h1, hE]
      | 1, _ => simp [Source.exec, eval, h1, hE, execList]
      | n + 2, ih =>
        have := ih (Function.update s 1 (some (.felt 0))) (by simp [h0]) (by simp)
        rw [Source.exec]
        simp only [eval, h1, Option.bind_some, Bool.false_and, Bool.false_eq_true, if_false, hE]
        rw [Source.exec]
        simp only [execList]
        rw [Source.exec]
        simp only [eval, h0, Option.bind_some, Bool.false_and, Bool.false_eq_true, if_false, hA]
        exact this
  intro n
  match n with
  | 0 => rfl
  | 1 => rfl
  | n + 2 =>
    have := hw (n + 1) (Function.update (Function.update (fun _ => none) 0 (some (.felt 0))) 1 (some (.felt 0)))
      rfl rfl
    simp only [Source.run, spinFn, bindParams]
    rw [Source.exec]
    simp only [execList]
    rw [Source.exec]
    simp only [eval, show integer 0 .felt = some (.felt 0) by decide +kernel]
    rw [this]

/-! ### Functions that are lowered to something else -/

theorem run_fixed {calls : Calls} {F : Function} {n : ℕ} {args : List Val} {r : Result}
    (h : Lang.run calls F n args = r) (hr : r ≠ .unfinished) (m : ℕ) : Lang.run calls F (n + m) args = r := by
  rw [run_more (by rw [h]; exact hr), h]

/-- `fn f(y: felt) -> felt { let x = 0; let i = 0; while (i != 3) { x = y; i = i + 1; } return x; }` -/
def copyFn : Fn :=
  { params := [0], rets := [.felt]
    body := [
      .letS 1 (.int 0 .felt),
      .letS 2 (.int 0 .felt),
      .while (.bin .Neq (.var 2) (.int 3 .felt)) (.block [
        .assign 1 (.var 0),
        .assign 2 (.bin .Add (.var 2) (.int 1 .felt))]),
      .retE (.var 1)] }

/-- **C72 violated** by a copy in a loop: the phi node of `y` at the head of the loop is recorded as the value of `x`;
when it turns out to be trivial it is removed, but the table of the current definitions still has it, and the phi
node of `x` created later mentions a value that is nowhere defined. -/
theorem C72_violated_copy : copyFn.ok exSem = true ∧
    Source.run true exCalls copyFn 10 [.felt 7] = .returned [.felt 7] ∧
    ∃ F, lowerFn exOpts exSem [] copyFn = some F ∧ closed F = false ∧
      ∀ m, Lang.run exCalls F (10 + m) [.felt 7] = .fault := by
  refine ⟨by decide +kernel, by decide +kernel, ?_⟩
  have h : ((lowerFn exOpts exSem [] copyFn).map fun F => (closed F, Lang.run exCalls F 10 [.felt 7])) =
      some (false, .fault) := by decide +kernel
  simp only [Option.map_eq_some_iff, Prod.mk.injEq] at h
  obtain ⟨F, hF, hcl, hr⟩ := h
  exact ⟨F, hF, hcl, run_fixed hr (by simp)⟩

/-- `fn f(y: felt) -> felt { let i = 0; while (i != 10) { if (i == 5) { break; } i = i + 1; } return y; }` -/
def breakFn : Fn :=
  { params := [0], rets := [.felt]
    body := [
      .letS 1 (.int 0 .felt),
      .while (.bin .Neq (.var 1) (.int 10 .felt)) (.block [
        .ifThen (.bin .Eq (.var 1) (.int 5 .felt)) (.block [.break]),
        .assign 1 (.bin .Add (.var 1) (.int 1 .felt))]),
      .retE (.var 0)] }

/-- **C72 violated** by `break`: the variable is looked up after the loop through the block that breaks, where the
table of the current definitions still has the removed phi node. -/
theorem C72_violated_break : breakFn.ok exSem = true ∧
    Source.run true exCalls breakFn 20 [.felt 7] = .returned [.felt 7] ∧
    ∃ F, lowerFn exOpts exSem [] breakFn = some F ∧ closed F = false ∧
      ∀ m, Lang.run exCalls F (30 + m) [.felt 7] = .fault := by
  refine ⟨by decide +kernel, by decide +kernel, ?_⟩
  have h : ((lowerFn exOpts exSem [] breakFn).map fun F => (closed F, Lang.run exCalls F 30 [.felt 7])) =
      some (false, .fault) := by decide +kernel
  simp only [Option.map_eq_some_iff, Prod.mk.injEq] at h
  obtain ⟨F, hF, hcl, hr⟩ := h
  exact ⟨F, hF, hcl, run_fixed hr (by simp)⟩

/-- `fn f(x: u32) -> bool { return x != 0 && 10 / x == 5; }` -/
def guardFn : Fn :=
  { params := [10], rets := [.bool]
    body := [.retE (.bin .And (.bin .Neq (.var 10) (.int 0 .u32))
      (.bin .Eq (.bin .Div (.int 10 .u32) (.var 10)) (.int 5 .u32)))] }

/-- **C72 violated** for `&&`, if its right operand is to be evaluated only when the left one is true: the lowered
function divides by zero. -/
theorem C72_violated_eager : guardFn.ok exSem = true ∧
    Source.run true exCalls guardFn 10 [.u32 0] = .returned [.bool false] ∧
    ∃ F, lowerFn exOpts exSem [] guardFn = some F ∧ closed F = true ∧
      ∀ m, Lang.run exCalls F (1 + m) [.u32 0] = .fault := by
  refine ⟨by decide +kernel, by decide +kernel, ?_⟩
  have h : ((lowerFn exOpts exSem [] guardFn).map fun F => (closed F, Lang.run exCalls F 1 [.u32 0])) =
      some (true, .fault) := by decide +kernel
  simp only [Option.map_eq_some_iff, Prod.mk.injEq] at h
  obtain ⟨F, hF, hcl, hr⟩ := h
  exact ⟨F, hF, hcl, run_fixed hr (by simp)⟩

end Lower
end CairoM
