import Verif.ControlFlowLemmas
import Verif.PipelineProps
import Verif.CodegenWitness

/-!
# C78, C79: what the control flow checks say

`Ends` and `Reaches` (`ControlFlowSpec`) describe the executions of a function body in which conditions take
arbitrary values; `FunctionDef.flow` and `FunctionDef.flowOk` model the checks.
-/

namespace CairoM.Syntax

/-- **C78.** A statement reported as unreachable is not reached by any execution of the function. -/
theorem C78_unreachable (f : FunctionDef) (p : Pos) (h : (p, .unreachable) ∈ f.flow) : ¬ Reaches (.block f.body) p := by
  obtain ⟨j, q, rfl, -, hd⟩ := unreachable_all f.body 0 0 false p h
  intro hr
  cases hr with
  | block hr =>
    rcases hd with hd | hd
    · cases hd
    · exact hd hr

/-- **C78.** If nothing is reported about a function, every statement in it is reached by some execution. The steps
of `for` loops are excepted, see `C78_violated_step`; `Stmt.plainFors` holds for every parsed function. -/
theorem C78_reachable_partial (f : FunctionDef) (hp : Stmt.plainFors f.body = true) (h : f.flow = []) (p : Pos)
    (hat : At (.block f.body) p) : Reaches (.block f.body) p := by
  refine all_reached (.block f.body) 0 ?_ (by simpa [Stmt.plainFor] using hp) p hat
  rw [Stmt.flow]
  exact h

/-- **C78.** Without a report about `break` or `continue` outside a loop, no execution of the body ends with one. -/
theorem C78_no_stray_break (f : FunctionDef) (hp : Stmt.plainFors f.body = true)
    (h : ∀ d ∈ f.flow, d.2 = .unreachable) : ¬ EndsAll f.body .brk ∧ ¬ EndsAll f.body .cont := by
  constructor <;> intro he <;> rcases stay f.body 0 false h hp _ he with h | h <;> cases h

/-- **C79 (partial).** If the checks report no error about a function in which no `loop` is left by `break`, every
execution of the body that finishes ends with `return`. The condition is needed: `C79_violated`. -/
theorem C79_returns_partial (f : FunctionDef) (hp : Stmt.plainFors f.body = true) (h : f.flowOk = true)
    (hl : Stmt.noLoopBreaks f.body = true) (o : Way) (he : EndsAll f.body o) : o = .ret := by
  simp only [FunctionDef.flowOk, Bool.and_eq_true, List.all_eq_true, decide_eq_true_eq] at h
  rcases stay f.body 0 false h.1 hp o he with rfl | rfl
  · exact absurd he (returns_ends f.body h.2 hl)
  · rfl

/-! ### Functions that meet the hypotheses -/

private def fn (body : List Stmt) : FunctionDef := ⟨"f", [("c", .named .bool)], .named .felt, body⟩
private def cond : Expr := .ident "c"
private def one : Expr := .literal 1 none

/-- `while c { if c { break; } else { continue; } } return 1;` -/
private def good : FunctionDef :=
  fn [.while_ cond (.block [.if_ cond (.block [.break_]) (some (.block [.continue_]))]), .return_ (some one)]

example : good.flow = [] ∧ good.flowOk = true ∧ Stmt.noLoopBreaks good.body = true ∧ Stmt.plainFors good.body = true := by
  decide +kernel

example : Reaches (.block good.body) [0, 0, 0, 1, 0] :=
  C78_reachable_partial good (by decide +kernel) (by decide +kernel) _
    (.block (s := good.body[0]) rfl (.while_ (.block (i := 0) rfl (.else_ (.block (i := 0) rfl .here)))))

/-- `loop { if c { return 1; 1; } else { break; } } 1; return 1; 1;`: two statements are reported. -/
private def dead : FunctionDef :=
  fn [.loop_ (.block [.if_ cond (.block [.return_ (some one), .expr one]) (some (.block [.break_]))]), .expr one,
    .return_ (some one), .expr one]

example : dead.flow = [([0, 0, 0, 0, 1], .unreachable), ([3], .unreachable)] := by decide +kernel

example : ¬ Reaches (.block dead.body) [0, 0, 0, 0, 1] := C78_unreachable dead _ (by decide +kernel)

example : (fn [.if_ cond .break_ none, .return_ none]).flow = [([0, 0], .breakOutside)] := by decide +kernel

/-! ### Where the checks are wrong -/

/-- `for (let i = 1; c; i = 1) { return 1; }` before `return 1;` -/
private def oneTurn : FunctionDef :=
  fn [.for_ (.let_ (.ident "i") none one) cond (.assign (.ident "i") one) (.block [.return_ (some one)]),
    .return_ (some one)]

/-- **C78 (violated).** Nothing is reported about the function above, and the step of its loop is never executed. -/
theorem C78_violated_step : oneTurn.flow = [] ∧ Stmt.plainFors oneTurn.body = true ∧
    ¬ Reaches (.block oneTurn.body) [0, 2] := by
  refine ⟨by decide +kernel, by decide +kernel, ?_⟩
  intro h
  cases h with
  | block h =>
    cases h with
    | head h =>
      cases h with
      | step hi hb hw hs =>
        cases hb with
        | block hb =>
          cases hb with
          | cons h _ => cases h
          | stop _ h =>
            cases h
            simp at hw

/-- `loop { if c { return 9; } if d { break; } return 1; }` -/
private def leaves : FunctionDef :=
  fn [.loop_ (.block [.if_ cond (.block [.return_ (some (.literal 9 none))]) none,
    .if_ (.ident "d") (.block [.break_]) none, .return_ (some one)])]

/-- **C79 (violated).** The check accepts the function above without any report, and it can run off its end: a `break`
does not count when a `loop` is taken to return. -/
theorem C79_violated : leaves.flowOk = true ∧ leaves.flow = [] ∧ EndsAll leaves.body .normal :=
  ⟨by decide +kernel, by decide +kernel,
    .cons (.loopBreak (.block (.cons .skip (.stop (by simp) (.then_ (.block (.stop (by simp) .break_))))))) .nil⟩

/-- `loop { if c { return 1; } }` -/
private def spins : FunctionDef := fn [.loop_ (.block [.if_ cond (.block [.return_ (some one)]) none])]

/-- The check also rejects functions that cannot run off their end: every execution of the function above that
finishes ends with `return`. -/
theorem C79_violated_rejects : spins.flowOk = false ∧ ∀ o, EndsAll spins.body o → o = .ret := by
  refine ⟨by decide +kernel, fun o h => ?_⟩
  have key : ∀ o, Ends spins.body.head! o → o = .ret := fun o h => by
    rcases loop_ends h with ⟨-, h⟩ | ⟨h, -⟩
    · exact absurd h (no_break _ (by decide +kernel))
    · exact h
  cases h with
  | cons h _ => cases key _ h
  | stop _ h => exact key _ h

end CairoM.Syntax

namespace CairoM.Pipeline

open Mir Lang Codegen Source Lower Abi

/-- `fn f(c: bool, d: bool) -> felt { loop { if c { return 9; } if d { break; } return 1; } }` -/
private def fallsThrough : Program :=
  ⟨fun _ => .bool, [(['f'],
    { params := [0, 1], rets := [.felt]
      body := [.loop (.block [.ifThen (.var 0) (.block [.retE (.int 9 .felt)]), .ifThen (.var 1) (.block [.break]),
        .retE (.int 1 .felt)])] })]⟩

/-- Machine code and entry points of a program without data. -/
def codeOf (b : Bool) (p : Program) : Option (List Instruction × List (Name × ℕ)) :=
  (toMir (exConfig b) p).bind fun md =>
    match compileModule md with
    | .ok ⟨code, [], [], entries⟩ => some (code, entries)
    | _ => none

/-- Felts returned by a program. -/
def returned (code : List Instruction) (entry : Entry) (inputs : List InputValue) : Option (List M31) :=
  match runCairoProgram 1 100 (code.map .instruction) entry inputs with
  | some (.ok out) => feltsOf (some out.returnValues)
  | _ => none

private def code : List Instruction :=
  [.JnzFpImm (-5) 2, .JmpRelImm 3, .StoreImm 9 (-3), .Ret, .JnzFpImm (-4) 2, .JmpRelImm 2, .JmpRelImm (-4), .StoreImm 1 (-3),
    .Ret]

/-- **C79 (violated).** The function of `C79_violated`, compiled with or without optimisation. With `c` false and `d`
true it should leave the loop; it runs into the code of the first branch, and returns 9 although `c` is false. With
`d` false it returns 1. -/
theorem C79_violated_machine : (∀ b, codeOf b fallsThrough = some (code, [(['f'], 0)])) ∧
    returned code ⟨0, [.bool, .bool], [.felt]⟩ [.bool false, .bool true] = some [9] ∧
    returned code ⟨0, [.bool, .bool], [.felt]⟩ [.bool false, .bool false] = some [1] := by
  refine ⟨fun b => ?_, by decide +kernel, by decide +kernel⟩
  cases b <;> decide +kernel

end CairoM.Pipeline
