import Verif.ControlFlowProps
import Verif.ParserProps

/-!
# C78, C79 for every program text that parses

The condition on `for` loops in `C78_reachable_partial`, `C78_no_stray_break` and `C79_returns_partial` is met by
everything the parser returns.
-/

namespace CairoM.Syntax

theorem isInit_plain {s : Stmt} (h : s.isInit = true) : plain s = true := by
  cases s <;> simp_all [Stmt.isInit, plain]

theorem isStep_plain {s : Stmt} (h : s.isStep = true) : plain s = true := by
  cases s <;> simp_all [Stmt.isStep, plain]

mutual
theorem shaped_plainFor : ∀ (s : Stmt), s.shaped = true → s.plainFor = true
  | .block ss, h => by
    rw [Stmt.shaped] at h; rw [Stmt.plainFor]; exact stmtsShaped_plainFors ss h
  | .if_ c t none, h => by
    simp only [Stmt.shaped, Bool.and_eq_true] at h
    rw [Stmt.plainFor]; exact shaped_plainFor t h.2
  | .if_ c t (some e), h => by
    simp only [Stmt.shaped, Bool.and_eq_true] at h
    rw [Stmt.plainFor, shaped_plainFor t h.1.1.2, shaped_plainFor e h.2]; rfl
  | .loop_ b, h => by rw [Stmt.shaped] at h; rw [Stmt.plainFor]; exact shaped_plainFor b h
  | .while_ c b, h => by
    simp only [Stmt.shaped, Bool.and_eq_true] at h
    rw [Stmt.plainFor]; exact shaped_plainFor b h.2
  | .for_ i c s b, h => by
    simp only [Stmt.shaped, Bool.and_eq_true] at h
    rw [Stmt.plainFor, isInit_plain h.1.1.1.1.1, isStep_plain h.1.1.2, shaped_plainFor b h.2]; rfl
  | .let_ .., _ | .const _, _ | .assign .., _ | .return_ _, _ | .expr _, _ | .break_, _ | .continue_, _ => by simp [Stmt.plainFor]
theorem stmtsShaped_plainFors : ∀ (ss : List Stmt), stmtsShaped ss = true → Stmt.plainFors ss = true
  | [], _ => by rw [Stmt.plainFors]
  | s :: ss, h => by
    simp only [stmtsShaped, Bool.and_eq_true] at h
    rw [Stmt.plainFors, shaped_plainFor s h.1, stmtsShaped_plainFors ss h.2]; rfl
end

theorem parsed_plainFors {ts : List Token} {is : List Item} (h : parseTokens ts = some is) {f : FunctionDef}
    (hf : .function f ∈ is) : Stmt.plainFors f.body = true := by
  have h := List.all_eq_true.mp (C74_program_conv ts is h).1 _ hf
  simp only [Item.shaped, Bool.and_eq_true] at h
  exact stmtsShaped_plainFors _ h.2

/-- **C78** for every text that parses: if nothing is reported about a function, every statement in it except the steps of
`for` loops is reached by some execution. -/
theorem C78_parsed_partial (ts : List Token) (is : List Item) (h : parseTokens ts = some is) (f : FunctionDef)
    (hf : .function f ∈ is) (hr : f.flow = []) (p : Pos) (hat : At (.block f.body) p) : Reaches (.block f.body) p :=
  C78_reachable_partial f (parsed_plainFors h hf) hr p hat

/-- **C78** for every text that parses: without a report about `break` or `continue` outside a loop, no execution of a
function ends with one. -/
theorem C78_parsed_no_stray_break (ts : List Token) (is : List Item) (h : parseTokens ts = some is) (f : FunctionDef)
    (hf : .function f ∈ is) (hr : ∀ d ∈ f.flow, d.2 = .unreachable) : ¬ EndsAll f.body .brk ∧ ¬ EndsAll f.body .cont :=
  C78_no_stray_break f (parsed_plainFors h hf) hr

/-- **C79** for every text that parses: if the checks report no error about a function in which no `loop` is left by
`break`, every execution of the body that finishes ends with `return`. -/
theorem C79_parsed_partial (ts : List Token) (is : List Item) (h : parseTokens ts = some is) (f : FunctionDef)
    (hf : .function f ∈ is) (hr : f.flowOk = true) (hl : Stmt.noLoopBreaks f.body = true) (o : Way) (he : EndsAll f.body o) :
    o = .ret :=
  C79_returns_partial f (parsed_plainFors h hf) hr hl o he

/-- `fn f() -> felt { for (let i = 0; i; i = 1) { break; } return i; }` -/
def parsedExample : List Item :=
  [.function ⟨"f", [], .named .felt,
    [.for_ (.let_ (.ident "i") none (.literal 0 none)) (.ident "i") (.assign (.ident "i") (.literal 1 none)) (.block [.break_]),
     .return_ (some (.ident "i"))]⟩]

example : parseTokens (programToks parsedExample) = some parsedExample := C74_program _ (by decide +kernel)

example : ∀ f, .function f ∈ parsedExample → f.flow = [] ∧ f.flowOk = true ∧ Stmt.noLoopBreaks f.body = true := by
  intro f hf
  simp only [parsedExample, List.mem_singleton, Item.function.injEq] at hf
  subst hf
  decide +kernel

end CairoM.Syntax
