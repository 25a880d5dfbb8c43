import Verif.TypesPlaced
import Verif.ControlFlowProps

/-!
# C81, C82: what the type checks guarantee to the lowering

`typeChecks` models the checks, `lowerFile` the lowering of the syntax trees. The specification is the typed source
language of `SourceSpec`: `elabFile` writes down the program that the checks have in mind, where every literal has the
type the checks gave it, `Fn.ok` are the textbook typing rules, and `Lower.lowerFn` selects every instruction by the
types of this program.
-/

namespace CairoM.Syntax

open Lang Mir Source Lower Pipeline

/-- **C81 (partial).** A file that the checks accept is well-typed, and the lowering produces what it should for the
types the checks determined, in particular the operators. Partial: `settled` excludes the files where the type that
the lowering asks for could be another one, and literals that do not fit their type, both of which the checks accept
(`C81_violated_left`, `C81_violated_assigned`, `C81_violated_literal`, `C81_violated_minus`). -/
theorem C81_accepted_partial (fs : List TFn) (p : Program) (hc : typeChecks fs = true) (hs : settled fs = true)
    (he : elabFile fs = some p) (o : Opts) :
    (∀ g ∈ p.fns, g.2.ok p.sem = true) ∧ lowerFile o fs = p.fns.mapM fun g => lowerFn o p.sem g.1 g.2 :=
  file_ok fs p hc hs he o

/-- **C81 (partial).** The same for a condition on the text: literals without suffix stand in the places listed in
`TypesPlaced`, literals are below `2^32` and unary minus is not applied to `u32`. -/
theorem C81_placed_partial (fs : List TFn) (p : Program) (hc : typeChecks fs = true)
    (hp : ∀ f ∈ fs, placedSs f.body = true) (ht : tameFs fs (fileScope fs) = true) (he : elabFile fs = some p) (o : Opts) :
    (∀ g ∈ p.fns, g.2.ok p.sem = true) ∧ lowerFile o fs = p.fns.mapM fun g => lowerFn o p.sem g.1 g.2 :=
  file_ok fs p hc (settled_placedFs _ fs _ hp ht) he o

/-! ### A file that meets the hypotheses -/

private abbrev num (n : Nat) : Expr := .literal n none
private abbrev v (x : String) : Expr := .ident x
private abbrev u32 : TypeExpr := .named .u32
private abbrev felt : TypeExpr := .named .felt

/-- `fn g(n: u32, b: bool) -> felt { if b { return n as felt; } return 1; }` and
`fn f(x: u32, c: felt) -> u32 { let s = 0u32; for (let i: u32 = 1 + 2; i <= x; i = i + 1) { if g(i, x == 5) == c
{ s = s + i * 2; } } return s; }` -/
def sampleItems : List Item :=
  [.function ⟨"g", [("n", u32), ("b", .named .bool)], felt,
    [.if_ (v "b") (.block [.return_ (some (.cast (v "n") felt))]) none, .return_ (some (num 1))]⟩,
   .function ⟨"f", [("x", u32), ("c", felt)], u32,
    [.let_ (.ident "s") none (.literal 0 (some "u32")),
     .for_ (.let_ (.ident "i") (some u32) (.binary .add (num 1) (num 2))) (.binary .lessEqual (v "i") (v "x"))
       (.assign (v "i") (.binary .add (v "i") (num 1)))
       (.block [.if_ (.binary .eq (.call (v "g") [v "i", .binary .eq (v "x") (num 5)]) (v "c"))
         (.block [.assign (v "s") (.binary .add (v "s") (.binary .mul (v "i") (num 2)))]) none]),
     .return_ (some (v "s"))]⟩]

example : ∃ fs p, typedFns sampleItems = some fs ∧ typeChecks fs = true ∧ (∀ f ∈ fs, placedSs f.body = true) ∧
    tameFs fs (fileScope fs) = true ∧ elabFile fs = some p ∧ (lowerFile ⟨20, id⟩ fs).isSome = true := by
  refine ⟨(typedFns sampleItems).get (by decide +kernel), (elabFile ((typedFns sampleItems).get (by decide +kernel))).get
    (by decide +kernel), ?_⟩
  refine ⟨by simp, by decide +kernel, by decide +kernel, by decide +kernel, by simp, by decide +kernel⟩

/-! ### Accepted files that are compiled wrongly -/

/-- Machine code and entry points of a file. -/
def fileCode (b : Bool) (fs : List TFn) : Option (List Instruction × List (Name × ℕ)) :=
  ((lowerFile (exConfig b).lower fs).bind fun gs => gs.mapM (passes (exConfig b))).bind fun md =>
    match Codegen.compileModule md with
    | .ok ⟨code, [], [], entries⟩ => some (code, entries)
    | _ => none

/-- The run ends with a value, which is not read as a felt. -/
def returnedU32 (code : List Instruction) (entry : Abi.Entry) (inputs : List InputValue) : Option (List ℕ) :=
  match Abi.runCairoProgram 1 100 (code.map .instruction) entry inputs with
  | some (.ok out) => out.returnValues.mapM fun
    | .u32 n => some n
    | _ => none
  | _ => none

/-- What a function of the typed program returns. -/
private def meaning (fs : List TFn) (c : ℕ) (args : List Val) : Option (List Val) :=
  (elabFile fs).bind fun p => p.table false 30 5 c args

/-- `fn f(x: u32) -> u32 { return 5 + x; }` -/
private def left : List TFn := [⟨"f", [("x", .u32)], .u32, [.return_ (some (.binary .add (num 5) (v "x")))]⟩]

private def leftCode : List Instruction := [.StoreAddFpImm (-6) 5 (-4), .Ret]

/-- **C81 (violated).** A literal as left operand takes the type of the right one in the checks, and `felt` in the
lowering: `5 + x` is accepted for `x: u32` and compiled to an addition of felts that ignores the high half of `x`. On
65537 the program returns 6, with and without optimisation. -/
theorem C81_violated_left : typeChecks left = true ∧ meaning left 0 [.u32 65537] = some [.u32 65542] ∧
    (∀ b, fileCode b left = some (leftCode, [(['f'], 0)])) ∧
    returnedU32 leftCode ⟨0, [.u32], [.u32]⟩ [.number 65537] = some [6] := by
  refine ⟨by decide +kernel, by decide +kernel, fun b => ?_, by decide +kernel⟩
  cases b <;> decide +kernel

/-- `fn f(x: u32) -> u32 { if 0 == x { return 7u32; } return 8u32; }` -/
private def zero : List TFn :=
  [⟨"f", [("x", .u32)], .u32, [.if_ (.binary .eq (num 0) (v "x")) (.block [.return_ (some (.literal 7 (some "u32")))]) none,
    .return_ (some (.literal 8 (some "u32")))]⟩]

private def zeroCode : List Instruction :=
  [.JnzFpImm (-6) 4, .JmpRelImm 1, .U32StoreImm 7 0 (-4), .Ret, .U32StoreImm 8 0 (-4), .Ret]

/-- `fn f(x: u32) -> u32 { x = 65535 + 1; return x; }` -/
private def assigned : List TFn :=
  [⟨"f", [("x", .u32)], .u32, [.assign (v "x") (.binary .add (num 65535) (num 1)), .return_ (some (v "x"))]⟩]

/-- `fn f(x: felt) -> u32 { let y: u32 = 7; y = (5) == x; return y; }` -/
private def truth : List TFn :=
  [⟨"f", [("x", .felt)], .u32, [.let_ (.ident "y") (some u32) (num 7),
    .assign (v "y") (.binary .eq (.paren (num 5)) (v "x")), .return_ (some (v "y"))]⟩]

/-- `fn f() -> u32 { let y = 4294967301u32; return y; }` -/
private def big : List TFn :=
  [⟨"f", [], .u32, [.let_ (.ident "y") none (.literal 4294967301 (some "u32")), .return_ (some (v "y"))]⟩]

/-- `fn f() -> felt { let y: felt = 2147483647; return y; }` -/
private def prime : List TFn :=
  [⟨"f", [], .felt, [.let_ (.ident "y") (some felt) (num 2147483647), .return_ (some (v "y"))]⟩]

/-- `fn f(x: u32) -> u32 { return -x; }` -/
private def minus : List TFn := [⟨"f", [("x", .u32)], .u32, [.return_ (some (.unary .neg (v "x")))]⟩]

/-- **C81 (violated).** The condition `0 == x` for `x: u32` looks at the low half only. -/
theorem C81_violated_zero : typeChecks zero = true ∧ meaning zero 0 [.u32 65536] = some [.u32 8] ∧
    fileCode true zero = some (zeroCode, [(['f'], 0)]) ∧
    returnedU32 zeroCode ⟨0, [.u32], [.u32]⟩ [.number 65536] = some [7] := by
  refine ⟨by decide +kernel, by decide +kernel, by decide +kernel, by decide +kernel⟩

private def assignedCode : List Instruction := [.StoreImm 65536 (-4), .Ret]

/-- **C81 (violated).** The operands of an assigned sum are `u32` for the checks and felts for the lowering: one cell is
written with 65536, which is not a half of a `u32`; the caller cannot read the result. -/
theorem C81_violated_assigned : typeChecks assigned = true ∧ meaning assigned 0 [.u32 1] = some [.u32 65536] ∧
    (∀ b, fileCode b assigned = some (assignedCode, [(['f'], 0)])) ∧
    returnedU32 assignedCode ⟨0, [.u32], [.u32]⟩ [.number 1] = none := by
  refine ⟨by decide +kernel, by decide +kernel, fun b => ?_, by decide +kernel⟩
  cases b <;> decide +kernel

private def truthCode : List Instruction :=
  [.StoreImm 5 1, .StoreSubFpFp 1 (-5) (-4), .JnzFpImm (-4) 3, .StoreImm 1 (-4), .JmpRelImm 2, .StoreImm 0 (-4), .Ret]

/-- **C81 (violated).** An ill-typed assignment is accepted: in the context `u32` the literal in parentheses is a `u32`, so
the comparison with a felt has the type `error`, which is compatible with everything, and the check of the comparison
itself uses no context. The program returns a truth value as `u32`. -/
theorem C81_violated_truth : typeChecks truth = true ∧
    (elabFile truth).map (fun p => p.fns.all fun g => g.2.ok p.sem) = some false ∧
    fileCode true truth = some (truthCode, [(['f'], 0)]) ∧
    returnedU32 truthCode ⟨0, [.felt], [.u32]⟩ [.number 5] = some [1] := by
  refine ⟨by decide +kernel, by decide +kernel, by decide +kernel, by decide +kernel⟩

private def bigCode : List Instruction := [.U32StoreImm 5 0 (-4), .Ret]

/-- **C81 (violated).** A literal that does not fit its type is accepted when there is no annotation, and truncated. -/
theorem C81_violated_literal : typeChecks big = true ∧ (∀ b, fileCode b big = some (bigCode, [(['f'], 0)])) ∧
    returnedU32 bigCode ⟨0, [], [.u32]⟩ [] = some [5] := by
  refine ⟨by decide +kernel, fun b => ?_, by decide +kernel⟩
  cases b <;> decide +kernel

private def primeCode : List Instruction := [.StoreImm 0 (-3), .Ret]

/-- **C81 (violated).** The greatest literal accepted for a felt is the modulus: the function returns 0. -/
theorem C81_violated_modulus : typeChecks prime = true ∧ (∀ b, fileCode b prime = some (primeCode, [(['f'], 0)])) ∧
    returned primeCode ⟨0, [], [.felt]⟩ [] = some [0] := by
  refine ⟨by decide +kernel, fun b => ?_, by decide +kernel⟩
  cases b <;> decide +kernel

private def minusCode : List Instruction := [.StoreImm 0 2, .StoreSubFpFp 2 (-6) (-4), .Ret]

/-- **C81 (violated).** Unary minus on `u32` is accepted and compiled to a subtraction of felts: the caller cannot read the
result. -/
theorem C81_violated_minus : typeChecks minus = true ∧ meaning minus 0 [.u32 3] = some [.u32 4294967293] ∧
    (∀ b, fileCode b minus = some (minusCode, [(['f'], 0)])) ∧
    returnedU32 minusCode ⟨0, [.u32], [.u32]⟩ [.number 3] = none := by
  refine ⟨by decide +kernel, by decide +kernel, fun b => ?_, by decide +kernel⟩
  cases b <;> decide +kernel

/-! ### Well-typed files that are rejected -/

/-- `fn g(n: felt) -> u32 { return 1u32; } fn f() -> u32 { let y: u32 = g(5); return y; }` -/
private def callee : List TFn :=
  [⟨"g", [("n", .felt)], .u32, [.return_ (some (.literal 1 (some "u32")))]⟩,
   ⟨"f", [], .u32, [.let_ (.ident "y") (some u32) (.call (v "g") [num 5]), .return_ (some (v "y"))]⟩]

/-- `fn f(a: u32) -> felt { let z: felt = (a + 5) as felt; return z; }` -/
private def casted : List TFn :=
  [⟨"f", [("a", .u32)], .felt,
    [.let_ (.ident "z") (some felt) (.cast (.paren (.binary .add (v "a") (num 5))) felt), .return_ (some (v "z"))]⟩]

/-- The annotation of a `let` decides the type of every literal below it, also of arguments and below a cast: both files
are rejected, and both are accepted without the annotation. -/
theorem C81_violated_rejects : typeChecks callee = false ∧ typeChecks casted = false ∧
    typeChecks (callee.map fun f => { f with body := f.body.map fun
      | .let_ p _ e => .let_ p none e
      | t => t }) = true ∧
    typeChecks (casted.map fun f => { f with body := f.body.map fun
      | .let_ p _ e => .let_ p none e
      | t => t }) = true := by
  refine ⟨by decide +kernel, by decide +kernel, by decide +kernel, by decide +kernel⟩

end CairoM.Syntax
