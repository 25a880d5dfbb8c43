import Verif.MirSem

/-!
# Specification: WebAssembly functions in the flat data-flow form

The front end reads functions as lists of nodes (`BlocklessDag` of the crate `womir`). Each node names the values
it reads by the node and the output that produced them. Labels are targets of forward branches and carry values;
the body of a loop is a list of nodes of its own that sees the loop's inputs only; a branch to `outer 0` inside a
loop repeats the loop with new inputs, `outer (d + 1)` does the same to an enclosing loop, and past all loops it
returns from the function.

`exec` gives the meaning, written without reference to the lowering. Values are 32-bit vectors and the operators are
those of WebAssembly: comparisons give `1` or `0`, division by zero traps. Loads and stores have no meaning here
(they are treated in `WasmMemory`).
-/

namespace CairoM
namespace Wasm

/-- The 32-bit integers of WebAssembly. -/
abbrev I32 := BitVec 32

/-- Value types (`wasmparser::ValType`); the front end knows `i32` only. -/
inductive ValType where
  | i32
  | other
deriving DecidableEq, Repr

/-- `ValueOrigin` of `womir`: an output of a node. -/
structure Origin where
  node : ℕ
  output : ℕ
deriving DecidableEq, Repr

/-- `BreakTarget` of `womir`: a label, or the function or loop at a depth. -/
inductive Target where
  | label (id : ℕ)
  | outer (depth : ℕ)
deriving DecidableEq, Repr

/-- Binary operators on `i32`. -/
inductive Bin where
  | add | sub | mul | divU | and | or | xor
  | eq | ne | gtU | geU | ltU | leU
  | gtS | geS | ltS | leS
deriving DecidableEq, Repr

/-- Operators (`wasmparser::Operator`); `offset` is the constant offset of a memory access. -/
inductive Op where
  | bin (b : Bin)
  | eqz
  | const (value : I32)
  | call (f : ℕ)
  | load (offset : ℕ)
  | store (offset : ℕ)
  | localAccess
  | other
deriving DecidableEq, Repr

/-- `Node` of `womir`: the operation with its inputs and the types of its outputs where they matter. The condition of
a conditional branch is its last input. -/
inductive Node where
  | inputs (types : List ValType)
  | op (o : Op) (ins : List Origin)
  | label (id : ℕ) (types : List ValType)
  | br (t : Target) (ins : List Origin)
  | brIf (t : Target) (ins : List Origin)
  | brIfZero (t : Target) (ins : List Origin)
  | brTable (ins : List Origin)
  | loop (ins : List Origin) (body : List Node)

/-- A truth value as an integer. -/
def truth (b : Bool) : I32 := if b then 1 else 0

/-- Meaning of the binary operators; `none` is a trap. -/
def Bin.eval : Bin → I32 → I32 → Option I32
  | .add, a, b => some (a + b)
  | .sub, a, b => some (a - b)
  | .mul, a, b => some (a * b)
  | .divU, a, b => if b = 0 then none else some (a / b)
  | .and, a, b => some (a &&& b)
  | .or, a, b => some (a ||| b)
  | .xor, a, b => some (a ^^^ b)
  | .eq, a, b => some (truth (a == b))
  | .ne, a, b => some (truth (a != b))
  | .gtU, a, b => some (truth (b.ult a))
  | .geU, a, b => some (truth (b.ule a))
  | .ltU, a, b => some (truth (a.ult b))
  | .leU, a, b => some (truth (a.ule b))
  | .gtS, a, b => some (truth (decide (b.toInt < a.toInt)))
  | .geS, a, b => some (truth (decide (b.toInt ≤ a.toInt)))
  | .ltS, a, b => some (truth (decide (a.toInt < b.toInt)))
  | .leS, a, b => some (truth (decide (a.toInt ≤ b.toInt)))

/-- What the called functions do. -/
abbrev Calls := ℕ → List I32 → Option (List I32)

/-- Meaning of an operator: the results. -/
def Op.eval (calls : Calls) : Op → List I32 → Option (List I32)
  | .bin b, [x, y] => (b.eval x y).map fun z => [z]
  | .eqz, [x] => some [truth (x == 0)]
  | .const v, [] => some [v]
  | .call f, xs => calls f xs
  | _, _ => none

/-- Values of the outputs of the nodes. -/
abbrev Env := Origin → Option I32

/-- Several values. -/
def readAll (env : Env) : List Origin → Option (List I32)
  | [] => some []
  | o :: os => do
    let x ← env o
    let xs ← readAll env os
    some (x :: xs)

/-- The outputs of a node get values. -/
def bind (env : Env) (node : ℕ) (vs : List I32) : Env :=
  fun o => if o.node = node then vs[o.output]? else env o

/-- The label `id` among the nodes from number `idx` on: its number, the number of its values, and what follows. -/
def findLabel (id : ℕ) : ℕ → List Node → Option (ℕ × ℕ × List Node)
  | _, [] => none
  | idx, .label i ts :: ns => if i = id then some (idx, ts.length, ns) else findLabel id (idx + 1) ns
  | idx, _ :: ns => findLabel id (idx + 1) ns

/-- How a list of nodes ends. -/
inductive Outcome where
  | left (t : Target) (vs : List I32)
  | fault
  | unfinished
deriving DecidableEq, Repr

/-- Inputs of a conditional branch: the values and the condition. -/
def splitLast (xs : List I32) : Option (List I32 × I32) :=
  match xs.getLast? with
  | none => none
  | some c => some (xs.dropLast, c)

mutual
/-- Runs the nodes from number `idx` on. -/
def exec (calls : Calls) : ℕ → ℕ → List Node → Env → Outcome
  | 0, _, _, _ => .unfinished
  | n + 1, idx, ns, env =>
    match ns with
    | [] => .fault
    | .inputs _ :: ns => exec calls n (idx + 1) ns env
    | .op o ins :: ns =>
      match (readAll env ins).bind (o.eval calls) with
      | none => .fault
      | some ys => exec calls n (idx + 1) ns (bind env idx ys)
    | .label .. :: _ => .fault
    | .br t ins :: ns =>
      match readAll env ins with
      | none => .fault
      | some vs => branch calls n (idx + 1) ns env t vs
    | .brIf t ins :: ns =>
      match (readAll env ins).bind splitLast with
      | none => .fault
      | some (vs, c) => if c ≠ 0 then branch calls n (idx + 1) ns env t vs else exec calls n (idx + 1) ns env
    | .brIfZero t ins :: ns =>
      match (readAll env ins).bind splitLast with
      | none => .fault
      | some (vs, c) => if c = 0 then branch calls n (idx + 1) ns env t vs else exec calls n (idx + 1) ns env
    | .brTable _ :: _ => .fault
    | .loop ins body :: ns =>
      match readAll env ins with
      | none => .fault
      | some vs =>
        match iterate calls n body vs with
        | .left t vs => branch calls n (idx + 1) ns env t vs
        | r => r
/-- A branch: to one of the labels that follow, or out of this list of nodes. -/
def branch (calls : Calls) : ℕ → ℕ → List Node → Env → Target → List I32 → Outcome
  | 0, _, _, _, _, _ => .unfinished
  | n + 1, idx, ns, env, t, vs =>
    match t with
    | .outer d => .left (.outer d) vs
    | .label id =>
      match findLabel id idx ns with
      | none => .left (.label id) vs
      | some (i, k, rest) => if vs.length = k then exec calls n (i + 1) rest (bind env i vs) else .fault
/-- Runs the body of a loop until it is left. -/
def iterate (calls : Calls) : ℕ → List Node → List I32 → Outcome
  | 0, _, _ => .unfinished
  | n + 1, body, vs =>
    match body with
    | .inputs ts :: ns =>
      if vs.length = ts.length then
        match exec calls n 1 ns (bind (fun _ => none) 0 vs) with
        | .left (.outer 0) vs => iterate calls n body vs
        | .left (.outer (d + 1)) vs => .left (.outer d) vs
        | r => r
      else .fault
    | _ => .fault
end

/-- A function: its name, parameters, results and nodes. -/
structure Func where
  name : Mir.Name
  params : List ValType
  results : List ValType
  nodes : List Node

/-- Runs a function on arguments: `some vs` when it returns. -/
def Func.run (calls : Calls) (f : Func) (n : ℕ) (args : List I32) : Option (List I32) :=
  match f.nodes with
  | .inputs _ :: ns =>
    if args.length = f.params.length then
      match exec calls n 1 ns (bind (fun _ => none) 0 args) with
      | .left (.outer 0) vs => if vs.length = f.results.length then some vs else none
      | _ => none
    else none
  | _ => none

end Wasm
end CairoM
