import Verif.PipelineCodegen
import Verif.ConstPropProps
import Verif.CseProps
import Verif.MirDeadProps
import Verif.LoweringProps

/-!
# From source to machine: what a program means, and the compiler as a whole

`Program` is a program of the scalar source language and `table` its meaning, an interpreter that knows nothing of
the compiler. `toMir` is the lowering followed by one of the two pass pipelines. `checkProgram` collects the
conditions of the theorems on the single stages; it can be evaluated for a given program.
-/

namespace CairoM
namespace Source

open Lang

/-- A program: the types of the variables and the functions with their names. -/
structure Program where
  varTy : Var → Ty
  fns : List (Mir.Name × Fn)

/-- What the semantic analysis knows about a program. -/
def Program.sem (p : Program) : Sem :=
  { varTy := p.varTy, sig := fun c => (p.fns[c]?).map fun f => (f.2.params.map p.varTy, f.2.rets) }

/-- A value of a type: the type is right and an integer is below `2^32`. -/
def isOf (x : Val) (t : Ty) : Bool :=
  match x with
  | .felt _ => decide (t = .felt)
  | .u32 n => decide (t = .u32 ∧ n < 2 ^ 32)
  | .bool _ => decide (t = .bool)
  | .unit => decide (t = .unit)

/-- Values of the given types. -/
def areOf : List Val → List Ty → Bool
  | [], [] => true
  | x :: xs, t :: ts => isOf x t && areOf xs ts
  | _, _ => false

/-- Meaning of the functions of a program, with at most `d` nested calls and `n` steps in each: the result of
calling function `c` on arguments of the declared types. -/
def Program.table (p : Program) (lazy : Bool) (n : ℕ) : ℕ → Calls
  | 0 => fun _ _ => none
  | d + 1 => fun c args =>
    match p.fns[c]? with
    | none => none
    | some f =>
      if areOf args (f.2.params.map p.varTy) then
        match run lazy (p.table lazy n d) f.2 n args with
        | .returned vs => some vs
        | _ => none
      else none

end Source

namespace Pipeline

open Mir Lang Codegen Source Lower

/-- Choices of the compiler: options of the lowering, whether to optimise, and the orders in which the passes
iterate hash maps. -/
structure Config where
  lower : Opts
  optimise : Bool
  copies : List (ValueId × ValueId) → List (ValueId × ValueId)
  values : List ValueId → List ValueId

/-- The orders of the hash maps are permutations. -/
structure Config.Ok (k : Config) : Prop where
  lower : ∀ l, (k.lower.order l).Perm l
  copies : ∀ l, (k.copies l).Perm l
  values : ∀ l, (k.values l).Perm l

/-- The pipeline of passes on a function (`PassManager::standard_pipeline`, `no_opt_pipeline`,
`mir/src/passes.rs:80-104`, without the scalar replacement of aggregates; `none` is a panic). -/
def passes (k : Config) (f : Function) : Option Function :=
  if k.optimise then
    match standardPipeline k.copies k.values f with
    | .ok g => some g
    | .error _ => none
  else some (noOptPipeline k.values f)

/-- Lowering and passes on one function (`mir/src/pipeline.rs:57-77`). -/
def toFunction (k : Config) (S : Sem) (f : Name × Fn) : Option Function := (lowerFn k.lower S f.1 f.2).bind (passes k)

def toFunctions (k : Config) (S : Sem) : List (Name × Fn) → Option Module
  | [] => some []
  | f :: fs => (toFunction k S f).bind fun g => (toFunctions k S fs).map fun gs => g :: gs

/-- Lowering and passes on a program. -/
def toMir (k : Config) (p : Program) : Option Module := toFunctions k p.sem p.fns

/-! ### Conditions -/

/-- The parameters and results of a function have the types of the source function. -/
def signatureB (ps rs : List Ty) (f : Function) : Bool :=
  areTys (f.params.map f.types) (ps.map mirTy) && areTys (f.returns.map f.types) (rs.map mirTy)

/-- A call names a function of the program with the results it has. -/
def callB (S : Sem) : Instr → Bool
  | .Call _ c _ sig =>
    match S.sig c with
    | some s => areTys (sig.returns.map some) (s.2.map mirTy)
    | none => false
  | _ => true

def allInstrs (f : Function) (q : Instr → Bool) : Bool := f.blocks.all fun b => b.instrs.all q

/-- All blocks are reachable and jumps lead to blocks, or the reachable blocks have no phi instructions. -/
def reachB (f : Function) : Bool :=
  let r := reachable f
  (((List.range f.blocks.length).all fun i => r.contains i) &&
    f.blocks.all fun b => b.term.targets.all fun t => decide (t < f.blocks.length)) ||
  r.all fun i => (f.blocks[i]?).all fun b => b.instrs.all notPhi

/-- Conditions of the passes of the standard pipeline, each on the function it is applied to. -/
def standardB (k : Config) (S : Sem) (ps rs : List Ty) (f : Function) : Bool :=
  allInstrs f simplifiableB &&
  match arithSimplify f with
  | .error _ => false
  | .ok f =>
    typedB f && signatureB ps rs f && allInstrs f (callB S) && allInstrs f (fun i => decide (i.destinations.length ≤ 1)) &&
    match constProp f with
    | .error _ => false
    | .ok f =>
      allInstrs f foldableB &&
      match constFold f with
      | .error _ => false
      | .ok f =>
        ssaB f && ((localCse (copyProp k.copies f)).blocks.all fun b => termCanonB b.term) &&
        match simplifyBranches (localCse (copyProp k.copies f)) with
        | .error _ => false
        | .ok f => allInstrs f fusableB && reachB (fuseBranches f) && phiB (deadCode (fuseBranches f))

/-- Conditions of the stages on one function. -/
def checkFn (k : Config) (S : Sem) (f : Name × Fn) : Bool :=
  f.2.ok S &&
  match lowerFn k.lower S f.1 f.2 with
  | none => false
  | some F =>
    closed F && (if k.optimise then standardB k S (f.2.params.map S.varTy) f.2.rets F else phiB F) &&
    match passes k F with
    | none => false
    | some G => signatureB (f.2.params.map S.varTy) f.2.rets G && decide (G.name = f.1)

/-- Conditions of the stages on a program. -/
def checkProgram (k : Config) (p : Program) : Bool :=
  p.fns.all (checkFn k p.sem) &&
  match toMir k p with
  | none => false
  | some md => moduleB md

end Pipeline
end CairoM
