import Verif.MirSem

/-!
# Specification: functions with tuples and structs

Extends the meaning of the mid-level representation (`MirSem`) from scalars to trees of scalars: a tuple is the list of
its elements, a struct the list of its fields in the order of their declaration. Aggregates are values: updating one
creates a new value and leaves the old one as it was. Arrays, loads and stores, which work on memory, have no meaning
here.

Written without reference to the passes.
-/

namespace CairoM
namespace Agg

open Mir Lang

/-- Values: scalars and aggregates of values. -/
inductive AVal where
  | scalar (v : Val)
  | agg (xs : List AVal)

/-- Values of the names. -/
abbrev AEnv := ValueId → Option AVal

/-- What the callees do. -/
abbrev ACalls := ℕ → List AVal → Option (List AVal)

/-- The scalars among the values. -/
def scalars (env : AEnv) : Lang.Env := fun v =>
  match env v with
  | some (.scalar x) => some x
  | _ => none

/-- A value read where a value of type `t` is expected. -/
def readA (env : AEnv) (t : MirType) : Value → Option AVal
  | .Literal l => (scalarTy t).bind fun t => (denote t l).map .scalar
  | .Operand v => env v
  | .Error => none

/-- Several values, each read at its type. -/
def readAllA (env : AEnv) : List MirType → List Value → Option (List AVal)
  | [], [] => some []
  | t :: ts, v :: vs => (readA env t v).bind fun x => (readAllA env ts vs).map fun xs => x :: xs
  | _, _ => none

/-- The elements of an aggregate. -/
def elements (env : AEnv) : Value → Option (List AVal)
  | .Operand v =>
    match env v with
    | some (.agg xs) => some xs
    | _ => none
  | _ => none

/-- The types of the elements of a tuple or struct. -/
def elementTys : MirType → Option (List MirType)
  | .Tuple ts => some ts
  | .Struct _ fs => some (fs.map Prod.snd)
  | _ => none

/-- The position of a field. -/
def fieldIndex : MirType → Name → Option ℕ
  | .Struct _ fs, name => fs.findIdx? fun f => f.1 = name
  | _, _ => none

/-- The values given for the fields of a struct, in the order of their declaration. -/
def inOrder (given : List (Name × Value)) : List (Name × MirType) → Option (List Value)
  | [] => some []
  | f :: fs => (given.lookup f.1).bind fun v => (inOrder given fs).map fun vs => v :: vs

/-- Binding several names, in order. -/
def bindA (env : AEnv) : List ValueId → List AVal → Option AEnv
  | [], [] => some env
  | d :: ds, x :: xs => bindA (Function.update env d (some x)) ds xs
  | _, _ => none

/-- Effect of an instruction; `none` when it faults or is about arrays or memory. -/
def evalA (types : ValueId → Option MirType) (calls : ACalls) (i : Instr) (env : AEnv) : Option AEnv :=
  match i with
  | .Assign d v ty => (readA env ty v).map fun x => Function.update env d (some x)
  | .Call ds callee args sig =>
    (readAllA env sig.params args).bind fun xs => (calls callee xs).bind fun ys => bindA env ds ys
  | .MakeTuple d es =>
    match types d with
    | some (.Tuple ts) => (readAllA env ts es).map fun xs => Function.update env d (some (.agg xs))
    | _ => none
  | .MakeStruct d given ty =>
    match ty with
    | .Struct _ fs => (inOrder given fs).bind fun es =>
        (readAllA env (fs.map Prod.snd) es).map fun xs => Function.update env d (some (.agg xs))
    | _ => none
  | .ExtractTupleElement d t i _ =>
    (elements env t).bind fun xs => (xs[i]?).map fun x => Function.update env d (some x)
  | .ExtractStructField d (.Operand s) name _ =>
    (types s).bind fun ty => (fieldIndex ty name).bind fun i => (elements env (.Operand s)).bind fun xs =>
      (xs[i]?).map fun x => Function.update env d (some x)
  | .InsertTuple d t i v ty =>
    (elementTys ty).bind fun ts => (ts[i]?).bind fun et => (elements env t).bind fun xs => (readA env et v).bind fun x =>
      if i < xs.length then some (Function.update env d (some (.agg (xs.set i x)))) else none
  | .InsertField d s name v ty =>
    (fieldIndex ty name).bind fun i => (elementTys ty).bind fun ts => (ts[i]?).bind fun et => (elements env s).bind fun xs =>
      (readA env et v).bind fun x =>
        if i < xs.length then some (Function.update env d (some (.agg (xs.set i x)))) else none
  | i => (evalInstr (fun _ _ => none) i (scalars env)).map fun env' v =>
      if v ∈ i.destinations then (env' v).map .scalar else env v

/-- Several instructions. -/
def evalAs (types : ValueId → Option MirType) (calls : ACalls) : List Instr → AEnv → Option AEnv
  | [], env => some env
  | i :: is, env => (evalA types calls i env).bind (evalAs types calls is)

/-- The phi nodes at the head of a block (`Lang.evalPhis`). -/
def evalPhisA (env : AEnv) (pred : Option BlockId) : List Instr → AEnv → Option (AEnv × List Instr)
  | .Phi d ty sources :: is, acc =>
    pred.bind fun p => (sources.lookup p).bind fun v => (readA env ty v).bind fun x =>
      evalPhisA env pred is (Function.update acc d (some x))
  | is, acc => some (acc, is)

/-- What a terminator does. -/
inductive AExit where
  | goto (b : BlockId)
  | ret (vs : List AVal)

/-- The types at which the returned values are read; a value without a type cannot be read. -/
def typesOf (types : ValueId → Option MirType) (vs : List ValueId) : List MirType :=
  vs.map fun v => (types v).getD .Error

/-- Effect of a terminator. -/
def evalTermA (returnTys : List MirType) (env : AEnv) : Terminator → Option AExit
  | .Return vs => (readAllA env returnTys vs).map .ret
  | t =>
    match evalTerm [] (scalars env) t with
    | some (.goto b) => some (.goto b)
    | _ => none

/-- A whole block. -/
def evalBlockA (types : ValueId → Option MirType) (calls : ACalls) (returnTys : List MirType) (b : Block) (pred : Option BlockId)
    (env : AEnv) : Option (AExit × AEnv) :=
  (evalPhisA env pred b.instrs env).bind fun p => (evalAs types calls p.2 p.1).bind fun env =>
    (evalTermA returnTys env b.term).map fun x => (x, env)

/-- Result of running a function. -/
inductive AResult where
  | returned (vs : List AVal)
  | fault
  | unfinished

/-- Running a function from a block, at most `n` blocks. -/
def execA (calls : ACalls) (f : Function) : ℕ → Option BlockId → BlockId → AEnv → AResult
  | 0, _, _, _ => .unfinished
  | n + 1, pred, id, env =>
    match f.blocks[id]? with
    | none => .fault
    | some b =>
      match evalBlockA f.types calls (typesOf f.types f.returns) b pred env with
      | none => .fault
      | some (.ret vs, _) => .returned vs
      | some (.goto t, env') => execA calls f n (some id) t env'

/-- Running a function on arguments, at most `n` blocks. -/
def runA (calls : ACalls) (f : Function) (n : ℕ) (args : List AVal) : AResult :=
  match bindA (fun _ => none) f.params args with
  | none => .fault
  | some env => execA calls f n none 0 env

end Agg
end CairoM
