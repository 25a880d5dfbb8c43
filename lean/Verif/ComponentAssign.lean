import Verif.AggSem
import Verif.Syntax

/-!
# Model: lowering of assignments to components

`lower_assignment_statement` (`crates/compiler/mir/src/lowering/stmt.rs`): an assignment `x.f.0 = e;` reads the components on the way,
then rebuilds the aggregates from the inside to the outside and binds the variable to the outermost one.

The right-hand side and the base of the target have been lowered (their instructions precede those given here). The types
of variables and other bases are a parameter; the type of a component is that of its declaration.
-/

namespace CairoM
namespace ComponentAssign

open Mir Syntax

/-- How a component is named. -/
inductive Sel where
  | field (name : Name)
  | tuple (i : ℕ)
  deriving DecidableEq

/-- `LhsStep` (`stmt.rs:19-42`), with the types of the two expressions it holds. -/
structure LhsStep where
  sel : Sel
  container : MirType
  result : MirType

/-- The number of a component and its type. -/
def component : MirType → Sel → Option (ℕ × MirType)
  | .Struct n fs, .field f => (Agg.fieldIndex (.Struct n fs) f).bind fun i => (fs[i]?).map fun p => (i, p.2)
  | .Tuple ts, .tuple i => (ts[i]?).map fun t => (i, t)
  | _, _ => none

/-- The type of a target (`expr_mir_type`, `mir/src/lowering/builder.rs:638-646`); for components the cases of
`expression_semantic_type` (`semantic/src/type_resolution.rs`), others as given by `ty`. -/
def exprTy (ty : Expr → Option MirType) : Expr → Option MirType
  | .member o f => (exprTy ty o).bind fun c => (component c (.field f.toList)).map Prod.snd
  | .tupleIndex o i => (exprTy ty o).bind fun c => (component c (.tuple i)).map Prod.snd
  | .paren e => exprTy ty e
  | e => ty e

/-- `decompose_lhs_path` (`stmt.rs:83-122`): the loop from the target to the base, with the reversal at its end, as a recursion;
the types are asked for here instead of in the loops over the steps. -/
def decompose (ty : Expr → Option MirType) : Expr → Option (Expr × List LhsStep)
  | .member o f => (decompose ty o).bind fun p => (exprTy ty o).bind fun c => (exprTy ty (.member o f)).map fun r =>
      (p.1, p.2 ++ [⟨.field f.toList, c, r⟩])
  | .tupleIndex o i => (decompose ty o).bind fun p => (exprTy ty o).bind fun c => (exprTy ty (.tupleIndex o i)).map fun r =>
      (p.1, p.2 ++ [⟨.tuple i, c, r⟩])
  | .paren e => decompose ty e
  | e => some (e, [])

/-- `extract_struct_field`, `extract_tuple_element` (`builder.rs:502-520, 540-555`). -/
def extractInstr (d : ValueId) (c : Value) (s : LhsStep) : Instr :=
  match s.sel with
  | .field f => .ExtractStructField d c f s.result
  | .tuple i => .ExtractTupleElement d c i s.result

/-- `insert_struct_field`, `insert_tuple` (`builder.rs:559-608`). -/
def insertInstr (d : ValueId) (c : Value) (s : LhsStep) (v : Value) : Instr :=
  match s.sel with
  | .field f => .InsertField d c f v s.container
  | .tuple i => .InsertTuple d c i v s.container

/-- The loop over the steps from the base to the target (`stmt.rs:279-308`). -/
def extracts : List LhsStep → ValueId → Value → List Instr
  | [], _, _ => []
  | s :: ss, n, cur => extractInstr n cur s :: extracts ss (n + 1) (.Operand n)

/-- The loop over the steps from the target to the base (`stmt.rs:310-339`); `n` is the first of `prefix_values`. The result has
the instructions and the updated value. -/
def rebuild (n : ValueId) (base : Value) : List (LhsStep × ℕ) → ValueId → Value → List Instr × Value
  | [], _, u => ([], u)
  | (s, i) :: ss, next, u =>
    let c := if i = 0 then base else .Operand (n + (i - 1))
    let r := rebuild n base ss (next + 1) (.Operand next)
    (insertInstr next c s u :: r.1, r.2)

/-- What is emitted: instructions, the types of the new names in order, and the variable that is bound to a new name. -/
structure Emitted where
  instrs : List Instr
  tys : List MirType
  bound : Option (String × ValueId)

/-- `bind_variable_def` (`builder.rs:106-149`). -/
def bindVariable (next : ValueId) (x : String) (t : MirType) : Value → Emitted
  | .Operand v => ⟨[], [], some (x, v)⟩
  | .Literal l => ⟨[.Assign next (.Literal l) t], [t], some (x, next)⟩
  | .Error => ⟨[], [t], some (x, next)⟩

/-- The projections added to the place of the base (`stmt.rs:259-269`). -/
def project (p : Place) : List LhsStep → Place
  | [] => p
  | s :: ss =>
    project ⟨p.base, p.projections ++ [match s.sel with | .field f => .Field f | .tuple i => .Tuple i]⟩ ss

/-- `lower_assignment_statement` (`stmt.rs:196-356`). `rhs` is the value of the right-hand side, `base` and `place` are the value and the
place of the base; `next` is the first unused name. `none` is an error of the lowering. -/
def lowerAssign (ty : Expr → Option MirType) (next : ValueId) (lhs : Expr) (rhs base : Value) (place : Option Place) :
    Option Emitted :=
  match lhs with
  | .ident x => (ty (.ident x)).map fun t => bindVariable next x t rhs
  | lhs =>
    (decompose ty lhs).bind fun (b, steps) =>
      match place with
      | some p => (exprTy ty lhs).map fun t => ⟨[.Store (project p steps) rhs t], [], none⟩
      | none =>
        match steps, b with
        | [], .ident x => (ty (.ident x)).map fun t => bindVariable next x t rhs
        | [], _ => some ⟨[], [], none⟩
        | steps, b =>
          let is := extracts steps next base
          let r := rebuild next base steps.zipIdx.reverse (next + steps.length) rhs
          let tys := steps.map LhsStep.result ++ steps.reverse.map LhsStep.container
          match b with
          | .ident x =>
            (ty (.ident x)).map fun t =>
              let e := bindVariable (next + tys.length) x t r.2
              ⟨is ++ r.1 ++ e.instrs, tys ++ e.tys, e.bound⟩
          | _ => some ⟨is ++ r.1, tys, none⟩

end ComponentAssign
end CairoM
