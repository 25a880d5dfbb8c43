import Verif.ComponentAssign

/-!
# Model: `let` with a tuple pattern

The check of the pattern against the type of the value (`check_let_statement_types`,
`crates/compiler/semantic/src/validation/type_validator.rs`) and its lowering (`lower_pattern`, `lower_pattern_with_type`,
`crates/compiler/mir/src/lowering/stmt.rs`). Types are those of the mid-level representation in both; the type annotation, which is
compared with the type of the value, is left out.
-/

namespace CairoM
namespace PatternLet

open Mir Syntax

/-- The diagnostics of the check (`type_validator.rs:1605`, `1625`, `1639`, `1678`). -/
inductive LetReport where
  | arity
  | nestedArity
  | nestedNotTuple
  | notTuple
  deriving DecidableEq, Repr

/-- The body of the loop over the elements (`type_validator.rs:1619-1652`). -/
def checkElement : Pattern × MirType → List LetReport
  | (.tuple qs, .Tuple us) => if us.length ≠ qs.length then [.nestedArity] else []
  | (.tuple _, _) => [.nestedNotTuple]
  | _ => []

/-- The match on the pattern (`type_validator.rs:1575-1692`), without the comparison with an annotation. -/
def checkLet : Pattern → MirType → List LetReport
  | .ident _, _ => []
  | .tuple ps, .Tuple ts => (if ts.length ≠ ps.length then [.arity] else []) ++ (ps.zip ts).flatMap checkElement
  | .tuple _, _ => [.notTuple]

/-- What is emitted: instructions, the types of the new names in order, and the names bound. -/
structure Emitted where
  instrs : List Instr
  tys : List MirType
  bound : List (String × ValueId)

/-- `bind_variable` (`mir/src/lowering/builder.rs:653-712`), which does the same as `bind_variable_def` once the definition is found
(it is found by its name and position). `varTy` gives the types of the definitions. -/
def bind1 (varTy : String → MirType) (next : ValueId) (x : String) (v : Value) : Emitted :=
  let e := ComponentAssign.bindVariable next x (varTy x) v
  ⟨e.instrs, e.tys, e.bound.toList⟩

mutual
/-- `lower_pattern_with_type` (`stmt.rs:825-874`); `none` is an error of the lowering. -/
def lowerTyped (varTy : String → MirType) (next : ValueId) : Pattern → Value → MirType → Option Emitted
  | .ident x, v, _ => some (bind1 varTy next x v)
  | .tuple ps, .Operand v, .Tuple ts => lowerElements varTy next ps v ts 0
  | .tuple _, _, _ => none
/-- The loop over the elements (`stmt.rs:793-818`, `846-870`), from element `i`. -/
def lowerElements (varTy : String → MirType) (next : ValueId) : List Pattern → ValueId → List MirType → ℕ → Option Emitted
  | [], _, _, _ => some ⟨[], [], []⟩
  | p :: ps, v, ts, i =>
    (ts[i]?).bind fun t =>
    (lowerTyped varTy (next + 1) p (.Operand next) t).bind fun o =>
    (lowerElements varTy (next + 1 + o.tys.length) ps v ts (i + 1)).map fun o' =>
      ⟨.ExtractTupleElement next (.Operand v) i t :: (o.instrs ++ o'.instrs), t :: (o.tys ++ o'.tys), o.bound ++ o'.bound⟩
end

/-- `lower_pattern` (`stmt.rs:762-822`); `types` are the types of the names of the function so far. -/
def lowerPattern (varTy : String → MirType) (types : ValueId → Option MirType) (next : ValueId) : Pattern → Value → Option Emitted
  | .ident x, v => some (bind1 varTy next x v)
  | .tuple ps, .Operand v =>
    match types v with
    | some (.Tuple ts) => lowerElements varTy next ps v ts 0
    | _ => none
  | .tuple _, _ => none

end PatternLet
end CairoM
