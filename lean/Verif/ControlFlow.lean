import Verif.Syntax

/-!
# Control-flow validation

Model of `crates/compiler/semantic/src/validation/control_flow_validator.rs`. The span of a statement is replaced by
its position in the body: the path of child numbers that leads to it. The nested statements of a block are numbered
from 0; a branch of a conditional is 0 or 1; the body of `loop` and `while` is 0; initialisation, body and step of
`for` are 0, 1 and 2.
-/

namespace CairoM.Syntax

/-- Position of a statement. -/
abbrev Pos := List Nat

/-- The diagnostics of the validator (`diagnostics/src/diagnostics.rs:297-334`), each with the position of the
statement it is about. -/
inductive FlowDiag where
  | unreachable
  | breakOutside
  | continueOutside
  deriving DecidableEq, Repr

/-- Reports about a nested statement, seen from the enclosing one. -/
def below (i : Nat) (ds : List (Pos × FlowDiag)) : List (Pos × FlowDiag) := ds.map fun d => (i :: d.1, d.2)

mutual
/-- `contains_break` (`control_flow_validator.rs:345-369`). -/
def Stmt.containsBreak : Stmt → Bool
  | .break_ => true
  | .block ss => Stmt.anyBreak ss
  | .if_ _ t none => t.containsBreak
  | .if_ _ t (some e) => t.containsBreak || e.containsBreak
  | _ => false
/-- `statements.iter().any(contains_break)`. -/
def Stmt.anyBreak : List Stmt → Bool
  | [] => false
  | s :: ss => s.containsBreak || Stmt.anyBreak ss
end

mutual
/-- `analyze_for_unreachable_code_in_statement` (`control_flow_validator.rs:158-253`): the reports about the nested
statements, and whether the statement terminates the control flow. -/
def Stmt.flow (depth : Nat) : Stmt → List (Pos × FlowDiag) × Bool
  | .return_ _ => ([], true)
  | .block ss => Stmt.flows depth 0 false ss
  | .if_ _ t none => (below 0 (t.flow depth).1, false)
  | .if_ _ t (some e) =>
    (below 0 (t.flow depth).1 ++ below 1 (e.flow depth).1, (t.flow depth).2 && (e.flow depth).2)
  | .loop_ b => (below 0 (b.flow (depth + 1)).1, !b.containsBreak)
  | .while_ _ b => (below 0 (b.flow (depth + 1)).1, false)
  | .for_ i _ s b =>
    (below 0 (i.flow depth).1 ++ below 1 (b.flow (depth + 1)).1 ++ below 2 (s.flow depth).1, false)
  | .break_ => (if depth = 0 then [([], .breakOutside)] else [], decide (depth > 0))
  | .continue_ => (if depth = 0 then [([], .continueOutside)] else [], decide (depth > 0))
  | .let_ .. | .const .. | .assign .. | .expr .. => ([], false)
/-- `analyze_for_unreachable_code_in_sequence` (`control_flow_validator.rs:119-156`): `i` is the number of the first
statement, `dead` is `path_has_terminated`. -/
def Stmt.flows (depth : Nat) : Nat → Bool → List Stmt → List (Pos × FlowDiag) × Bool
  | _, dead, [] => ([], dead)
  | i, dead, s :: ss =>
    ((if dead then [([i], .unreachable)] else []) ++ below i (s.flow depth).1 ++
        (Stmt.flows depth (i + 1) (dead || (s.flow depth).2) ss).1,
      (Stmt.flows depth (i + 1) (dead || (s.flow depth).2) ss).2)
end

mutual
/-- `statement_guarantees_hard_return` (`control_flow_validator.rs:312-342`). -/
def Stmt.hardReturn : Stmt → Bool
  | .return_ _ => true
  | .block ss => Stmt.anyHard ss
  | .if_ _ t (some e) => t.hardReturn && e.hardReturn
  | .loop_ b => b.hardReturn
  | _ => false
/-- `body.iter().any(statement_guarantees_hard_return)`. -/
def Stmt.anyHard : List Stmt → Bool
  | [] => false
  | s :: ss => s.hardReturn || Stmt.anyHard ss
end

mutual
/-- `statement_provides_return_value` (`control_flow_validator.rs:278-308`). -/
def Stmt.provides : Stmt → Bool
  | .return_ _ => true
  | .block ss => Stmt.returns ss
  | .if_ _ t (some e) => t.provides && e.provides
  | .loop_ b => b.provides
  | _ => false
/-- `body_returns_on_all_paths` (`control_flow_validator.rs:260-275`): an explicit return before the last statement,
or a last statement that returns. -/
def Stmt.returns : List Stmt → Bool
  | [] => false
  | [s] => s.provides
  | s :: ss => s.hardReturn || Stmt.returns ss
end

/-- Reports of the first pass about a function (`control_flow_validator.rs:69-98`). -/
def FunctionDef.flow (f : FunctionDef) : List (Pos × FlowDiag) := (Stmt.flows 0 0 false f.body).1

/-- No error about control flow: unreachable code is a warning, `break` and `continue` outside loops and a missing
return are errors (`control_flow_validator.rs:69-98`, `diagnostics/src/diagnostics.rs:297-334`). The function is the
one with this name; duplicate names are an error of another check. -/
def FunctionDef.flowOk (f : FunctionDef) : Bool :=
  f.flow.all (fun d => decide (d.2 = .unreachable)) && Stmt.returns f.body

end CairoM.Syntax
