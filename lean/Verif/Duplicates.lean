import Verif.Names

/-!
# Model: the checks for names that are defined twice

`check_top_level_items` (`crates/compiler/semantic/src/semantic_errors.rs`), called while the index is built, and the
checks of `StructuralValidator` (`validation/structural_validator.rs`) with the helpers of `validation/shared.rs`. A
diagnostic is its code and the name it is about; spans, texts and the final sorting of the diagnostics of a file are
left out.
-/

namespace CairoM.Syntax

/-- The codes of the diagnostics for names defined twice (`semantic_errors.rs:59`, `validation/shared.rs:29, 65, 94`). -/
inductive Duplicate where
  | definition (name : String)
  | parameter (name : String)
  | field (name : String)
  | pattern (name : String)
  deriving DecidableEq, Repr

/-- The loop of all four checks: a name that is already in the set is reported, another one is put into it
(`semantic_errors.rs:53-67`, `validation/shared.rs:23-35, 61-74, 90-100`). -/
def repeats (seen : List String) : List String → List String
  | [] => []
  | x :: xs => if x ∈ seen then x :: repeats seen xs else repeats (x :: seen) xs

/-- The names of an item that are compared (`semantic_errors.rs:39-44`, `UseItems::names`, `parser.rs:493-498`). -/
def Item.topNames : Item → List String
  | .function f => [f.name]
  | .struct x _ => [x]
  | .const c => [c.name]
  | .use _ (.single x) => [x]
  | .use _ (.list xs) => xs

/-- `duplicate_top_level_items` (`semantic_errors.rs:36-69`). -/
def topLevelDuplicates (is : List Item) : List Duplicate :=
  (repeats [] (is.flatMap Item.topNames)).map .definition

/-- `check_duplicate_parameter_names` (`validation/shared.rs:12-36`). -/
def parameterDuplicates (ps : List (String × TypeExpr)) : List Duplicate :=
  if ps.length < 2 then [] else (repeats [] (ps.map (·.1))).map .parameter

/-- `check_duplicate_struct_fields` (`validation/shared.rs:78-101`). -/
def fieldDuplicates (fs : List (String × TypeExpr)) : List Duplicate := (repeats [] (fs.map (·.1))).map .field

/-- `check_duplicate_pattern_identifiers` (`validation/shared.rs:39-75`); its `collect_identifiers` (`45-56`) lists the names
as `Pattern.names` does. -/
def patternDuplicates (p : Pattern) : List Duplicate := (repeats [] p.names).map .pattern

mutual
/-- One round of the loop in `check_patterns_in_statements` (`validation/structural_validator.rs:118-152`). All other
statements, `for` among them, take the last branch. -/
def Stmt.patternDuplicates : Stmt → List Duplicate
  | .let_ p _ _ => Syntax.patternDuplicates p
  | .block ss => Stmt.patternDuplicatesAll ss
  | .if_ _ t none => t.patternDuplicates
  | .if_ _ t (some e) => t.patternDuplicates ++ e.patternDuplicates
  | .loop_ s | .while_ _ s => s.patternDuplicates
  | _ => []
/-- `check_patterns_in_statements` (`validation/structural_validator.rs:118-152`). -/
def Stmt.patternDuplicatesAll : List Stmt → List Duplicate
  | [] => []
  | s :: ss => s.patternDuplicates ++ Stmt.patternDuplicatesAll ss
end

/-- `find_function_in_module` (`validation/structural_validator.rs:79-89`): the first function with the name. -/
def findFunction (is : List Item) (name : String) : Option FunctionDef :=
  is.findSome? fun
    | .function f => if f.name = name then some f else none
    | _ => none

/-- `find_struct_in_module` (`validation/structural_validator.rs:91-102`): the fields of the first struct with the name. -/
def findStruct (is : List Item) (name : String) : Option (List (String × TypeExpr)) :=
  is.findSome? fun
    | .struct x fs => if x = name then some fs else none
    | _ => none

/-- The body of the loop over the definitions of the index (`validation/structural_validator.rs:44-65`). -/
def definitionDuplicates (is : List Item) (d : Def) : List Duplicate :=
  match d.kind with
  | .function => match findFunction is d.name with
    | some f => parameterDuplicates f.params
    | none => []
  | .struct => match findStruct is d.name with
    | some fs => fieldDuplicates fs
    | none => []
  | _ => []

/-- `check_patterns_in_module` (`validation/structural_validator.rs:104-115`). -/
def modulePatternDuplicates (is : List Item) : List Duplicate :=
  is.flatMap fun
    | .function f => Stmt.patternDuplicatesAll f.body
    | _ => []

/-- The diagnostics about names defined twice that `validate_all` collects for a file (`validation/validator.rs:113-132`):
those of the index and those of `StructuralValidator` (`validation/structural_validator.rs:27-72`). -/
def duplicates (is : List Item) : List Duplicate :=
  topLevelDuplicates is ++ (Builder.build is).defs.flatMap (definitionDuplicates is) ++ modulePatternDuplicates is

end CairoM.Syntax
