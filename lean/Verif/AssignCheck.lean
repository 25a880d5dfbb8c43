import Verif.ImportedNames

/-!
# Model: what may be assigned to

The first part of `check_assignment_types` (`crates/compiler/semantic/src/validation/type_validator.rs`), before the comparison of the
types.
-/

namespace CairoM.Syntax

/-- The diagnostics of the check (`type_validator.rs:1828`, `1930`). -/
inductive AssignReport where
  | constant
  | invalidTarget
  deriving DecidableEq, Repr

/-- The definition that an imported name is given by `resolve_name_with_imports_at_position` (`semantic_index.rs:501-527`): the
latest definition in the module it is imported from, which may be an import again. The first import of the name
decides. -/
def importedKind (P : Project) (is : List Item) (x : String) : Option DefKind :=
  match (is.flatMap Item.imports).find? (fun i => i.2 = x) with
  | none => none
  | some i =>
    match P.lookup i.1 with
    | none => none
    | some js => (((Builder.build js).latest 0 x).bind ((Builder.build js).defs[·]?)).map (·.kind)

/-- A name resolves to a constant (`type_validator.rs:1724-1799`, `1811-1868`): to one of the file itself or to one that is
imported. `kind` is the kind of the definition that the index links to the use. The search by position, for a use
without such a definition, is left out. -/
def isConstName (P : Project) (is : List Item) (kind : DefKind) (x : String) : Bool :=
  match kind with
  | .const => true
  | .use => importedKind P is x = some .const
  | _ => false

/-- `lvalue_resolves_to_const` (`type_validator.rs:1717-1807`); `kindOf` gives the kind of the definition of a name. -/
def lvalueConst (P : Project) (is : List Item) (kindOf : String → Option DefKind) : Expr → Bool
  | .ident x =>
    match kindOf x with
    | some k => isConstName P is k x
    | none => false
  | .member e _ | .tupleIndex e _ | .index e _ | .cast e _ | .paren e => lvalueConst P is kindOf e
  | _ => false

/-- The match on the target (`type_validator.rs:1811-1938`). -/
def checkTarget (P : Project) (is : List Item) (kindOf : String → Option DefKind) (lhs : Expr) : List AssignReport :=
  match lhs with
  | .ident _ | .member .. | .tupleIndex .. | .index .. => if lvalueConst P is kindOf lhs then [.constant] else []
  | _ => [.invalidTarget]

end CairoM.Syntax
