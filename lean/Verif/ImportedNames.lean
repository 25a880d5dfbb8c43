import Verif.Names
import Verif.Imports

/-!
# Model: names imported from other modules

The check of imports (`crates/compiler/semantic/src/validation/scope_check.rs`), the import graph (`db.rs`) and the way from an
imported name to its definition (`type_resolution.rs`). A crate is an association list from the names of its modules to
their items.
-/

namespace CairoM.Syntax

/-- The modules of a crate (`Crate::modules`, `db.rs:107-112`). -/
abbrev Project := List (String × List Item)

/-- The name of the imported module (`semantic_index.rs:978-987`, `db.rs:245-250`). -/
def pathName (path : List String) : String := "::".intercalate path

/-- The imports of a `use` item, module and name (`declare_use`, `semantic_index.rs:968-1023`). -/
def Item.imports : Item → List (String × String)
  | .use [] _ => []
  | .use (p :: ps) (.single x) => [(pathName (p :: ps), x)]
  | .use (p :: ps) (.list xs) => xs.map fun x => (pathName (p :: ps), x)
  | _ => []

/-- The diagnostics of the check (`scope_check.rs:254`, `281`). -/
inductive ImportReport where
  | module (m : String)
  | item (m x : String)
  deriving DecidableEq, Repr

/-- One round of the loop in `check_import_validity` (`scope_check.rs:220-299`): the module must be there, and a definition of
the name in its root scope. The inner loops over the definitions only look for the position of the report; the import
itself has put the definition they look for into the index. -/
def importReport (P : Project) (m x : String) : List ImportReport :=
  match P.lookup m with
  | some is =>
    match (Builder.build is).latest 0 x with
    | some _ => []
    | none => [.item m x]
  | none => [.module m]

/-- `check_import_validity` (`scope_check.rs:220-299`) on a module. Not modelled: the check is skipped when the index of the
project cannot be built (`229-232`), which is the case of a cycle of imports, an error of its own (C88). -/
def importReports (P : Project) (is : List Item) : List ImportReport :=
  (is.flatMap Item.imports).flatMap fun i => importReport P i.1 i.2

/-- An edge of the import graph (`db.rs:240-252`). -/
def Item.edges : Item → List String
  | .use (p :: ps) _ => [pathName (p :: ps)]
  | _ => []

/-- `project_import_graph` (`db.rs:235-258`). -/
def importGraph (P : Project) : Imports.Graph String := P.map fun m => (m.1, m.2.flatMap Item.edges)

/-- The definition behind a name of a module: `definition_semantic_type` (`type_resolution.rs:140-268`), which goes on in the
imported module when the latest definition of the name in the root scope is an import (`232-261`). An import that
is the latest definition of a name is the last import of that name. `none` when there is no definition, or when the
number of steps is used up. -/
def follow (P : Project) : ℕ → String → String → Option (String × DefKind)
  | 0, _, _ => none
  | n + 1, m, x =>
    match P.lookup m with
    | none => none
    | some is =>
      match ((Builder.build is).latest 0 x).bind ((Builder.build is).defs[·]?) with
      | none => none
      | some d =>
        if d.kind = .use then
          match (is.flatMap Item.imports).reverse.find? (fun i => i.2 = x) with
          | none => none
          | some i => follow P n i.1 x
        else some (m, d.kind)

end CairoM.Syntax
