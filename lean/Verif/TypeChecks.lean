import Verif.TypeNames

/-!
# Model: the checks of type expressions

The type usages recorded by the semantic index and reported by `check_undeclared_variables_global` (`crates/compiler/semantic/src/validation/scope_check.rs`),
and `check_for_nested_arrays` (`validation/type_validator.rs`), on the signatures, structs and constants of a crate. Type expressions
in function bodies are left out.
-/

namespace CairoM
namespace TypeChecks

open Mir Syntax TypeNames

/-- What is reported about a type expression. -/
inductive Report where
  | undeclaredType (name : String)
  | nestedArray
  deriving DecidableEq

mutual
/-- `visit_type_expr` (`semantic_index.rs:1706-1733`) with `walk_type_expr` (`visitor.rs:103-121`) and the loop over type usages
(`scope_check.rs:191-214`): a name is reported if it has no declaration of any kind in the module. -/
def undeclared (P : Project) (m : String) : TypeExpr → List Report
  | .named .felt | .named .bool | .named .u32 => []
  | .named (.custom x) => if (declOf P (m, x)).isSome then [] else [.undeclaredType x]
  | .pointer t => undeclared P m t
  | .tuple ts => undeclareds P m ts
  | .fixedArray t _ => undeclared P m t
/-- The elements of a tuple. -/
def undeclareds (P : Project) (m : String) : List TypeExpr → List Report
  | [] => []
  | t :: ts => undeclared P m t ++ undeclareds P m ts
end

mutual
/-- `check_for_nested_arrays` (`type_validator.rs:193-221`). -/
def nestedArrays : TypeExpr → List Report
  | .fixedArray t _ => if isArrayExpr t then [.nestedArray] else []
  | .tuple ts => nestedArraysAll ts
  | _ => []
/-- The elements of a tuple. -/
def nestedArraysAll : List TypeExpr → List Report
  | [] => []
  | t :: ts => nestedArrays t ++ nestedArraysAll ts
end

/-- The type expressions of an item that `visit_function`, `visit_parameter` and `visit_struct` visit (`semantic_index.rs:1620-1667`).
`visit_const` (`1673-1704`) does not visit the annotation. -/
def visited : Item → List TypeExpr
  | .function f => f.returnType :: f.params.map Prod.snd
  | .struct _ fs => fs.map Prod.snd
  | _ => []

/-- The type expressions of an item that are checked for nested arrays (`type_validator.rs:70-82`): signatures only. -/
def checkedNested : Item → List TypeExpr
  | .function f => f.returnType :: f.params.map Prod.snd
  | _ => []

/-- All reports about the type expressions of a crate. -/
def reports (P : Project) : List Report :=
  P.flatMap fun m => m.2.flatMap fun i => (visited i).flatMap (undeclared P m.1) ++ (checkedNested i).flatMap nestedArrays

end TypeChecks
end CairoM
