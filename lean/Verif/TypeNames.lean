import Verif.ImportedNames
import Verif.Mir

/-!
# Model: types of declarations

`resolve_ast_type`, `definition_semantic_type`, `struct_semantic_data` and `function_semantic_signature`
(`crates/compiler/semantic/src/type_resolution.rs`) on the declarations of a crate. They are tracked functions of salsa without a
treatment of cycles: when the type of a declaration is asked for while it is being computed, salsa panics. The declarations
being computed are the list `active`; that results are kept between calls makes no difference to them.

Types are written as in the mid-level representation (`MirType::from_semantic_type`, `mir/src/mir_types.rs:189-239`).
-/

namespace CairoM
namespace TypeNames

open Mir Syntax

/-- A name in a module. -/
abbrev Key := String × String

/-- What a declaration says about types. -/
inductive Decl where
  /-- The fields of a struct. -/
  | struct (fields : List (String × TypeExpr))
  /-- A function: the types of its parameters and its return type. -/
  | function (types : List TypeExpr)
  /-- A constant with its annotation. -/
  | const (type : TypeExpr)
  /-- An imported name. -/
  | use (target : Key)

/-- The declarations of an item. Constants without annotation, whose type is that of their value, are left out. -/
def decls : Item → List (String × Decl)
  | .function f => [(f.name, .function (f.params.map Prod.snd ++ [f.returnType]))]
  | .struct x fs => [(x, .struct fs)]
  | .const c => c.ty.toList.map fun t => (c.name, .const t)
  | .use p is => (Item.imports (.use p is)).map fun k => (k.2, .use k)

/-- The latest declaration of a name in a module (`latest_definition_index_by_name`, `semantic_index.rs`; for names declared twice see
C96). -/
def declOf (P : Project) (k : Key) : Option Decl :=
  (P.lookup k.1).bind fun is => (is.flatMap decls).reverse.lookup k.2

/-- Why there is no type. -/
inductive Stop where
  /-- The panic of salsa. -/
  | cycle
  /-- The model's bound on the number of nested calls. -/
  | bound
  deriving DecidableEq

/-- Results one after the other. -/
def sequence : List (Except Stop MirType) → Except Stop (List MirType)
  | [] => .ok []
  | r :: rs => r.bind fun t => (sequence rs).map fun ts => t :: ts

def isStruct : MirType → Bool
  | .Struct _ _ => true
  | _ => false

def isArray : MirType → Bool
  | .FixedArray _ _ => true
  | _ => false

def isArrayExpr : TypeExpr → Bool
  | .fixedArray _ _ => true
  | _ => false

mutual
/-- `resolve_ast_type` (`type_resolution.rs:28-115`) in a module; `ask` is `definition_semantic_type`. Names are looked up among the
declarations of the module: local names that hide them are left out. -/
def resolve (ask : String → Except Stop MirType) : TypeExpr → Except Stop MirType
  | .named .felt => .ok .Felt
  | .named .bool => .ok .Bool
  | .named .u32 => .ok .U32
  | .named (.custom x) => (ask x).map fun t => if isStruct t then t else .Error
  | .pointer t => (resolve ask t).map .Pointer
  | .tuple ts => (sequence (resolves ask ts)).map .Tuple
  | .fixedArray t n =>
    if isArrayExpr t then .ok .Error
    else (resolve ask t).map fun u => if isArray u then .Error else .FixedArray u n
/-- The elements of a tuple. -/
def resolves (ask : String → Except Stop MirType) : List TypeExpr → List (Except Stop MirType)
  | [] => []
  | t :: ts => resolve ask t :: resolves ask ts
end

/-- `definition_semantic_type` (`type_resolution.rs:139-268`) with `struct_semantic_data` (`893-926`) and `function_semantic_signature`
(`929-977`). The types of functions, which are no types for a type name, are all written `Error`. -/
def typeOf (P : Project) : ℕ → List Key → Key → Except Stop MirType
  | 0, _, _ => .error .bound
  | n + 1, active, k =>
    if k ∈ active then .error .cycle
    else
      let ask := fun x => typeOf P n (k :: active) (k.1, x)
      match declOf P k with
      | none => .ok .Error
      | some (.struct fs) =>
        (sequence (resolves ask (fs.map Prod.snd))).map fun ts => .Struct k.2.toList ((fs.map fun f => f.1.toList).zip ts)
      | some (.function ts) => (sequence (resolves ask ts)).map fun _ => .Error
      | some (.const t) => resolve ask t
      | some (.use target) =>
        if (P.lookup target.1).isSome then typeOf P n (k :: active) target else .ok .Error

/-- All names that are declared. -/
def keys (P : Project) : List Key := P.flatMap fun m => (m.2.flatMap decls).map fun d => (m.1, d.1)

/-- The type of a type expression of a module. The bound is never reached (`C103_exact`). -/
def typeOfExpr (P : Project) (m : String) (t : TypeExpr) : Except Stop MirType :=
  resolve (fun x => typeOf P ((keys P).length + 2) [] (m, x)) t

end TypeNames
end CairoM
