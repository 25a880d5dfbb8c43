import Verif.ImportedNames

/-!
# Specification: what an imported name means

Definitions at the top level of a module, imports, and the definition a name stands for, without tables or search.
-/

namespace CairoM.Syntax

/-- The item defines the name at the top level of its module. An import defines it too. -/
inductive Defines : Item → String → DefKind → Prop
  | function (f : FunctionDef) : Defines (.function f) f.name .function
  | struct (x : String) (fs : List (String × TypeExpr)) : Defines (.struct x fs) x .struct
  | const (c : ConstDef) : Defines (.const c) c.name .const
  | single (p : List String) (x : String) (hp : p ≠ []) : Defines (.use p (.single x)) x .use
  | list (p xs : List String) (x : String) (hp : p ≠ []) (hx : x ∈ xs) : Defines (.use p (.list xs)) x .use

/-- The item imports the name from the module. -/
inductive Asks : Item → String → String → Prop
  | single (p : List String) (x : String) (hp : p ≠ []) : Asks (.use p (.single x)) (pathName p) x
  | list (p xs : List String) (x : String) (hp : p ≠ []) (hx : x ∈ xs) : Asks (.use p (.list xs)) (pathName p) x

/-- The name, in the module `m`, stands for a function, struct or constant of the module `k`: of the module itself, or of
one that it is imported from, possibly through other modules. -/
inductive Means (P : Project) : String → String → String → DefKind → Prop
  | own {m x : String} {is : List Item} {i : Item} {kind : DefKind} (hm : (m, is) ∈ P) (hi : i ∈ is)
      (hd : Defines i x kind) (hk : kind ≠ .use) : Means P m x m kind
  | via {m m' x k : String} {is : List Item} {i : Item} {kind : DefKind} (hm : (m, is) ∈ P) (hi : i ∈ is)
      (ha : Asks i m' x) (hr : Means P m' x k kind) : Means P m x k kind

end CairoM.Syntax
