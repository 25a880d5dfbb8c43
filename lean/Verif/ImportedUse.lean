import Verif.ImportedNames
import Verif.Lowering

/-!
# Model: lowering of names imported from other modules

How the lowering to MIR finds the function of a call and the value of an identifier when the name is an import
(`crates/compiler/mir/src/lowering`).
-/

namespace CairoM.Syntax

/-- `resolve_imported_function` (`lowering/builder.rs:194-237`): the module must define the function itself. The table of
functions (`lowering/function.rs:80-117`) has an entry for every definition of a function of every module, so the
last lookup succeeds; a function is named here by its module and its name. -/
def resolveImportedFunction (P : Project) (m x : String) : Option String :=
  match P.lookup m with
  | none => none
  | some is =>
    match ((Builder.build is).latest 0 x).bind ((Builder.build is).defs[·]?) with
    | none => none
    | some d => if d.kind = .function then some m else none

/-- `resolve_callee_expression` (`lowering/builder.rs:414-485`) on an identifier that is not a local variable: the module of
the function that is called. Errors are `none`. An import that is the latest definition of a name is the last import
of that name. -/
def callee (P : Project) (m x : String) : Option String :=
  match P.lookup m with
  | none => none
  | some is =>
    match ((Builder.build is).latest 0 x).bind ((Builder.build is).defs[·]?) with
    | none => none
    | some d =>
      match d.kind with
      | .function => some m
      | .use =>
        match (is.flatMap Item.imports).reverse.find? (fun i => i.2 = x) with
        | none => none
        | some i => resolveImportedFunction P i.1 x
      | _ => none

/-- `lower_identifier` (`lowering/expr.rs:175-225`) on a use with a definition: the expression of a constant is lowered
(`value`), every other definition is read as a variable, with `read_variable` of C61's model. Panics are `none`. -/
def lowerIdentifier (value : Lower.St → Option (Mir.ValueId × Lower.St)) (fuel : ℕ) (kind : DefKind) (v : Source.Var) (st : Lower.St) :
    Option (Mir.ValueId × Lower.St) :=
  if kind = .const then value st else Lower.readVar fuel v st.current st

end CairoM.Syntax
