import Verif.Syntax

/-!
# Model: names and scopes in the semantic index

The builder of the semantic index (`crates/compiler/semantic/src/semantic_index.rs`) walks over the syntax tree with
a stack of scopes, records definitions in the scope in which they appear, and links every use of a name to a
definition found along the chain of scopes at that moment. Spans are left out: they only matter for lookups made
later by position. The name of the struct in a struct literal is not recorded here (`semantic_index.rs:1113-1130`).
-/

namespace CairoM.Syntax

/-- `DefinitionKind` (`definition.rs`). -/
inductive DefKind where
  | function | struct | use | param | let_ | const
  deriving DecidableEq, Repr

/-- `Definition` (`definition.rs:20-40`). -/
structure Def where
  name : String
  scope : Nat
  kind : DefKind
  deriving DecidableEq, Repr

/-- `IdentifierUsage` and `TypeUsage` with the definition linked to it (`semantic_index.rs:640-670`). `self_` says that
the use is in the value of the constant with this very name. -/
structure Use where
  isType : Bool
  name : String
  def_ : Option Nat
  self_ : Bool
  deriving DecidableEq, Repr

/-- `SemanticIndex` and the stack of `SemanticIndexBuilder` (`semantic_index.rs:225-335, 770-838`): the parents of the
scopes, the name index of every scope (oldest definition first), the definitions, the uses and the set of used
definitions. The top of the stack is its head. -/
structure Builder where
  parents : List (Option Nat)
  names : Nat → String → List Nat
  defs : List Def
  uses : List Use
  used : List Nat
  stack : List Nat

namespace Builder

/-- `SemanticIndexBuilder::new` (`semantic_index.rs:810-838`): the root scope. -/
def new : Builder := ⟨[none], fun _ _ => [], [], [], [], [0]⟩

/-- `current_scope` (`semantic_index.rs:865-870`). -/
def current (b : Builder) : Nat := b.stack.headD 0

/-- `latest_definition_index_by_name` (`semantic_index.rs:576-585`). -/
def latest (b : Builder) (scope : Nat) (name : String) : Option Nat := (b.names scope name).getLast?

/-- `latest_definition_index_by_name_in_chain` (`semantic_index.rs:601-614`); a chain has at most as many scopes as
there are. -/
def inChain (b : Builder) (name : String) : Nat → Option Nat → Option Nat
  | 0, _ | _, none => none
  | n + 1, some scope =>
    match b.latest scope name with
    | some i => some i
    | none => b.inChain name n (b.parents[scope]?.join)

/-- Lookup from the current scope. -/
def resolve (b : Builder) (name : String) : Option Nat := b.inChain name (b.parents.length + 1) (some b.current)

/-- `push_scope` (`semantic_index.rs:873-879`, `337-342`). -/
def push (b : Builder) : Builder :=
  { b with parents := b.parents ++ [some b.current], stack := b.parents.length :: b.stack }

/-- `pop_scope` (`semantic_index.rs:882-886`). -/
def pop (b : Builder) : Builder := { b with stack := b.stack.tail }

/-- `add_place_with_definition` (`semantic_index.rs:911-935`). -/
def add (b : Builder) (name : String) (kind : DefKind) : Builder :=
  { b with
    defs := b.defs ++ [⟨name, b.current, kind⟩]
    names := fun s x => if s = b.current ∧ x = name then b.names s x ++ [b.defs.length] else b.names s x }

/-- Several definitions, one after the other. -/
def addAll (b : Builder) (names : List String) (kind : DefKind) : Builder := names.foldl (fun b x => b.add x kind) b

/-- A use of a name (`semantic_index.rs:1059-1084`, `1706-1727`). -/
def addUse (b : Builder) (isType : Bool) (inConst : Option String) (name : String) : Builder :=
  { b with
    uses := b.uses ++ [⟨isType, name, b.resolve name, decide (inConst = some name)⟩]
    used := (b.resolve name).toList ++ b.used }

end Builder

mutual
/-- Names of types in a type expression (`visit_type_expr`, `semantic_index.rs:1706-1731`, `walk_type_expr`,
`visitor.rs:99-121`), from left to right. -/
def TypeExpr.names : TypeExpr → List String
  | .named (.custom x) => [x]
  | .named _ => []
  | .pointer t | .fixedArray t _ => t.names
  | .tuple ts => TypeExpr.namesAll ts
/-- The same for a list. -/
def TypeExpr.namesAll : List TypeExpr → List String
  | [] => []
  | t :: ts => t.names ++ TypeExpr.namesAll ts
end

namespace Builder

/-- `visit_type_expr` (`semantic_index.rs:1706-1731`). -/
def visitType (b : Builder) (t : TypeExpr) : Builder := t.names.foldl (fun b x => b.addUse true none x) b

mutual
/-- `visit_expr` and `visit_expr_contents` (`semantic_index.rs:1054-1341`): subexpressions in the order in which they are
visited. -/
def visitExpr (inConst : Option String) : Expr → Builder → Builder
  | .literal .., b | .boolean _, b => b
  | .ident x, b => b.addUse false inConst x
  | .paren e, b | .unary _ e, b | .member e _, b | .tupleIndex e _, b | .arrayRepeat e _, b | .cast e _, b => visitExpr inConst e b
  | .binary _ l r, b | .index l r, b => visitExpr inConst r (visitExpr inConst l b)
  | .call f args, b => visitExprs inConst args (visitExpr inConst f b)
  | .structLit _ fields, b => visitFields inConst fields b
  | .tuple es, b | .array es, b => visitExprs inConst es b
  | .new t e, b => visitExpr inConst e (b.visitType t)
/-- The same for a list. -/
def visitExprs (inConst : Option String) : List Expr → Builder → Builder
  | [], b => b
  | e :: es, b => visitExprs inConst es (visitExpr inConst e b)
/-- The same for the fields of a struct literal. -/
def visitFields (inConst : Option String) : List (String × Expr) → Builder → Builder
  | [], b => b
  | (_, e) :: es, b => visitFields inConst es (visitExpr inConst e b)
end

/-- `visit_type_expr` on an optional type. -/
def visitTypeOpt (b : Builder) : Option TypeExpr → Builder
  | none => b
  | some t => b.visitType t

end Builder

mutual
/-- `collect_pattern_identifiers` (`semantic_index.rs:1405-1423`). -/
def Pattern.names : Pattern → List String
  | .ident x => [x]
  | .tuple ps => Pattern.namesAll ps
/-- The same for a list. -/
def Pattern.namesAll : List Pattern → List String
  | [] => []
  | p :: ps => p.names ++ Pattern.namesAll ps
end

namespace Builder

/-- `visit_const` (`semantic_index.rs:1673-1704`) and `Statement::Const` (`semantic_index.rs:1551-1583`). -/
def visitConst (c : ConstDef) (b : Builder) : Builder := (visitExpr (some c.name) c.value b).add c.name .const

mutual
/-- `visit_stmt` (`semantic_index.rs:1358-1610`). -/
def visitStmt : Stmt → Builder → Builder
  | .let_ p ty e, b => ((visitExpr none e b).visitTypeOpt ty).addAll p.names .let_
  | .const c, b => visitConst c b
  | .assign l r, b => visitExpr none r (visitExpr none l b)
  | .return_ none, b | .break_, b | .continue_, b => b
  | .return_ (some e), b | .expr e, b => visitExpr none e b
  | .if_ c t none, b => (visitStmt t (visitExpr none c b).push).pop
  | .if_ c t (some e), b => (visitStmt e (visitStmt t (visitExpr none c b).push).pop.push).pop
  | .block ss, b => (visitStmts ss b.push).pop
  | .loop_ s, b => (visitStmt s b.push).pop
  | .while_ c s, b => (visitStmt s (visitExpr none c b).push).pop
  | .for_ i c st s, b => (visitStmt st (visitStmt s (visitExpr none c (visitStmt i b.push)))).pop
/-- `visit_body` (`visitor.rs:84-88`). -/
def visitStmts : List Stmt → Builder → Builder
  | [], b => b
  | s :: ss, b => visitStmts ss (visitStmt s b)
end

/-- `visit_parameters` and `visit_parameter` (`visitor.rs:63-67`, `semantic_index.rs:1644-1655`). -/
def visitParams (b : Builder) (ps : List (String × TypeExpr)) : Builder :=
  ps.foldl (fun b p => (b.visitType p.2).add p.1 .param) b

/-- `visit_function` (`semantic_index.rs:1619-1642`). -/
def visitFunction (f : FunctionDef) (b : Builder) : Builder :=
  (visitStmts f.body ((b.push.visitType f.returnType).visitParams f.params)).pop

end Builder

/-- Names that the first pass declares for an item (`declare_function`, `declare_struct`, `declare_use`,
`semantic_index.rs:938-1023`). A `use` without a path declares nothing. -/
def Item.declared : Item → List (String × DefKind)
  | .function f => [(f.name, .function)]
  | .struct x _ => [(x, .struct)]
  | .const _ => []
  | .use [] _ => []
  | .use (_ :: _) (.single x) => [(x, .use)]
  | .use (_ :: _) (.list xs) => xs.map fun x => (x, .use)

namespace Builder

/-- The first pass (`semantic_index.rs:841-853`). -/
def declare (b : Builder) (items : List Item) : Builder :=
  (items.flatMap Item.declared).foldl (fun b d => b.add d.1 d.2) b

/-- `walk_top_level_item` (`visitor.rs:91-98`), `visit_struct`, `visit_use` (`semantic_index.rs:1657-1671`). -/
def visitItem : Item → Builder → Builder
  | .function f, b => visitFunction f b
  | .struct _ fields, b => fields.foldl (fun b f => b.visitType f.2) b
  | .const c, b => visitConst c b
  | .use .., b => b

/-- `build` (`semantic_index.rs:840-862`). -/
def build (items : List Item) : Builder := items.foldl (fun b i => visitItem i b) (new.declare items)

/-- `check_undeclared_variables_global` (`validation/scope_check.rs:143-213`) in a program without imports: uses of values that
are reported. A use without a definition is looked up again by position; that finds a definition only when the use
stands in the value of the constant of this name, which is added to the scope after its value has been visited. -/
def undeclared (b : Builder) : List String :=
  (b.uses.filter fun u => !u.isType && u.def_.isNone && !u.self_ && u.name != "assert").map (·.name)

/-- `check_unused_variables` (`validation/scope_check.rs:99-135`): the definitions that are reported. -/
def unused (b : Builder) : List Nat :=
  (List.range b.defs.length).filter fun i =>
    match b.defs[i]? with
    | some d => d.kind != .function && d.kind != .struct && !(d.name.toList.head? == some '_') && !b.used.contains i
    | none => false

end Builder

end CairoM.Syntax
