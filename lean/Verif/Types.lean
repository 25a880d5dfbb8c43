import Verif.Syntax
import Verif.MirOps

/-!
# Model: types of expressions and the type checks

`crates/compiler/semantic/src/type_resolution.rs` and `validation/type_validator.rs`, on the scalar fragment: `felt`,
`u32`, `bool`, the unit type and functions over them. Names are looked up in an environment that is passed along the
tree; that this is what the tables of the semantic index say is C80. Constants, structs, tuples, arrays and pointers are
outside of the fragment; their expressions get the type `error` here and `Item.functions` and the elaboration in
`TypesLower` refuse them.

The type of an expression depends on three things besides names: the annotation of the `let` it stands in, which every
subexpression inherits (`expected_type_ast`), the context passed by the caller (`context_expected`), and, when the
caller passes none, a context derived from the place of the expression (`origin`).
-/

namespace CairoM.Syntax

open Lang

/-- `TypeData` (`types.rs`), scalar fragment. -/
inductive STy where
  | scalar (t : Ty)
  | fn (ps : List Ty) (r : Ty)
  | error
  deriving DecidableEq, Repr

/-- `are_types_compatible` (`type_resolution.rs:983-1035`). -/
def compatible (a b : STy) : Bool := decide (a = b ∨ a = .error ∨ b = .error)

/-- `resolve_ast_type` (`type_resolution.rs:29-115`); `none` is a type outside of the fragment. -/
def TypeExpr.scalar : TypeExpr → Option Ty
  | .named .felt => some .felt
  | .named .bool => some .bool
  | .named .u32 => some .u32
  | .tuple [] => some .unit
  | _ => none

/-- `get_unary_op_signatures` (`type_resolution.rs:1047-1071`): operator, operand, result. -/
def unarySigs : List (UnaryOp × Ty × Ty) := [(.neg, .felt, .felt), (.neg, .u32, .u32), (.not, .bool, .bool)]

/-- `get_binary_op_signatures` (`type_resolution.rs:1082-1259`): operator, type of both operands, result. -/
def binarySigs : List (BinaryOp × Ty × Ty) :=
  [(.add, .felt, .felt), (.add, .u32, .u32), (.sub, .felt, .felt), (.sub, .u32, .u32), (.mul, .felt, .felt),
   (.mul, .u32, .u32), (.div, .felt, .felt), (.div, .u32, .u32), (.mod, .u32, .u32), (.eq, .felt, .bool),
   (.eq, .u32, .bool), (.eq, .bool, .bool), (.neq, .felt, .bool), (.neq, .u32, .bool), (.neq, .bool, .bool),
   (.less, .u32, .bool), (.greater, .u32, .bool), (.lessEqual, .u32, .bool), (.greaterEqual, .u32, .bool),
   (.and, .bool, .bool), (.or, .bool, .bool), (.bitAnd, .u32, .u32), (.bitOr, .u32, .u32), (.bitXor, .u32, .u32)]

/-- The result of the first signature that fits (`type_resolution.rs:536-542`). -/
def unaryResult (op : UnaryOp) (t : STy) : STy :=
  match unarySigs.find? fun s => decide (s.1 = op) && compatible t (.scalar s.2.1) with
  | some s => .scalar s.2.2
  | none => .error

/-- The result of the first signature that fits both operands (`type_resolution.rs:587-595`). -/
def binaryResult (op : BinaryOp) (a b : STy) : STy :=
  match binarySigs.find? fun s => decide (s.1 = op) && compatible a (.scalar s.2.1) && compatible b (.scalar s.2.1) with
  | some s => .scalar s.2.2
  | none => .error

/-- What a name stands for: the number and the type of a variable, or the number and the signature of a function. -/
inductive Entry where
  | var (id : Nat) (t : STy)
  | fn (id : Nat) (ps : List Ty) (r : Ty)
  deriving DecidableEq, Repr

/-- `definition_semantic_type` (`type_resolution.rs:140-270`). -/
def Entry.ty : Entry → STy
  | .var _ t => t
  | .fn _ ps r => .fn ps r

/-- What the names in scope stand for. -/
abbrev TEnv := String → Option Entry

/-- `u32` or `felt`. -/
def STy.number : STy → Bool
  | .scalar .u32 | .scalar .felt => true
  | _ => false

/-- Type of an integer literal: suffix, annotation, context, `felt` (`type_resolution.rs:430-467`). -/
def literalType (hint : Option Ty) (ctx : Option STy) : Option String → STy
  | some "u32" => .scalar .u32
  | some "felt" => .scalar .felt
  | _ =>
    match hint with
    | some .u32 => .scalar .u32
    | some .felt => .scalar .felt
    | _ =>
      match ctx with
      | some (.scalar .u32) => .scalar .u32
      | _ => .scalar .felt

/-- An integer literal without suffix. -/
def Expr.bare : Expr → Bool
  | .literal _ none => true
  | _ => false

/-- The type of the left operand is inferred from the right one (`type_resolution.rs:549-563`). -/
def literalFirst (op : BinaryOp) (l r : Expr) : Bool :=
  (match op with
    | .add | .mul | .eq | .neq => true
    | _ => false) && l.bare && !r.bare

/-- The type of a name (`type_resolution.rs:475-506`). -/
def nameType (env : TEnv) (x : String) : STy :=
  if x = "assert" then .scalar .unit
  else match env x with
    | some d => d.ty
    | none => .error

/-- Callee `assert` (`builtins.rs:9-14`). -/
def Expr.isAssert : Expr → Bool
  | .ident x => x == "assert"
  | _ => false

/-- Types of the operands, given the functions that compute them from a context (`type_resolution.rs:556-585`). -/
def operandTypes (first : Bool) (ctx : Option STy) (l r : Option STy → STy) : STy × STy :=
  if first then (l (some (r ctx)), r ctx) else (l ctx, r (some (l ctx)))

/-- `expression_semantic_type` (`type_resolution.rs:273-890`), after the context has been derived from the origin. -/
def typeOf (env : TEnv) (hint : Option Ty) : Expr → Option STy → STy
  | .literal _ s, ctx => literalType hint ctx s
  | .boolean _, _ => .scalar .bool
  | .paren e, ctx => typeOf env hint e ctx
  | .ident x, _ => nameType env x
  | .unary op e, ctx => unaryResult op (typeOf env hint e ctx)
  | .binary op l r, ctx =>
    let ts := operandTypes (literalFirst op l r) ctx (typeOf env hint l) (typeOf env hint r)
    binaryResult op ts.1 ts.2
  | .call f _, _ =>
    if f.isAssert then .scalar .unit
    else match typeOf env hint f none with
      | .fn _ r => .scalar r
      | _ => .error
  | .cast _ t, _ =>
    match t.scalar with
    | some t => .scalar t
    | none => .error
  | _, _ => .error

/-! ### Contexts derived from the origin (`type_resolution.rs:299-425`) -/

/-- An argument of a call: the type of the parameter, when the callee is the name of a function. -/
def argCtx (env : TEnv) (callee : Expr) (i : Nat) : Option STy :=
  match callee with
  | .ident x =>
    match env x with
    | some (.fn _ ps _) => ps[i]?.map .scalar
    | _ => none
  | _ => none

/-- The right side of an assignment: the type of the left side, for a literal without suffix only. -/
def assignCtx (t : STy) (e : Expr) : Option STy := if e.bare then some t else none

/-- A condition. -/
def condCtx : Option STy := some (.scalar .bool)

/-! ### Expression checks -/

/-- `check_function_call_types` (`validation/type_validator.rs:547-686`) on the arguments, given the types they have in a
context. -/
def argsCompatible (ps : List Ty) (args : List (Option STy → STy)) : Bool :=
  decide (args.length = ps.length) &&
    (List.zipWith (fun p a => compatible (a (some (.scalar p))) (.scalar p)) ps args).all id

mutual
/-- `check_expression_types` (`validation/type_validator.rs:271-397`) on an expression and its subexpressions:
`check_unary_op_types` (`505-543`), `check_binary_op_types` (`401-503`), `check_function_call_types` (`547-686`),
`check_builtin_assert` (`159-190`), `check_cast_types` (`1184-1228`); and the check that names are declared
(`validation/scope_check.rs:143-213`). -/
def checkExpr (env : TEnv) (hint : Option Ty) : Expr → Bool
  | .ident x => (env x).isSome || x == "assert"
  | .paren e => checkExpr env hint e
  | .unary op e =>
    (unarySigs.any fun s => decide (s.1 = op ∧ typeOf env hint e none = .scalar s.2.1)) && checkExpr env hint e
  | .binary op l r =>
    let ts := operandTypes (literalFirst op l r) none (typeOf env hint l) (typeOf env hint r)
    (decide (ts.1 = .error ∨ ts.2 = .error) ||
      binarySigs.any fun s => decide (s.1 = op ∧ ts.1 = .scalar s.2.1 ∧ ts.2 = .scalar s.2.1)) &&
    checkExpr env hint l && checkExpr env hint r
  | .call f args =>
    (if f.isAssert then
      match args with
      | [] => true
      | a :: _ => compatible (typeOf env hint a (argCtx env f 0)) (.scalar .bool)
    else match typeOf env hint f none with
      | .fn ps _ => argsCompatible ps (args.map (typeOf env hint))
      | .error => true
      | _ => false) &&
    checkExpr env hint f && checkExprs env hint args
  | .cast e t => decide (typeOf env hint e none = .scalar .u32 ∧ t.scalar = some .felt) && checkExpr env hint e
  | _ => true
/-- The same for a list. -/
def checkExprs (env : TEnv) (hint : Option Ty) : List Expr → Bool
  | [] => true
  | e :: es => checkExpr env hint e && checkExprs env hint es
end

/-! ### Scopes -/

/-- The names in scope, and the types of all definitions so far; the number of a definition is its position. -/
structure Scope where
  env : TEnv
  tys : List STy

/-- A definition (`semantic_index.rs:911-935`). -/
def Scope.declare (s : Scope) (x : String) (t : STy) : Scope :=
  ⟨fun y => if y = x then some (.var s.tys.length t) else s.env y, s.tys ++ [t]⟩

/-- The names of the outer scope are back. -/
def Scope.leave (outer inner : Scope) : Scope := ⟨outer.env, inner.tys⟩

/-- The annotation of a `let`. -/
def hintOf (ty : Option TypeExpr) : Option Ty := ty.bind TypeExpr.scalar

/-- Type of a variable declared by `let` (`resolve_variable_type`, `type_resolution.rs:118-136`). -/
def letType (env : TEnv) (ty : Option TypeExpr) (e : Expr) : STy :=
  match ty with
  | some t =>
    match t.scalar with
    | some t => .scalar t
    | none => .error
  | none => typeOf env none e none

mutual
/-- The scope after a statement (`visit_stmt`, `semantic_index.rs:1358-1610`). -/
def afterStmt : Stmt → Scope → Scope
  | .let_ (.ident x) ty e, s => s.declare x (letType s.env ty e)
  | .if_ _ t none, s => s.leave (afterStmt t s)
  | .if_ _ t (some e), s => s.leave (afterStmt e (s.leave (afterStmt t s)))
  | .block ss, s => s.leave (afterStmts ss s)
  | .loop_ b, s => s.leave (afterStmt b s)
  | .while_ _ b, s => s.leave (afterStmt b s)
  | .for_ i _ st b, s => s.leave (afterStmt st (afterStmt b (afterStmt i s)))
  | _, s => s
/-- The same for a list. -/
def afterStmts : List Stmt → Scope → Scope
  | [], s => s
  | t :: ts, s => afterStmts ts (afterStmt t s)
end

/-! ### Statement checks -/

/-- `LiteralValidator` on a `let` with an annotation (`validation/literal_validator.rs:28-119`, `128-236`). -/
def literalRange : Option Ty → Expr → Bool
  | some .u32, .literal n _ => decide (n ≤ 2 ^ 32 - 1)
  | some .u32, .unary .neg _ | some .felt, .unary .neg _ => false
  | some .felt, .literal n _ => decide (n ≤ 2 ^ 31 - 1)
  | _, _ => true

/-- The left side of an assignment (`validation/type_validator.rs:1810-1938`), without constants. -/
def Expr.assignable : Expr → Bool
  | .ident _ | .member .. | .tupleIndex .. | .index .. => true
  | _ => false

mutual
/-- `check_statement_type` (`validation/type_validator.rs:1347-1553`) in a function that returns `ret`, in a file whose
first function returns `first`: `check_let_statement_types` (`1555-1693`), `check_assignment_types` (`1695-1971`),
`check_return_types` (`1974-2083`), `check_if_statement_types` (`2086-2125`); with the checks of the expressions, and of
the literals. The checks of `StructuralValidator` on literals with an annotation (`validation/structural_validator.rs:
216-282`) follow from those here. -/
def checkStmt (first : Option Ty) (ret : Ty) : Stmt → Scope → Bool
  | .let_ _ ty e, s =>
    checkExpr s.env (hintOf ty) e && literalRange (hintOf ty) e &&
    match hintOf ty with
    | some t => compatible (typeOf s.env (hintOf ty) e none) (.scalar t)
    | none => true
  | .const _, _ | .break_, _ | .continue_, _ => true
  | .assign l r, s =>
    checkExpr s.env none l && checkExpr s.env none r && l.assignable &&
    compatible (typeOf s.env none l none) (typeOf s.env none r (some (typeOf s.env none l none)))
  | .return_ none, _ => decide (ret = .unit)
  | .return_ (some e), s =>
    checkExpr s.env none e && compatible (typeOf s.env none e (first.map .scalar)) (.scalar ret)
  | .expr e, s => checkExpr s.env none e
  | .if_ c t none, s =>
    checkExpr s.env none c && compatible (typeOf s.env none c condCtx) (.scalar .bool) && checkStmt first ret t s
  | .if_ c t (some e), s =>
    checkExpr s.env none c && compatible (typeOf s.env none c condCtx) (.scalar .bool) && checkStmt first ret t s &&
    checkStmt first ret e (s.leave (afterStmt t s))
  | .block ss, s => checkStmts first ret ss s
  | .loop_ b, s => checkStmt first ret b s
  | .while_ c b, s =>
    checkExpr s.env none c && compatible (typeOf s.env none c condCtx) (.scalar .bool) && checkStmt first ret b s
  | .for_ i c st b, s =>
    let s' := afterStmt i s
    checkStmt first ret i s && checkExpr s'.env none c && compatible (typeOf s'.env none c condCtx) (.scalar .bool) &&
    checkStmt first ret b s' && checkStmt first ret st (afterStmt b s')
/-- The same for a list. -/
def checkStmts (first : Option Ty) (ret : Ty) : List Stmt → Scope → Bool
  | [], _ => true
  | t :: ts, s => checkStmt first ret t s && checkStmts first ret ts (afterStmt t s)
end

/-! ### Files -/

/-- A function with its types resolved (`function_semantic_signature`, `type_resolution.rs:930-974`). -/
structure TFn where
  name : String
  params : List (String × Ty)
  ret : Ty
  body : List Stmt

/-- Names and types of the parameters; `none` outside of the fragment. -/
def scalarParams : List (String × TypeExpr) → Option (List (String × Ty))
  | [] => some []
  | p :: ps =>
    match p.2.scalar, scalarParams ps with
    | some t, some qs => some ((p.1, t) :: qs)
    | _, _ => none

/-- A function with its types resolved; `none` outside of the fragment. -/
def FunctionDef.typed (f : FunctionDef) : Option TFn :=
  match scalarParams f.params, f.returnType.scalar with
  | some ps, some r => some ⟨f.name, ps, r, f.body⟩
  | _, _ => none

/-- The functions of a file; `none` when the file has other items or types outside of the fragment. -/
def typedFns : List Item → Option (List TFn)
  | [] => some []
  | .function f :: is =>
    match f.typed, typedFns is with
    | some g, some gs => some (g :: gs)
    | _, _ => none
  | _ :: _ => none

/-- Types of the parameters. -/
def TFn.paramTys (f : TFn) : List Ty := f.params.map (·.2)

/-- The first pass of the builder (`semantic_index.rs:841-853`): function number `n` and those after it. -/
def declareFns : Nat → List TFn → Scope → Scope
  | _, [], s => s
  | n, f :: fs, s =>
    declareFns (n + 1) fs
      ⟨fun y => if y = f.name then some (.fn n f.paramTys f.ret) else s.env y, s.tys ++ [.fn f.paramTys f.ret]⟩

/-- The scope of the file. -/
def fileScope (fs : List TFn) : Scope := declareFns 0 fs ⟨fun _ => none, []⟩

/-- `visit_parameters` (`semantic_index.rs:1644-1655`). -/
def declareParams : List (String × Ty) → Scope → Scope
  | [], s => s
  | p :: ps, s => declareParams ps (s.declare p.1 (.scalar p.2))

/-- The scope after a function. -/
def afterFn (f : TFn) (s : Scope) : Scope := s.leave (afterStmts f.body (declareParams f.params s))

/-- The scope after the functions of a file. -/
def afterFns : List TFn → Scope → Scope
  | [], s => s
  | f :: fs, s => afterFns fs (afterFn f s)

/-- `analyze_function_statement_types` (`validation/type_validator.rs:1327-1344`) on the functions, one after the other. -/
def checkFns (first : Option Ty) : List TFn → Scope → Bool
  | [], _ => true
  | f :: fs, s => checkStmts first f.ret f.body (declareParams f.params s) && checkFns first fs (afterFn f s)

/-- The return type of the first function: what the walk over `all_definitions` finds for every returned expression
(`type_resolution.rs:340-390`), since all functions are defined in the root scope. -/
def firstRet (fs : List TFn) : Option Ty := fs.head?.map (·.ret)

/-- The type checks report nothing. -/
def typeChecks (fs : List TFn) : Bool := checkFns (firstRet fs) fs (fileScope fs)

end CairoM.Syntax
