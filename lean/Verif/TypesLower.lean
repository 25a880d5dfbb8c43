import Verif.Types
import Verif.Lowering
import Verif.PipelineSpec

/-!
# Model: which types the lowering asks for, and the program the checks have in mind

`elabExpr` and the functions after it turn a syntax tree into a program of the typed source language (`SourceSpec`), in
which every integer literal has the type the checks give it in its context. `lowerE`, `lowerS` and the functions after
them are the lowering (`Lowering`) on syntax trees: the same steps, but the types are those the code asks for, and it
always asks without a context (`mir/src/lowering/builder.rs:91-102`). `settled` collects the places where the two could
differ.
-/

namespace CairoM.Syntax

open Lang Mir Source Lower

/-! ### Elaboration -/

/-- The operators of the typed language. -/
def UnaryOp.source : UnaryOp → Mir.UnaryOp
  | .neg => .Neg
  | .not => .Not

/-- The operators of the typed language. -/
def BinaryOp.source : BinaryOp → BinOp
  | .add => .Add | .sub => .Sub | .mul => .Mul | .div => .Div | .mod => .Mod
  | .eq => .Eq | .neq => .Neq | .less => .Less | .greater => .Greater | .lessEqual => .LessEqual
  | .greaterEqual => .GreaterEqual | .and => .And | .or => .Or
  | .bitAnd => .BitwiseAnd | .bitOr => .BitwiseOr | .bitXor => .BitwiseXor

/-- The number of a variable. -/
def varOf (env : TEnv) (x : String) : Option (Nat × Ty) :=
  if x = "assert" then none
  else match env x with
    | some (.var i (.scalar t)) => some (i, t)
    | _ => none

/-- The number and the signature of the function that is called. -/
def fnOf (env : TEnv) : Expr → Option (Nat × List Ty × Ty)
  | .ident x =>
    if x = "assert" then none
    else match env x with
      | some (.fn i ps r) => some (i, ps, r)
      | _ => none
  | _ => none

/-- Contexts of the operands. -/
def leftCtx (env : TEnv) (hint : Option Ty) (op : BinaryOp) (l r : Expr) (ctx : Option STy) : Option STy :=
  if literalFirst op l r then some (typeOf env hint r ctx) else ctx

def rightCtx (env : TEnv) (hint : Option Ty) (op : BinaryOp) (l r : Expr) (ctx : Option STy) : Option STy :=
  if literalFirst op l r then ctx else some (typeOf env hint l ctx)

mutual
/-- The typed expression that the checks have in mind; `none` outside of the fragment. -/
def elabExpr (env : TEnv) (hint : Option Ty) : Expr → Option STy → Option Source.Expr
  | .literal n s, ctx =>
    match literalType hint ctx s with
    | .scalar t => some (.int n t)
    | _ => none
  | .boolean b, _ => some (.bool b)
  | .paren e, ctx => elabExpr env hint e ctx
  | .ident x, _ => (varOf env x).map fun v => .var v.1
  | .unary op e, ctx => (elabExpr env hint e ctx).map (.un op.source)
  | .binary op l r, ctx =>
    (elabExpr env hint l (leftCtx env hint op l r ctx)).bind fun l' =>
      (elabExpr env hint r (rightCtx env hint op l r ctx)).map fun r' => .bin op.source l' r'
  | .call f args, _ =>
    (fnOf env f).bind fun g =>
      if g.2.2 = .unit then none else (elabArgs env hint args g.2.1).map (.call g.1)
  | .cast e t, _ => t.scalar.bind fun t => (elabExpr env hint e none).map fun e' => .cast e' t
  | _, _ => none
/-- The arguments of a call, in the context of the parameters. -/
def elabArgs (env : TEnv) (hint : Option Ty) : List Expr → List Ty → Option (List Source.Expr)
  | [], [] => some []
  | e :: es, p :: ps =>
    (elabExpr env hint e (some (.scalar p))).bind fun e' => (elabArgs env hint es ps).map fun es' => e' :: es'
  | _, _ => none
end

/-- A call of a function as a statement. -/
def elabCall (env : TEnv) (f : Expr) (args : List Expr) : Option Source.Stmt :=
  if f.isAssert then
    match args with
    | [e] => (elabExpr env none e (argCtx env f 0)).map .assert
    | _ => none
  else (fnOf env f).bind fun g => (elabArgs env none args g.2.1).map (.call g.1)

/-- The step of a `for` loop, as the grammar has it. -/
def simpleStep (s : Option Source.Stmt) : Option Source.Stmt := s.filter Source.Stmt.simple

mutual
/-- The typed statement; `none` outside of the fragment. -/
def elabStmt (first : Option Ty) : Stmt → Scope → Option Source.Stmt
  | .let_ (.ident _) ty e, s =>
    match letType s.env ty e with
    | .scalar _ => (elabExpr s.env (hintOf ty) e none).map (.letS s.tys.length)
    | _ => none
  | .assign (.ident x) e, s =>
    (varOf s.env x).bind fun v => (elabExpr s.env none e (some (.scalar v.2))).map (.assign v.1)
  | .return_ none, _ => some .ret
  | .return_ (some e), s =>
    if typeOf s.env none e (first.map .scalar) = .scalar .unit then none
    else (elabExpr s.env none e (first.map .scalar)).map .retE
  | .expr (.call f args), s => elabCall s.env f args
  | .expr e, s => (elabExpr s.env none e none).map .expr
  | .if_ c t none, s =>
    (elabExpr s.env none c condCtx).bind fun c' => (elabStmt first t s).map fun t' => .ifThen c' t'
  | .if_ c t (some e), s =>
    (elabExpr s.env none c condCtx).bind fun c' => (elabStmt first t s).bind fun t' =>
      (elabStmt first e (s.leave (afterStmt t s))).map fun e' => .ifElse c' t' e'
  | .block ss, s => (elabStmts first ss s).map .block
  | .loop_ b, s => (elabStmt first b s).map .loop
  | .while_ c b, s =>
    (elabExpr s.env none c condCtx).bind fun c' => (elabStmt first b s).map fun b' => .while c' b'
  | .for_ i c st b, s =>
    (elabStmt first i s).bind fun i' => (elabExpr (afterStmt i s).env none c condCtx).bind fun c' =>
      (elabStmt first b (afterStmt i s)).bind fun b' =>
        (simpleStep (elabStmt first st (afterStmt b (afterStmt i s)))).map fun st' => .for i' c' st' b'
  | .break_, _ => some .break
  | .continue_, _ => some .continue
  | _, _ => none
/-- The same for a list. -/
def elabStmts (first : Option Ty) : List Stmt → Scope → Option (List Source.Stmt)
  | [], _ => some []
  | t :: ts, s => (elabStmt first t s).bind fun t' => (elabStmts first ts (afterStmt t s)).map fun ts' => t' :: ts'
end

/-- The values a function returns. -/
def retTys : Ty → List Ty
  | .unit => []
  | t => [t]

/-- The typed function. -/
def elabFn (first : Option Ty) (f : TFn) (s : Scope) : Option (Name × Fn) :=
  (elabStmts first f.body (declareParams f.params s)).map fun b =>
    (f.name.toList, ⟨List.range' s.tys.length f.params.length, retTys f.ret, b⟩)

/-- The typed functions of a file. -/
def elabFns (first : Option Ty) : List TFn → Scope → Option (List (Name × Fn))
  | [], _ => some []
  | f :: fs, s => (elabFn first f s).bind fun g => (elabFns first fs (afterFn f s)).map fun gs => g :: gs

/-- Types of the variables of a file. -/
def varTys (tys : List STy) : Var → Ty := fun i =>
  match tys[i]? with
  | some (.scalar t) => t
  | _ => .felt

/-- The typed program; `none` outside of the fragment. -/
def elabFile (fs : List TFn) : Option Program :=
  (elabFns (firstRet fs) fs (fileScope fs)).map fun gs => ⟨varTys (afterFns fs (fileScope fs)).tys, gs⟩

/-! ### Lowering of syntax trees -/

/-- `MirType::from_semantic_type` (`mir/src/mir_types.rs`), scalar types. -/
def STy.mir : STy → Option MirType
  | .scalar t => some (mirTy t)
  | _ => none

/-- `BinaryOp::from_parser` (`mir/src/instruction.rs:95-148`). -/
def operator (op : BinaryOp) : STy → Option Mir.BinaryOp
  | .scalar t => fromParser op.source t
  | _ => none

mutual
/-- `lower_expression` (`mir/src/lowering/expr.rs:64-222`): `lower_unary_op` (`227-245`), `lower_binary_op` (`247-278`),
`lower_function_call` (`357-420`), `lower_cast` (`566-602`). All types are asked for without a context; `oc` is the
context that the place of the expression provides in that case. -/
def lowerE (o : Opts) (env : TEnv) (hint : Option Ty) : Expr → Option STy → St → Option (Value × St)
  | .literal n _, _, st => some (.Literal (.Integer (BitVec.ofNat 32 n)), st)
  | .boolean b, _, st => some (.Literal (.Boolean b), st)
  | .paren e, _, st => lowerE o env hint e none st
  | .ident x, _, st => do
    let v ← varOf env x
    let (id, st) ← readVar o.fuel v.1 st.current st
    some (.Operand id, st)
  | .unary op e, oc, st => do
    let (x, st) ← lowerE o env hint e none st
    let t ← (typeOf env hint (.unary op e) oc).mir
    let (d, st) := st.define t fun d => .UnaryOp op.source d x
    some (.Operand d, st)
  | .binary op l r, oc, st => do
    let (x, st) ← lowerE o env hint l none st
    let (y, st) ← lowerE o env hint r none st
    let t ← (typeOf env hint (.binary op l r) oc).mir
    let op' ← operator op (typeOf env hint l none)
    let (d, st) := st.define t fun d => .BinaryOp op' d x y
    some (.Operand d, st)
  | .call f args, _, st => do
    let g ← fnOf env f
    let (xs, st) ← lowerAs o env hint f args 0 st
    if g.2.2 = .unit then none
    else do
      let (d, st) := st.define (mirTy g.2.2) fun d => .Call [d] g.1 xs ⟨g.2.1.map mirTy, (retTys g.2.2).map mirTy⟩
      some (.Operand d, st)
  | .cast e t, _, st => do
    let (x, st) ← lowerE o env hint e none st
    let s ← (typeOf env hint e none).mir
    let t ← t.scalar
    let (d, st) := st.define (mirTy t) fun d => .Cast d x s (mirTy t)
    some (.Operand d, st)
  | _, _, _ => none
/-- The arguments of a call, from left to right (`mir/src/lowering/expr.rs:366-370`). -/
def lowerAs (o : Opts) (env : TEnv) (hint : Option Ty) (f : Expr) : List Expr → Nat → St → Option (List Value × St)
  | [], _, st => some ([], st)
  | e :: es, i, st => do
    let (x, st) ← lowerE o env hint e (argCtx env f i) st
    let (xs, st) ← lowerAs o env hint f es (i + 1) st
    some (x :: xs, st)
end

/-- `bind_variable_def` (`mir/src/lowering/builder.rs:106-149`), with the type of the definition. -/
def bindTo (st : St) (x : Var) (t : MirType) : Value → Option St
  | .Operand id => some (st.write x st.current id)
  | .Literal l =>
    let (d, st) := st.define t fun d => .Assign d (.Literal l) t
    some (st.write x st.current d)
  | .Error => none

/-- A call as a statement (`lower_expression_statement`, `mir/src/lowering/stmt.rs:348-383`, `lower_assert_call`,
`387-412`, `emit_call_and_discard_result`, `mir/src/lowering/utils.rs:51-78`). -/
def lowerCall (o : Opts) (env : TEnv) (f : Expr) (args : List Expr) (st : St) : Option St :=
  if f.isAssert then
    match args with
    | [] => none
    | e :: _ => do
      let (v, st) ← lowerE o env none e (argCtx env f 0) st
      some (st.emit (.AssertEq v (.Literal (.Integer 1))))
  else do
    let g ← fnOf env f
    let (xs, st) ← lowerAs o env none f args 0 st
    let (ds, st) := st.newIds ((retTys g.2.2).map mirTy)
    some (st.emit (.Call ds g.1 xs ⟨g.2.1.map mirTy, (retTys g.2.2).map mirTy⟩))

mutual
/-- `lower_statement` (`mir/src/lowering/stmt.rs:46-119`); the steps are those of `Lower.lowerStmt`. A returned value of
unit type is outside of the fragment. -/
def lowerS (o : Opts) (first : Option Ty) : Stmt → Scope → St → Option St
  | .let_ (.ident _) ty e, s, st => do
    let (v, st) ← lowerE o s.env (hintOf ty) e none st
    let t ← (letType s.env ty e).mir
    bindTo st s.tys.length t v
  | .assign (.ident x) e, s, st => do
    let d ← varOf s.env x
    let (v, st) ← lowerE o s.env none e (assignCtx (.scalar d.2) e) st
    bindTo st d.1 (mirTy d.2) v
  | .return_ none, _, st => st.terminate (.Return [])
  | .return_ (some e), s, st =>
    if typeOf s.env none e (first.map .scalar) = .scalar .unit then none
    else do
      let (v, st) ← lowerE o s.env none e (first.map .scalar) st
      st.terminate (.Return [v])
  | .expr (.call f args), s, st => lowerCall o s.env f args st
  | .expr e, s, st => do
    let (_, st) ← lowerE o s.env none e none st
    some st
  | .if_ c t (some e), s, st => do
    let (v, st) ← lowerE o s.env none c condCtx st
    let (tb, st) := st.newBlock
    let (eb, st) := st.newBlock
    let st ← st.terminate (.If v tb eb)
    let st ← st.seal o tb
    let st ← st.seal o eb
    let st ← lowerS o first t s (st.switch tb)
    let fs := st.finals
    let st ← lowerS o first e (s.leave (afterStmt t s)) (st.switch eb)
    let fs := fs ++ st.finals
    if fs = [] then some st
    else do
      let (m, st) := st.newBlock
      let st ← st.joins fs m
      let st ← st.seal o m
      some (st.switch m)
  | .if_ c t none, s, st => do
    let (v, st) ← lowerE o s.env none c condCtx st
    let (tb, st) := st.newBlock
    let (m, st) := st.newBlock
    let st ← st.terminate (.If v tb m)
    let st ← st.seal o tb
    let st ← st.seal o m
    let st ← lowerS o first t s (st.switch tb)
    let fs := st.finals
    (st.switch m).joins fs m
  | .block ss, s, st => lowerSs o first ss s st
  | .while_ c body, s, st => do
    let (h, st) := st.newBlock
    let (b, st) := st.newBlock
    let (x, st) := st.newBlock
    let st ← st.terminate (.Jump h)
    let st := { st with loops := (h, x) :: st.loops }
    let (v, st) ← lowerE o s.env none c condCtx (st.switch h)
    let st ← st.terminate (.If v b x)
    let st ← st.seal o b
    let st ← st.seal o x
    let st ← lowerS o first body s (st.switch b)
    let st ← st.jumpIfOpen h
    let st ← st.seal o h
    some ({ st with loops := st.loops.tail }.switch x)
  | .loop_ body, s, st => do
    let (b, st) := st.newBlock
    let (x, st) := st.newBlock
    let st ← st.terminate (.Jump b)
    let st ← st.seal o x
    let st := { st with loops := (b, x) :: st.loops }
    let st ← lowerS o first body s (st.switch b)
    let st ← st.jumpIfOpen b
    let st ← st.seal o b
    some ({ st with loops := st.loops.tail }.switch x)
  | .for_ init c step body, s, st => do
    let st ← lowerS o first init s st
    if st.terminated then some st
    else do
      let (h, st) := st.newBlock
      let (b, st) := st.newBlock
      let (p, st) := st.newBlock
      let (x, st) := st.newBlock
      let st ← st.terminate (.Jump h)
      let st := { st with loops := (p, x) :: st.loops }
      let (v, st) ← lowerE o (afterStmt init s).env none c condCtx (st.switch h)
      let st ← st.terminate (.If v b x)
      let st ← st.seal o b
      let st ← st.seal o x
      let st ← lowerS o first body (afterStmt init s) (st.switch b)
      let st ← st.jumpIfOpen p
      let st ← st.seal o p
      let st ← lowerS o first step (afterStmt body (afterStmt init s)) (st.switch p)
      let st ← st.jumpIfOpen h
      let st ← st.seal o h
      some ({ st with loops := st.loops.tail }.switch x)
  | .break_, _, st => do
    let l ← st.loops.head?
    st.terminate (.Jump l.2)
  | .continue_, _, st => do
    let l ← st.loops.head?
    st.terminate (.Jump l.1)
  | _, _, _ => none
/-- `lower_block_statement` (`mir/src/lowering/stmt.rs:535-549`). -/
def lowerSs (o : Opts) (first : Option Ty) : List Stmt → Scope → St → Option St
  | [], _, st => some st
  | t :: ts, s, st => do
    let st ← lowerS o first t s st
    if st.terminated then some st else lowerSs o first ts (afterStmt t s) st
end

/-- `lower_parameters` (`mir/src/lowering/function.rs:257-269`): the parameters are the definitions from number `n` on. -/
def lowerPs : List (String × Ty) → Var → St → List ValueId × St
  | [], _, st => ([], st)
  | p :: ps, n, st =>
    let (d, st) := st.newId (mirTy p.2)
    let (ds, st) := lowerPs ps (n + 1) (st.write n st.current d)
    (d :: ds, st)

/-- `lower_function` (`mir/src/lowering/function.rs:221-255`). -/
def lowerF (o : Opts) (first : Option Ty) (f : TFn) (s : Scope) : Option Mir.Function := do
  let (ps, st) := lowerPs f.params s.tys.length .initial
  let st ← st.seal o 0
  let st ← lowerSs o first f.body (declareParams f.params s) st
  let (rs, st) := st.newIds ((retTys f.ret).map mirTy)
  some { name := f.name.toList, blocks := (List.range st.count).map fun b => (st.blocks b).done, params := ps,
         returns := rs, nextValue := st.next, types := st.types }

/-- The functions of a file, one after the other (`mir/src/pipeline.rs:57-77`). -/
def lowerFs (o : Opts) (first : Option Ty) : List TFn → Scope → Option (List Mir.Function)
  | [], _ => some []
  | f :: fs, s => (lowerF o first f s).bind fun g => (lowerFs o first fs (afterFn f s)).map fun gs => g :: gs

/-- The functions of a file. -/
def lowerFile (o : Opts) (fs : List TFn) : Option (List Mir.Function) := lowerFs o (firstRet fs) fs (fileScope fs)

/-! ### Where context matters -/

mutual
/-- Whether the lowering, which asks for types without a context, sees the types of the checks. `ctx` is the context of
the checks and `oc` the context that the lowering gets from the place of the expression. Also: literals are below `2^32`
and unary minus is not applied to `u32`. -/
def settledE (env : TEnv) (hint : Option Ty) : Expr → Option STy → Option STy → Bool
  | .literal n _, _, _ => decide (n < 2 ^ 32)
  | .paren e, ctx, _ => settledE env hint e ctx none
  | .unary op e, ctx, oc =>
    decide (typeOf env hint e ctx = typeOf env hint e none) &&
    decide (typeOf env hint (.unary op e) oc = typeOf env hint (.unary op e) ctx) &&
    !decide (op = .neg ∧ typeOf env hint e none = .scalar .u32) && settledE env hint e ctx none
  | .binary op l r, ctx, oc =>
    decide (operandTypes (literalFirst op l r) ctx (typeOf env hint l) (typeOf env hint r) =
      operandTypes (literalFirst op l r) none (typeOf env hint l) (typeOf env hint r)) &&
    decide (typeOf env hint l none = typeOf env hint l (leftCtx env hint op l r ctx)) &&
    decide (typeOf env hint (.binary op l r) oc = typeOf env hint (.binary op l r) ctx) &&
    settledE env hint l (leftCtx env hint op l r ctx) none && settledE env hint r (rightCtx env hint op l r ctx) none
  | .call f args, _, _ => settledAs env hint f args 0
  | .cast e _, _, _ => settledE env hint e none none
  | _, _, _ => true
/-- The arguments of a call. -/
def settledAs (env : TEnv) (hint : Option Ty) (f : Expr) : List Expr → Nat → Bool
  | [], _ => true
  | e :: es, i => settledE env hint e (argCtx env f i) (argCtx env f i) && settledAs env hint f es (i + 1)
end

mutual
/-- The same for the expressions of a statement. -/
def settledS (first : Option Ty) : Stmt → Scope → Bool
  | .let_ _ ty e, s => settledE s.env (hintOf ty) e none none
  | .assign l e, s =>
    settledE s.env none e (some (typeOf s.env none l none)) (assignCtx (typeOf s.env none l none) e)
  | .return_ (some e), s => settledE s.env none e (first.map .scalar) (first.map .scalar)
  | .expr e, s => settledE s.env none e none none
  | .if_ c t none, s => settledE s.env none c condCtx condCtx && settledS first t s
  | .if_ c t (some e), s =>
    settledE s.env none c condCtx condCtx && settledS first t s && settledS first e (s.leave (afterStmt t s))
  | .block ss, s => settledSs first ss s
  | .loop_ b, s => settledS first b s
  | .while_ c b, s => settledE s.env none c condCtx condCtx && settledS first b s
  | .for_ i c st b, s =>
    settledS first i s && settledE (afterStmt i s).env none c condCtx condCtx && settledS first b (afterStmt i s) &&
    settledS first st (afterStmt b (afterStmt i s))
  | _, _ => true
/-- The same for a list. -/
def settledSs (first : Option Ty) : List Stmt → Scope → Bool
  | [], _ => true
  | t :: ts, s => settledS first t s && settledSs first ts (afterStmt t s)
end

/-- The same for the functions of a file. -/
def settledFs (first : Option Ty) : List TFn → Scope → Bool
  | [], _ => true
  | f :: fs, s => settledSs first f.body (declareParams f.params s) && settledFs first fs (afterFn f s)

/-- The lowering sees the types of the checks everywhere in a file. -/
def settled (fs : List TFn) : Bool := settledFs (firstRet fs) fs (fileScope fs)

end CairoM.Syntax
