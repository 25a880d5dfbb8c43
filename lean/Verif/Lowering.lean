import Verif.SourceSpec
import Verif.MirPasses

/-!
# Lowering of source functions to the mid-level representation

Models `crates/compiler/mir/src/lowering/{function,stmt,expr,builder,utils}.rs`,
`mir/src/builder/{cfg_builder,instr_builder}.rs` and the construction of static single assignment form in
`mir/src/function.rs:446-710`, for the scalar fragment.

Simplifications. The blocks are a function from block numbers together with their number. The phi nodes of a
block are kept in a list of their own, before the other instructions: `push_phi_front` inserts after the existing
phi nodes and before everything else (`mir/src/basic_block.rs:167-185`). A phi node is named by its block and its
destination, so `find_phi_block` is not searched. The maps are functions. The names, the `filled` marks, the
`defined_values` set and the `is_terminated` flag, which nothing reads (`is_current_block_terminated` starts from
a fresh `CfgBuilder`, `lowering/builder.rs:307-310`), are left out. A panic and an error are `none`.
-/

namespace CairoM
namespace Lower

open Mir Lang Source

/-- A phi node under construction: `Instruction::empty_phi`, then `update_phi_operands`
(`mir/src/function.rs:446-463`, `575-602`). -/
structure Phi where
  dest : ValueId
  ty : MirType
  sources : List (BlockId × ValueId)

/-- `BasicBlock` (`mir/src/basic_block.rs`). -/
structure BlockS where
  phis : List Phi
  instrs : List Instr
  term : Terminator
  preds : List BlockId

/-- `BasicBlock::new`. -/
def BlockS.empty : BlockS := ⟨[], [], .Unreachable, []⟩

/-- History variables. The lowering writes them and never reads them; they are not in the code and only serve the
proofs. -/
structure Ghost where
  /-- What removed phi nodes stand for. -/
  sub : ValueId → ValueId
  /-- The value of a variable at the start of a block, when it has been looked up. -/
  ent : Var → BlockId → Option ValueId
  /-- Variable and block of a phi node. -/
  phi : ValueId → Option (Var × BlockId)
  /-- When a value was created; for a phi node, when its block was started. -/
  stamp : ValueId → ℕ
  /-- When a block became the current one. -/
  start : BlockId → Option ℕ
  /-- When a block ceased to be the current one. -/
  stop : BlockId → Option ℕ
  clock : ℕ

/-- A value is created. -/
def Ghost.create (g : Ghost) (d : ValueId) : Ghost :=
  { g with stamp := Function.update g.stamp d g.clock, clock := g.clock + 1 }

/-- The value of a variable at the start of a block is known. -/
def Ghost.enter (g : Ghost) (v : Var) (b : BlockId) (e : ValueId) : Ghost :=
  { g with ent := Function.update g.ent v (Function.update (g.ent v) b (some e)) }

/-- A phi node is created. -/
def Ghost.createPhi (g : Ghost) (v : Var) (b : BlockId) (p : ValueId) : Ghost :=
  { g.enter v b p with
    phi := Function.update g.phi p (some (v, b)), stamp := Function.update g.stamp p ((g.start b).getD 0) }

/-- The phi node `p` is removed and stands for `r`. -/
def Ghost.remove (g : Ghost) (p r : ValueId) : Ghost :=
  let sub := fun x => if g.sub x = p then g.sub r else g.sub x
  { g with sub := sub, ent := fun v b => (g.ent v b).map sub }

/-- The current block is left for another one. -/
def Ghost.switch (g : Ghost) (a b : BlockId) : Ghost :=
  { g with
    stop := Function.update g.stop a (some g.clock), start := Function.update g.start b (some g.clock)
    clock := g.clock + 1 }

/-- `MirFunction` during lowering (`mir/src/function.rs:39-88`) and the builder state
(`lowering/builder.rs`, `MirState`). -/
structure St where
  blocks : BlockId → BlockS
  count : ℕ
  next : ValueId
  types : ValueId → Option MirType
  locals : Var → Option ValueId
  cur : Var → BlockId → Option ValueId
  incomplete : BlockId → List (Var × ValueId)
  sealed : BlockId → Bool
  current : BlockId
  loops : List (BlockId × BlockId)
  g : Ghost

/-- What the model leaves open: how often `read_variable` may recurse, and the order in which the hash map of the
incomplete phi nodes of a block is traversed. -/
structure Opts where
  fuel : ℕ
  order : List (Var × ValueId) → List (Var × ValueId)

/-- `MirType::from_semantic_type` (`mir/src/mir_types.rs:189-239`) on the scalar types. -/
def mirTy : Ty → MirType
  | .felt => .Felt
  | .u32 => .U32
  | .bool => .Bool
  | .unit => .Unit

/-! ### Values, instructions, blocks -/

/-- `new_typed_value_id` (`mir/src/function.rs:142-146`). -/
def St.newId (st : St) (ty : MirType) : ValueId × St :=
  (st.next,
    { st with
      next := st.next + 1, types := Function.update st.types st.next (some ty), g := st.g.create st.next })

/-- Change of one block. -/
def St.modify (st : St) (b : BlockId) (f : BlockS → BlockS) : St :=
  { st with blocks := Function.update st.blocks b (f (st.blocks b)) }

/-- `add_instruction` (`builder/instr_builder.rs:31-38`). -/
def St.emit (st : St) (i : Instr) : St :=
  st.modify st.current fun blk => { blk with instrs := blk.instrs ++ [i] }

/-- `new_block` (`builder/cfg_builder.rs:50-54`). -/
def St.newBlock (st : St) : BlockId × St :=
  (st.count, { st with count := st.count + 1, blocks := Function.update st.blocks st.count .empty })

/-- `switch_to_block` (`builder/cfg_builder.rs:75-79`). -/
def St.switch (st : St) (b : BlockId) : St := { st with current := b, g := st.g.switch st.current b }

/-- `is_current_block_terminated` (`lowering/builder.rs:308-310`), `has_terminator`
(`mir/src/basic_block.rs:99-101`). -/
def St.terminated (st : St) : Bool := (st.blocks st.current).term ≠ .Unreachable

/-- `connect` (`mir/src/function.rs:361-368`), `add_pred` (`basic_block.rs:144-148`); a missing block is a
panic. -/
def St.connect (st : St) (a : BlockId) (b : BlockId) : Option St :=
  if b < st.count then
    some (st.modify b fun blk => { blk with preds := if a ∈ blk.preds then blk.preds else blk.preds ++ [a] })
  else none

/-- `disconnect` (`mir/src/function.rs:391-398`), `remove_pred` (`basic_block.rs:151-153`). -/
def St.disconnect (st : St) (a : BlockId) (b : BlockId) : St :=
  st.modify b fun blk => { blk with preds := blk.preds.filter (· ≠ a) }

/-- `set_terminator_internal` (`builder/cfg_builder.rs:107-142`). The targets of `Unreachable` are empty, so the
test for an existing terminator is not needed. -/
def St.setTerm (st : St) (a : BlockId) (t : Terminator) : Option St :=
  let st := (st.blocks a).term.targets.foldl (fun st b => st.disconnect a b) st
  let st := st.modify a fun blk => { blk with term := t }
  t.targets.foldlM (fun st b => st.connect a b) st

/-- `terminate` (`builder/cfg_builder.rs:155-163`): a panic when the block already has a terminator. -/
def St.terminate (st : St) (t : Terminator) : Option St :=
  if st.terminated then none else st.setTerm st.current t

/-! ### Construction of static single assignment form -/

/-- `write_variable` (`mir/src/function.rs:466-475`). -/
def St.write (st : St) (v : Var) (b : BlockId) (id : ValueId) : St :=
  { st with
    cur := Function.update st.cur v (Function.update (st.cur v) b (some id))
    locals := Function.update st.locals v (some id) }

/-- `new_incomplete_phi` and `new_phi` (`mir/src/function.rs:446-460`, `523-530`); a variable without a definition
or without a type is a panic. -/
def St.newPhi (st : St) (b : BlockId) (v : Var) : Option (ValueId × St) := do
  let id ← st.locals v
  let ty ← st.types id
  let p := st.next
  let st :=
    { st with next := p + 1, types := Function.update st.types p (some ty), g := st.g.createPhi v b p }
  some (p, st.modify b fun blk => { blk with phis := blk.phis ++ [⟨p, ty, []⟩] })

/-- `update_phi_operands` (`mir/src/function.rs:562-587`). -/
def St.setSources (st : St) (b : BlockId) (p : ValueId) (ss : List (BlockId × ValueId)) : St :=
  st.modify b fun blk =>
    { blk with phis := blk.phis.map fun φ => if φ.dest = p then { φ with sources := ss } else φ }

/-- Replacement of a value in a phi node. -/
def Phi.replace (p r : ValueId) (φ : Phi) : Phi :=
  { φ with sources := φ.sources.map fun s => (s.1, if s.2 = p then r else s.2) }

/-- `replace_value_uses` (`mir/src/function.rs:645-654`): in the instructions and the terminators, not in the
table of the current definitions. -/
def St.replaceUses (st : St) (p r : ValueId) : St :=
  { st with blocks := fun b =>
      let blk := st.blocks b
      { blk with
        phis := blk.phis.map (Phi.replace p r)
        instrs := blk.instrs.map (Instr.replace p r)
        term := blk.term.replace p r } }

/-- `remove_phi_instruction` (`mir/src/function.rs:657-663`). -/
def St.removePhi (st : St) (b : BlockId) (p : ValueId) : St :=
  st.modify b fun blk => { blk with phis := blk.phis.filter fun φ => φ.dest ≠ p }

/-- The loop of `try_remove_trivial_phi` over the operands (`mir/src/function.rs:610-621`): `none` when there are
two different operands other than the phi node itself, otherwise the only such operand, if any. -/
def unique (p : ValueId) : Option ValueId → List ValueId → Option (Option ValueId)
  | u, [] => some u
  | u, x :: xs =>
    if x = p then unique p u xs
    else match u with
      | none => unique p (some x) xs
      | some y => if y = x then unique p u xs else none

/-- `get_phi_operands` (`mir/src/function.rs:622-642`). -/
def St.operands (st : St) (b : BlockId) (p : ValueId) : List ValueId :=
  match (st.blocks b).phis.find? (fun φ => φ.dest = p) with
  | some φ => φ.sources.map Prod.snd
  | none => []

/-- `try_remove_trivial_phi` (`mir/src/function.rs:590-619`). -/
def St.removeTrivial (st : St) (b : BlockId) (p : ValueId) : ValueId × St :=
  match unique p none (st.operands b p) with
  | some (some r) => (r, { (st.replaceUses p r).removePhi b p with g := st.g.remove p r })
  | _ => (p, st)

/-- The loop of `add_phi_operands` over the predecessors (`mir/src/function.rs:542-546`). -/
def readPreds (rd : BlockId → St → Option (ValueId × St)) :
    List BlockId → St → Option (List (BlockId × ValueId) × St)
  | [], st => some ([], st)
  | a :: as, st => do
    let (x, st) ← rd a st
    let (xs, st) ← readPreds rd as st
    some ((a, x) :: xs, st)

/-- `add_phi_operands` (`mir/src/function.rs:526-545`). -/
def addOperands (rd : BlockId → St → Option (ValueId × St)) (b : BlockId) (p : ValueId) (st : St) :
    Option (ValueId × St) := do
  let (ss, st) ← readPreds rd (st.blocks b).preds st
  some ((st.setSources b p ss).removeTrivial b p)

/-- `read_variable` and `read_variable_recursive` (`mir/src/function.rs:488-514`). The Rust recursion has no
bound; here it is at most `n` deep, and the result is `none` beyond. -/
def readVar : ℕ → Var → BlockId → St → Option (ValueId × St)
  | 0, _, _, _ => none
  | n + 1, v, b, st =>
    match st.cur v b with
    | some id => some (id, st)
    | none =>
      if st.sealed b then
        match (st.blocks b).preds with
        | [a] => do
          let (id, st) ← readVar n v a st
          some (id, { st.write v b id with g := st.g.enter v b (st.g.sub id) })
        | _ => do
          let (p, st) ← st.newPhi b v
          let (id, st) ← addOperands (readVar n v) b p (st.write v b p)
          some (id, st.write v b id)
      else do
        let (p, st) ← st.newPhi b v
        let st := { st with incomplete := Function.update st.incomplete b (st.incomplete b ++ [(v, p)]) }
        some (p, st.write v b p)

/-- The loop of `seal_block` (`mir/src/function.rs:667-681`). -/
def completePhis (fuel : ℕ) (b : BlockId) : List (Var × ValueId) → St → Option St
  | [], st => some st
  | (v, p) :: ps, st => do
    let (r, st) ← addOperands (readVar fuel v) b p st
    completePhis fuel b ps (if r ≠ p ∧ st.cur v b = some p then st.write v b r else st)

/-- `seal_block` (`mir/src/function.rs:667-681`). -/
def St.seal (o : Opts) (st : St) (b : BlockId) : Option St :=
  completePhis o.fuel b (o.order (st.incomplete b))
    { st with sealed := Function.update st.sealed b true, incomplete := Function.update st.incomplete b [] }

/-! ### Expressions -/

/-- `BinaryOp::from_parser` (`mir/src/instruction.rs:95-148`); the error is `none`. -/
def fromParser : BinOp → Ty → Option BinaryOp
  | .Add, .felt => some .Add
  | .Sub, .felt => some .Sub
  | .Mul, .felt => some .Mul
  | .Div, .felt => some .Div
  | .Eq, .felt => some .Eq
  | .Neq, .felt => some .Neq
  | .Less, .felt => some .Less
  | .Greater, .felt => some .Greater
  | .LessEqual, .felt => some .LessEqual
  | .GreaterEqual, .felt => some .GreaterEqual
  | .Add, .u32 => some .U32Add
  | .Sub, .u32 => some .U32Sub
  | .Mul, .u32 => some .U32Mul
  | .Div, .u32 => some .U32Div
  | .Mod, .u32 => some .U32Rem
  | .Eq, .u32 => some .U32Eq
  | .Neq, .u32 => some .U32Neq
  | .Less, .u32 => some .U32Less
  | .Greater, .u32 => some .U32Greater
  | .LessEqual, .u32 => some .U32LessEqual
  | .GreaterEqual, .u32 => some .U32GreaterEqual
  | .BitwiseAnd, .u32 => some .U32BitwiseAnd
  | .BitwiseOr, .u32 => some .U32BitwiseOr
  | .BitwiseXor, .u32 => some .U32BitwiseXor
  | .Eq, .bool => some .Eq
  | .Neq, .bool => some .Neq
  | .And, .bool => some .And
  | .Or, .bool => some .Or
  | _, _ => none

/-- New value and the instruction that defines it (`builder/instr_builder.rs:40-65`, `lowering/expr.rs:590-596`). -/
def St.define (st : St) (ty : MirType) (mk : ValueId → Instr) : ValueId × St :=
  let (d, st) := st.newId ty
  (d, st.emit (mk d))

/-- New values, one per type (`lowering/utils.rs:60-66`). -/
def St.newIds (st : St) : List MirType → List ValueId × St
  | [] => ([], st)
  | ty :: tys =>
    let (d, st) := st.newId ty
    let (ds, st) := st.newIds tys
    (d :: ds, st)

mutual
/-- `lower_expression` (`lowering/expr.rs:20-20`): literals, `lower_identifier` (`168-216`), `lower_unary_op`
(`218-236`), `lower_binary_op` (`238-274`), `lower_function_call` with one result (`355-425`), `lower_cast`
(`566-597`). The types are those of the semantic analysis. -/
def lowerExpr (o : Opts) (S : Sem) : Expr → St → Option (Value × St)
  | .int n _, st => some (.Literal (.Integer (BitVec.ofNat 32 n)), st)
  | .bool b, st => some (.Literal (.Boolean b), st)
  | .var x, st => do
    let (id, st) ← readVar o.fuel x st.current st
    some (.Operand id, st)
  | .un op e, st => do
    let t ← (Expr.un op e).ty S
    let (x, st) ← lowerExpr o S e st
    let (d, st) := st.define (mirTy t) fun d => .UnaryOp op d x
    some (.Operand d, st)
  | .bin op l r, st => do
    let t ← (Expr.bin op l r).ty S
    let tl ← l.ty S
    let (x, st) ← lowerExpr o S l st
    let (y, st) ← lowerExpr o S r st
    let op' ← fromParser op tl
    let (d, st) := st.define (mirTy t) fun d => .BinaryOp op' d x y
    some (.Operand d, st)
  | .call f args, st => do
    let t ← (Expr.call f args).ty S
    let (ps, rs) ← S.sig f
    let (xs, st) ← lowerArgs o S args st
    let (d, st) := st.define (mirTy t) fun d => .Call [d] f xs ⟨ps.map mirTy, rs.map mirTy⟩
    some (.Operand d, st)
  | .cast e t, st => do
    let s ← e.ty S
    let (x, st) ← lowerExpr o S e st
    let (d, st) := st.define (mirTy t) fun d => .Cast d x (mirTy s) (mirTy t)
    some (.Operand d, st)
/-- The arguments of a call, from left to right (`lowering/expr.rs:366-370`). -/
def lowerArgs (o : Opts) (S : Sem) : List Expr → St → Option (List Value × St)
  | [], st => some ([], st)
  | e :: es, st => do
    let (x, st) ← lowerExpr o S e st
    let (xs, st) ← lowerArgs o S es st
    some (x :: xs, st)
end

/-! ### Statements -/

/-- `bind_variable` and `bind_variable_def` (`lowering/builder.rs:106-149`, `653-710`). -/
def St.bindVar (S : Sem) (st : St) (x : Var) : Value → Option St
  | .Operand id => some (st.write x st.current id)
  | .Literal l =>
    let (d, st) := st.define (mirTy (S.varTy x)) fun d => .Assign d (.Literal l) (mirTy (S.varTy x))
    some (st.write x st.current d)
  | .Error => none

/-- The branches of a conditional that reach its end (`lowering/stmt.rs:451-453`, `465-467`, `489-491`). -/
def St.finals (st : St) : List BlockId := if st.terminated then [] else [st.current]

/-- Jumps from the ends of the branches (`lowering/stmt.rs:499-504`, `520-524`). -/
def St.joins (st : St) (bs : List BlockId) (m : BlockId) : Option St :=
  bs.foldlM (fun st b => st.setTerm b (.Jump m)) st

/-- Jump back, when the end of a loop body is reached (`lowering/stmt.rs:590-592`, `640-642`). -/
def St.jumpIfOpen (st : St) (b : BlockId) : Option St :=
  if st.terminated then some st else st.terminate (.Jump b)

mutual
/-- `lower_statement` (`lowering/stmt.rs:46-46`): `lower_let_statement` (`121-139`), `lower_return_statement`
(`141-193`), `lower_assignment_statement` to an identifier (`195-224`), `lower_expression_statement` (`348-383`),
`lower_assert_call` (`387-412`), `lower_if_statement` (`414-533`), `lower_while_statement` (`551-609`),
`lower_loop_statement` (`611-656`), `lower_for_statement` (`658-726`), `lower_break_statement` (`728-736`),
`lower_continue_statement` (`738-748`). -/
def lowerStmt (o : Opts) (S : Sem) : Stmt → St → Option St
  | .letS x e, st => do
    let (v, st) ← lowerExpr o S e st
    st.bindVar S x v
  | .assign x e, st => do
    let (v, st) ← lowerExpr o S e st
    st.bindVar S x v
  | .ret, st => st.terminate (.Return [])
  | .retE e, st => do
    let (v, st) ← lowerExpr o S e st
    st.terminate (.Return [v])
  | .expr e, st => do
    let (_, st) ← lowerExpr o S e st
    some st
  | .call f args, st => do
    let (ps, rs) ← S.sig f
    let (xs, st) ← lowerArgs o S args st
    let (ds, st) := st.newIds (rs.map mirTy)
    some (st.emit (.Call ds f xs ⟨ps.map mirTy, rs.map mirTy⟩))
  | .assert e, st => do
    let (v, st) ← lowerExpr o S e st
    some (st.emit (.AssertEq v (.Literal (.Integer 1))))
  | .ifElse c t e, st => do
    let (v, st) ← lowerExpr o S c st
    let (tb, st) := st.newBlock
    let (eb, st) := st.newBlock
    let st ← st.terminate (.If v tb eb)
    let st ← st.seal o tb
    let st ← st.seal o eb
    let st ← lowerStmt o S t (st.switch tb)
    let fs := st.finals
    let st ← lowerStmt o S e (st.switch eb)
    let fs := fs ++ st.finals
    if fs = [] then some st
    else do
      let (m, st) := st.newBlock
      let st ← st.joins fs m
      let st ← st.seal o m
      some (st.switch m)
  | .ifThen c t, st => do
    let (v, st) ← lowerExpr o S c st
    let (tb, st) := st.newBlock
    let (m, st) := st.newBlock
    let st ← st.terminate (.If v tb m)
    let st ← st.seal o tb
    let st ← st.seal o m
    let st ← lowerStmt o S t (st.switch tb)
    let fs := st.finals
    (st.switch m).joins fs m
  | .block ss, st => lowerStmts o S ss st
  | .while c body, st => do
    let (h, st) := st.newBlock
    let (b, st) := st.newBlock
    let (x, st) := st.newBlock
    let st ← st.terminate (.Jump h)
    let st := { st with loops := (h, x) :: st.loops }
    let (v, st) ← lowerExpr o S c (st.switch h)
    let st ← st.terminate (.If v b x)
    let st ← st.seal o b
    let st ← st.seal o x
    let st ← lowerStmt o S body (st.switch b)
    let st ← st.jumpIfOpen h
    let st ← st.seal o h
    some ({ st with loops := st.loops.tail }.switch x)
  | .loop body, st => do
    let (b, st) := st.newBlock
    let (x, st) := st.newBlock
    let st ← st.terminate (.Jump b)
    let st ← st.seal o x
    let st := { st with loops := (b, x) :: st.loops }
    let st ← lowerStmt o S body (st.switch b)
    let st ← st.jumpIfOpen b
    let st ← st.seal o b
    some ({ st with loops := st.loops.tail }.switch x)
  | .for init c step body, st => do
    let st ← lowerStmt o S init st
    if st.terminated then some st
    else do
      let (h, st) := st.newBlock
      let (b, st) := st.newBlock
      let (s, st) := st.newBlock
      let (x, st) := st.newBlock
      let st ← st.terminate (.Jump h)
      let st := { st with loops := (s, x) :: st.loops }
      let (v, st) ← lowerExpr o S c (st.switch h)
      let st ← st.terminate (.If v b x)
      let st ← st.seal o b
      let st ← st.seal o x
      let st ← lowerStmt o S body (st.switch b)
      let st ← st.jumpIfOpen s
      let st ← st.seal o s
      let st ← lowerStmt o S step (st.switch s)
      let st ← st.jumpIfOpen h
      let st ← st.seal o h
      some ({ st with loops := st.loops.tail }.switch x)
  | .break, st => do
    let l ← st.loops.head?
    st.terminate (.Jump l.2)
  | .continue, st => do
    let l ← st.loops.head?
    st.terminate (.Jump l.1)
/-- `lower_block_statement` (`lowering/stmt.rs:535-549`): nothing is lowered after a terminator. -/
def lowerStmts (o : Opts) (S : Sem) : List Stmt → St → Option St
  | [], st => some st
  | s :: ss, st => do
    let st ← lowerStmt o S s st
    if st.terminated then some st else lowerStmts o S ss st
end

/-! ### Functions -/

/-- `MirFunction::new` (`mir/src/function.rs:92-111`) and the state of a new builder. -/
def St.initial : St :=
  { blocks := fun _ => .empty, count := 1, next := 0, types := fun _ => none, locals := fun _ => none,
    cur := fun _ _ => none, incomplete := fun _ => [], sealed := fun _ => false, current := 0, loops := [],
    g := { sub := id, ent := fun _ _ => none, phi := fun _ => none, stamp := fun _ => 0,
           start := fun b => if b = 0 then some 0 else none, stop := fun _ => none, clock := 1 } }

/-- `lower_parameters` (`lowering/function.rs:257-269`). -/
def lowerParams (S : Sem) : List Var → St → List ValueId × St
  | [], st => ([], st)
  | x :: xs, st =>
    let (d, st) := st.newId (mirTy (S.varTy x))
    let (ds, st) := lowerParams S xs (st.write x st.current d)
    (d :: ds, st)

/-- A phi node of the finished function. -/
def Phi.instr (φ : Phi) : Instr := .Phi φ.dest φ.ty (φ.sources.map fun s => (s.1, .Operand s.2))

/-- The finished block. -/
def BlockS.done (b : BlockS) : Block := { instrs := b.phis.map Phi.instr ++ b.instrs, term := b.term }

/-- `lower_function` (`lowering/function.rs:221-255`): parameters, sealing of the entry block, body, types of the
returned values (`320-334`). -/
def lowerFn (o : Opts) (S : Sem) (name : Name) (f : Fn) : Option Function := do
  let (ps, st) := lowerParams S f.params .initial
  let st ← st.seal o 0
  let st ← lowerStmts o S f.body st
  let (rs, st) := st.newIds (f.rets.map mirTy)
  some { name := name, blocks := (List.range st.count).map fun b => (st.blocks b).done, params := ps,
         returns := rs, nextValue := st.next, types := st.types }

end Lower
end CairoM
