import Verif.WasmSpec
import Verif.Memory

/-!
# The WebAssembly front end: from flat data-flow form to MIR

Model of `crates/wasm/src/lowering/{mod,cfg,ops,context}.rs`. The types of `womir` (nodes, origins, targets) are
modelled from their use in this crate; its source is not part of the repository. Hash maps are association lists with
the most recent binding first. `current_source_block` (written, never read) and the texts of the errors are left out.
-/

namespace CairoM
namespace Wasm

open Mir

/-- `DagToMirError` (`lowering/mod.rs:14-56`) and panics. -/
inductive Err where
  | unsupportedOperation
  | invalidControlFlow
  | valueMapping
  | unsupportedType
  | loopDepth
  | panic
deriving DecidableEq, Repr

/-- `ActiveLoop` (`lowering/context.rs:23-27`). -/
structure ActiveLoop where
  header : ℕ
  phis : List ℕ
deriving DecidableEq

/-- An operand for a phi node, recorded until the end (`lowering/context.rs:20`): the block and the name of the phi node,
the predecessor and the value. -/
structure Deferred where
  block : ℕ
  dest : ℕ
  source : ℕ
  value : Value
deriving DecidableEq

/-- `DagToMirContext` (`lowering/context.rs:10-21`) with the fields of the function under construction. The innermost
scope and the innermost loop come first. -/
structure St where
  blocks : List Block
  next : ℕ
  types : ℕ → Option MirType
  params : List ℕ
  scopes : List (List (Origin × ℕ))
  labels : List (ℕ × ℕ)
  current : ℕ
  labelPhis : List (ℕ × List ℕ)
  loops : List ActiveLoop
  deferred : List Deferred

/-- The function types of the module (`program.m.get_func_type`). -/
abbrev FuncTypes := ℕ → Option (List ValType × List ValType)

/-- `DagToMirContext::new` (`lowering/context.rs:30-44`) with `MirFunction::new` (`mir/src/function.rs:92-111`): one block. -/
def St.init : St :=
  { blocks := [⟨[], .Unreachable⟩], next := 0, types := fun _ => none, params := [], scopes := [[]], labels := [],
    current := 0, labelPhis := [], loops := [], deferred := [] }

/-- `wasm_type_to_mir_type` (`lowering/mod.rs:75-88`). -/
def mirType : ValType → Except Err MirType
  | .i32 => .ok .U32
  | .other => .error .unsupportedType

/-- `wasm_type_to_mir_type` on a list, collected (`lowering/mod.rs:109-123`, `cfg.rs:21-25`). -/
def mirTypes : List ValType → Except Err (List MirType)
  | [] => .ok []
  | t :: ts => do
    let t ← mirType t
    let ts ← mirTypes ts
    pure (t :: ts)

/-- `MirFunction::new_typed_value_id` (`mir/src/function.rs:142-146`). -/
def St.fresh (s : St) (t : MirType) : St × ℕ :=
  ({ s with next := s.next + 1, types := Function.update s.types s.next (some t) }, s.next)

/-- `MirFunction::add_basic_block` (`mir/src/function.rs:114-116`). -/
def St.addBlock (s : St) : St × ℕ := ({ s with blocks := s.blocks ++ [⟨[], .Unreachable⟩] }, s.blocks.length)

/-- `get_current_block()?.push_instruction` (`lowering/context.rs:46-56`). -/
def St.push (s : St) (i : Instr) : Except Err St :=
  if s.current < s.blocks.length then
    .ok { s with blocks := s.blocks.modify s.current fun b => { b with instrs := b.instrs ++ [i] } }
  else .error .invalidControlFlow

/-- `block_mut(b)?.set_terminator` (`lowering/context.rs:63-75`). -/
def St.setTerm (s : St) (b : ℕ) (t : Terminator) : Except Err St :=
  if b < s.blocks.length then .ok { s with blocks := s.blocks.modify b fun b => { b with term := t } }
  else .error .invalidControlFlow

/-- `insert_value` (`lowering/context.rs:77-81`). -/
def St.insert (s : St) (o : Origin) (v : ℕ) : St :=
  { s with scopes := match s.scopes with
    | [] => []
    | m :: ms => ((o, v) :: m) :: ms }

/-- `get_value` (`lowering/context.rs:83-90`): from the innermost scope outwards. -/
def getIn : List (List (Origin × ℕ)) → Origin → Option ℕ
  | [], _ => none
  | m :: ms, o => match m.lookup o with
    | some v => some v
    | none => getIn ms o

/-- `get_input_value` (`lowering/context.rs:160-180`). -/
def St.input (s : St) (o : Origin) : Except Err ℕ :=
  match getIn s.scopes o with
  | some v => .ok v
  | none => .error .valueMapping

/-- `get_input_value` on a list, collected. -/
def St.inputs (s : St) : List Origin → Except Err (List ℕ)
  | [] => .ok []
  | o :: os => do
    let v ← s.input o
    let vs ← s.inputs os
    pure (v :: vs)

/-- `push_phi_front` (`mir/src/basic_block.rs:167-186`): after the phi nodes that are there. -/
def pushPhi : List Instr → Instr → List Instr
  | .Phi d t ss :: is, p => .Phi d t ss :: pushPhi is p
  | is, p => p :: is

/-- `create_phi_nodes` (`lowering/context.rs:183-200`). -/
def St.phis (s : St) (b : ℕ) : List MirType → St × List ℕ
  | [] => (s, [])
  | t :: ts =>
    let (s, v) := s.fresh t
    let s := { s with blocks := s.blocks.modify b fun c => { c with instrs := pushPhi c.instrs (.Phi v t []) } }
    let (s, vs) := s.phis b ts
    (s, v :: vs)

/-- Names for the outputs of a node (`cfg.rs:28-37`, `cfg.rs:198-207`, `mod.rs:126-137`). -/
def St.insertAll (s : St) (node : ℕ) : ℕ → List ℕ → St
  | _, [] => s
  | i, v :: vs => (s.insert ⟨node, i⟩ v).insertAll node (i + 1) vs

/-- `allocate_blocks_and_phi_nodes` (`lowering/cfg.rs:13-41`). -/
def St.allocate (s : St) : ℕ → List Node → Except Err St
  | _, [] => .ok s
  | idx, .label id types :: ns => do
    let (s, b) := s.addBlock
    let s := { s with labels := (id, b) :: s.labels }
    let ts ← mirTypes types
    let (s, vs) := s.phis b ts
    let s := s.insertAll idx 0 vs
    let s := { s with labelPhis := (id, vs) :: s.labelPhis }
    s.allocate (idx + 1) ns
  | idx, _ :: ns => s.allocate (idx + 1) ns

/-- `wasm_binary_opcode_to_mir` (`lowering/ops.rs:13-38`). -/
def binOp : Bin → Option BinaryOp
  | .add => some .U32Add
  | .sub => some .U32Sub
  | .mul => some .U32Mul
  | .divU => some .U32Div
  | .eq => some .U32Eq
  | .ne => some .U32Neq
  | .gtU => some .U32Greater
  | .geU => some .U32GreaterEqual
  | .ltU => some .U32Less
  | .leU => some .U32LessEqual
  | .and => some .U32BitwiseAnd
  | .or => some .U32BitwiseOr
  | .xor => some .U32BitwiseXor
  | _ => none

/-- The comparison used for a signed comparison (`lowering/ops.rs:155-161`). -/
def signedOp : Bin → Option BinaryOp
  | .ltS => some .U32Less
  | .gtS => some .U32Greater
  | .leS => some .U32LessEqual
  | .geS => some .U32GreaterEqual
  | _ => none

/-- Type of the result of an operator that is translated to one instruction (`lowering/ops.rs:108-129`). -/
def binTy : Bin → MirType
  | .add | .sub | .mul | .divU | .and | .or | .xor => .U32
  | _ => .Bool

/-- `convert_wasm_binop_to_mir` (`lowering/ops.rs:40-53`). -/
def St.binop (s : St) (b : Bin) (l r : ℕ) (t : MirType) : Except Err (St × Option ℕ) := do
  let (s, v) := s.fresh t
  match binOp b with
  | none => .error .unsupportedOperation
  | some op =>
    let s ← s.push (.BinaryOp op v (.Operand l) (.Operand r))
    pure (s, some v)

/-- `cm_offset_from_wasm_i32_offset` (`lowering/ops.rs:89-91`): `-((offset / 2) as i32) - 1`; the conversion keeps the low 32 bits. -/
def cellOffset (offset : ℕ) : BitVec 32 := -(BitVec.ofNat 32 (offset / 2)) - 1

/-- The constant of the address computation (`lowering/ops.rs:78`): `MAX_ADDRESS as i32 + cm_offset`. -/
def topCell (offset : ℕ) : BitVec 32 := BitVec.ofNat 32 MAX_ADDRESS + cellOffset offset

/-- The constant added before a signed comparison (`lowering/ops.rs:143`). -/
def signBit : BitVec 32 := 0x80000000

/-- `compute_cm_address_from_wasm_address` (`lowering/ops.rs:58-87`). -/
def St.address (s : St) (a : ℕ) (offset : ℕ) : Except Err (St × ℕ) := do
  let (s, t1) := s.fresh .U32
  let (s, t2) := s.fresh .Felt
  let (s, c) := s.fresh .Felt
  let s ← s.push (.BinaryOp .U32Div t1 (.Operand a) (.Literal (.Integer 2)))
  let s ← s.push (.Cast t2 (.Operand t1) .U32 .Felt)
  let s ← s.push (.BinaryOp .Sub c (.Literal (.Integer (topCell offset))) (.Operand t2))
  pure (s, c)

/-- `convert_wasm_op_to_mir` (`lowering/ops.rs:94-271`). A missing input is an index out of bounds. -/
def St.convert (m : FuncTypes) (s : St) (o : Op) (ins : List Origin) : Except Err (St × Option ℕ) := do
  let vs ← s.inputs ins
  match o with
  | .bin b =>
    match vs with
    | l :: r :: _ =>
      match signedOp b with
      | none => s.binop b l r (binTy b)
      | some op =>
        let (s, t1) := s.fresh .U32
        let (s, t2) := s.fresh .U32
        let (s, v) := s.fresh .Bool
        let s ← s.push (.BinaryOp .U32Add t1 (.Operand l) (.Literal (.Integer signBit)))
        let s ← s.push (.BinaryOp .U32Add t2 (.Operand r) (.Literal (.Integer signBit)))
        let s ← s.push (.BinaryOp op v (.Operand t1) (.Operand t2))
        pure (s, some v)
    | _ => .error .panic
  | .eqz =>
    match vs with
    | l :: _ =>
      let (s, v) := s.fresh .Bool
      let s ← s.push (.BinaryOp .U32Eq v (.Operand l) (.Literal (.Integer 0)))
      pure (s, some v)
    | _ => .error .panic
  | .const n =>
    let (s, v) := s.fresh .U32
    let s ← s.push (.Assign v (.Literal (.Integer n)) .U32)
    pure (s, some v)
  | .localAccess => .error .panic
  | .call f =>
    match m f with
    | none => .error .panic
    | some (ps, rs) =>
      let ps ← mirTypes ps
      let rs ← mirTypes rs
      let (s, v) := s.fresh .U32
      let s ← s.push (.Call [v] f (vs.map .Operand) ⟨ps, rs⟩)
      pure (s, some v)
  | .load offset =>
    match vs with
    | a :: _ =>
      let (s, c) ← s.address a offset
      let (s, v) := s.fresh .U32
      let s ← s.push (.Load v ⟨c, []⟩ .U32)
      pure (s, some v)
    | _ => .error .panic
  | .store offset =>
    match vs with
    | a :: rest =>
      let (s, c) ← s.address a offset
      match rest with
      | v :: _ =>
        let s ← s.push (.Store ⟨c, []⟩ (.Operand v) .U32)
        pure (s, none)
      | [] => .error .panic
    | _ => .error .panic
  | .other => .error .unsupportedOperation

/-- `resolve_break_target` (`lowering/cfg.rs:231-287`): all inputs of the node are returned, the condition of a
conditional branch among them. -/
def St.resolve (s : St) (ins : List Origin) : Target → Except Err (St × ℕ)
  | .label id =>
    match s.labels.lookup id with
    | some b => .ok (s, b)
    | none => .error .invalidControlFlow
  | .outer d =>
    match s.loops with
    | [] => do
      let (s, b) := s.addBlock
      let vs ← s.inputs ins
      let s ← s.setTerm b (.Return (vs.map .Operand))
      pure (s, b)
    | ls =>
      match ls[d]? with
      | some l => .ok (s, l.header)
      | none => .error .loopDepth

/-- `add_deferred_phi_operand` for the names and values at hand (`lowering/cfg.rs:345-353`, `cfg.rs:392-400`). -/
def St.defer (s : St) (block : ℕ) (dests values : List ℕ) : St :=
  { s with deferred := s.deferred ++ (dests.zip values).map fun p => ⟨block, p.1, s.current, .Operand p.2⟩ }

/-- `record_edge_values` (`lowering/cfg.rs:219-228`, `cfg.rs:307-403`); `ins` are the data inputs (`get_branch_values`, `cfg.rs:290-304`). -/
def St.record (s : St) (ins : List Origin) : Target → Except Err St
  | .label id => do
    let vs ← s.inputs ins
    match s.labelPhis.lookup id with
    | none => .error .invalidControlFlow
    | some ds =>
      match s.labels.lookup id with
      | none => .error .invalidControlFlow
      | some b => pure (s.defer b ds vs)
  | .outer d =>
    match s.loops[d]? with
    | none => .ok s
    | some l => do
      let vs ← s.inputs ins
      pure (s.defer l.header l.phis vs)

/-- The conditional branches (`lowering/cfg.rs:94-141`); `onTrue` when the branch is taken on a condition that holds. -/
def St.condBranch (s : St) (onTrue : Bool) (t : Target) (ins : List Origin) : Except Err St := do
  match ins.getLast? with
  | none => .error .invalidControlFlow
  | some c =>
    let c ← s.input c
    let (s, b) ← s.resolve ins t
    let (s, e) := s.addBlock
    let s ← s.record ins.dropLast t
    let s ← s.setTerm s.current (if onTrue then .If (.Operand c) b e else .If (.Operand c) e b)
    pure { s with current := e }

/-- The operands of the header's phi nodes on entry to a loop (`lowering/cfg.rs:163-185`): inputs without a phi node are
not looked up. -/
def St.entry (s : St) (header : ℕ) : List Origin → List ℕ → Except Err St
  | [], _ => .ok s
  | _, [] => .ok s
  | o :: os, d :: ds => do
    let v ← s.input o
    let s := s.defer header [d] [v]
    s.entry header os ds

mutual
/-- One node in the second pass (`lowering/cfg.rs:49-212`). -/
def St.genNode (m : FuncTypes) (s : St) (idx : ℕ) : Node → Except Err St
  | .inputs _ => .ok s
  | .op o ins => do
    let (s, r) ← s.convert m o ins
    pure (match r with
      | some v => s.insert ⟨idx, 0⟩ v
      | none => s)
  | .label id _ =>
    match s.labels.lookup id with
    | none => .error .invalidControlFlow
    | some b => .ok { s with current := b }
  | .br t ins => do
    let (s, b) ← s.resolve ins t
    let s ← s.record ins t
    let s ← s.setTerm s.current (.Jump b)
    pure { s with current := b }
  | .brIf t ins => s.condBranch true t ins
  | .brIfZero t ins => s.condBranch false t ins
  | .brTable _ => .error .panic
  | .loop ins body => do
    let (s, h) := s.addBlock
    match body with
    | .inputs types :: _ =>
      let ts ← mirTypes types
      let (s, ds) := s.phis h ts
      let s ← s.entry h ins ds
      let s ← s.setTerm s.current (.Jump h)
      let s := { s with current := h }
      let (s, b) := s.addBlock
      let s ← s.setTerm s.current (.Jump b)
      let s := { s with current := b, loops := ⟨h, ds⟩ :: s.loops, scopes := [] :: s.scopes }
      let s := s.insertAll 0 0 ds
      let s ← s.allocate 0 body
      let s ← s.genNodes m 0 body
      pure { s with scopes := s.scopes.tail, loops := s.loops.tail }
    | _ => .error .panic
/-- `generate_instructions_from_dag` (`lowering/cfg.rs:44-216`). -/
def St.genNodes (m : FuncTypes) (s : St) (idx : ℕ) : List Node → Except Err St
  | [] => .ok s
  | n :: ns => do
    let s ← s.genNode m idx n
    s.genNodes m (idx + 1) ns
end

/-- The operands recorded for a phi node. -/
def operandsFor (ds : List Deferred) (b : ℕ) (d : ℕ) : List (ℕ × Value) :=
  (ds.filter fun x => x.block = b ∧ x.dest = d).map fun x => (x.source, x.value)

/-- Operands for the leading phi nodes of a block (the names of phi nodes are distinct). -/
def finishInstrs (ds : List Deferred) (b : ℕ) : List Instr → List Instr
  | .Phi d t _ :: is => .Phi d t (operandsFor ds b d) :: finishInstrs ds b is
  | is => is

/-- `finalize_phi_nodes` (`lowering/context.rs:112-157`). A phi node without operands keeps its empty list. -/
def St.finish (s : St) : Except Err (List Block) :=
  if s.deferred.all fun d => d.block < s.blocks.length then
    .ok (s.blocks.mapIdx fun b c => { c with instrs := finishInstrs s.deferred b c.instrs })
  else .error .invalidControlFlow

/-- Parameters (`lowering/mod.rs:126-137`). -/
def St.addParams (s : St) : ℕ → List MirType → St
  | _, [] => s
  | i, t :: ts =>
    let (s, v) := s.fresh t
    ({ s with params := s.params ++ [v] }.insert ⟨0, i⟩ v).addParams (i + 1) ts

/-- Names for the results (`lowering/mod.rs:184-190`). -/
def St.results (s : St) : List MirType → St × List ℕ
  | [] => (s, [])
  | t :: ts =>
    let (s, v) := s.fresh t
    let (s, vs) := s.results ts
    (s, v :: vs)

/-- `function_to_mir` (`lowering/mod.rs:91-192`). -/
def lowerFunc (m : FuncTypes) (f : Func) : Except Err Function := do
  let ps ← mirTypes f.params
  let rs ← mirTypes f.results
  let s := St.init.addParams 0 ps
  let s ← s.allocate 0 f.nodes
  let s ← s.genNodes m 0 f.nodes
  let blocks ← s.finish
  let (s, vs) := s.results rs
  pure { name := f.name, blocks := blocks, params := s.params, returns := vs, nextValue := s.next, types := s.types }

end Wasm
end CairoM
