import Verif.Mir

/-!
# Optimisation passes over the mid-level representation

Model of `crates/compiler/mir/src/passes/{arithmetic_simplify,constant_propagation,constant_folding,
copy_propagation,local_cse,simplify_branches,fuse_cmp,dead_code_elimination,phi_elimination}.rs` and of
`cfg.rs`. The scalar replacement of aggregates (`sroa.rs`) is in `Sroa`. The predecessor lists that the Rust code keeps in each block are recomputed from the
terminators. The Boolean "modified" results, which nothing reads, are left out.
-/

namespace CairoM
namespace Mir

/-! ### Uses of values -/

/-- `visit_value` (`mir/src/value_visitor.rs:10-17`). -/
def Value.ids : Value → List ValueId
  | .Operand v => [v]
  | _ => []

/-- `visit_values` (`value_visitor.rs:21-29`). -/
def valuesIds (vs : List Value) : List ValueId := vs.flatMap Value.ids

/-- The operand of a projection (`value_visitor.rs:58-62`). -/
def Projection.ids : Projection → List ValueId
  | .Index v => v.ids
  | _ => []

/-- `visit_place` (`value_visitor.rs:53-64`). -/
def Place.ids (p : Place) : List ValueId := p.base :: p.projections.flatMap Projection.ids

/-- `Instruction::used_values` (`mir/src/instruction.rs:712-856`). The Rust code returns a set. -/
def Instr.uses : Instr → List ValueId
  | .Assign _ v _ => v.ids
  | .UnaryOp _ _ v => v.ids
  | .BinaryOp _ _ l r => l.ids ++ r.ids
  | .Call _ _ args _ => valuesIds args
  | .Cast _ v _ _ => v.ids
  | .Load _ p _ => p.ids
  | .Store p v _ => p.ids ++ v.ids
  | .Debug vs => valuesIds vs
  | .Phi _ _ sources => valuesIds (sources.map Prod.snd)
  | .Nop => []
  | .MakeTuple _ vs => valuesIds vs
  | .ExtractTupleElement _ v _ _ => v.ids
  | .MakeStruct _ fs _ => valuesIds (fs.map Prod.snd)
  | .ExtractStructField _ v _ _ => v.ids
  | .InsertField _ s _ v _ => s.ids ++ v.ids
  | .InsertTuple _ t _ v _ => t.ids ++ v.ids
  | .MakeFixedArray _ vs _ _ => valuesIds vs
  | .AssertEq l r => l.ids ++ r.ids
  | .HeapAllocCells _ v => v.ids

/-- `Terminator::used_values` (`mir/src/terminator.rs:136-171`). -/
def Terminator.uses : Terminator → List ValueId
  | .Jump _ => []
  | .If c _ _ => c.ids
  | .BranchCmp _ l r _ _ => l.ids ++ r.ids
  | .Return vs => valuesIds vs
  | .Unreachable => []

/-- Uses of a value in a block, one per instruction that mentions it. -/
def Block.useCount (b : Block) (v : ValueId) : ℕ :=
  b.instrs.countP (fun i => decide (v ∈ i.uses)) + if v ∈ b.term.uses then 1 else 0

/-- `MirFunction::get_value_use_counts` (`mir/src/function.rs:182-195`). -/
def useCount (blocks : List Block) (v : ValueId) : ℕ := (blocks.map (Block.useCount · v)).sum

/-- `Instruction::destination` (`mir/src/instruction.rs:702-709`): only for exactly one destination. -/
def Instr.destination (i : Instr) : Option ValueId :=
  match i.destinations with
  | [d] => some d
  | _ => none

/-- `Instruction::has_side_effects` (`instruction.rs:972-980`). -/
def Instr.hasSideEffects : Instr → Bool
  | .Call .. | .Debug .. | .Store .. | .HeapAllocCells .. => true
  | _ => false

/-- `BinaryOp::result_type` (`instruction.rs:151-180`). -/
def resultType : BinaryOp → MirType
  | .Add | .Sub | .Mul | .Div => .Felt
  | .U32Add | .U32Sub | .U32Mul | .U32Div | .U32Rem => .U32
  | .U32BitwiseAnd | .U32BitwiseOr | .U32BitwiseXor => .U32
  | _ => .Bool

/-- Applies a partial function to every element of a list, failing on the first error. -/
def mapExcept {α β : Type} (g : α → Except Panic β) : List α → Except Panic (List β)
  | [] => .ok []
  | a :: as =>
    match g a with
    | .error e => .error e
    | .ok b =>
      match mapExcept g as with
      | .error e => .error e
      | .ok bs => .ok (b :: bs)

/-- Rewrites every instruction of every block. -/
def mapInstrs (g : Instr → Except Panic Instr) (bs : List Block) : Except Panic (List Block) :=
  mapExcept (fun b => match mapExcept g b.instrs with
    | .error e => .error e
    | .ok is => .ok { b with instrs := is }) bs

/-! ### Arithmetic simplification and constant folding -/

/-- `simplify_binary_op` (`arithmetic_simplify.rs:117-152`). -/
def arithInstr : Instr → Except Panic Instr
  | .BinaryOp op d l r =>
    match simplifyBinary op l r with
    | .error e => .error e
    | .ok (some v) => .ok (.Assign d v (resultType op))
    | .ok none => .ok (.BinaryOp op d l r)
  | i => .ok i

/-- `ArithmeticSimplify::run` (`arithmetic_simplify.rs:163-184`). -/
def arithSimplify (f : Function) : Except Panic Function :=
  match mapInstrs arithInstr f.blocks with
  | .error e => .error e
  | .ok bs => .ok { f with blocks := bs }

/-- `ConstantFolding::try_fold_instruction` (`constant_folding.rs:34-88`). -/
def foldInstr : Instr → Except Panic Instr
  | .BinaryOp op d (.Literal a) (.Literal b) =>
    match evalBinary op a b with
    | .error e => .error e
    | .ok (some r) => .ok (.Assign d (.Literal r) (resultType op))
    | .ok none => .ok (.BinaryOp op d (.Literal a) (.Literal b))
  | .UnaryOp op d (.Literal a) =>
    match evalUnary op a with
    | some r => .ok (.Assign d (.Literal r) (match op with | .Not => .Bool | .Neg => .Felt))
    | none => .ok (.UnaryOp op d (.Literal a))
  | i => .ok i

/-- `ConstantFolding::run` (`constant_folding.rs:92-106`). -/
def constFold (f : Function) : Except Panic Function :=
  match mapInstrs foldInstr f.blocks with
  | .error e => .error e
  | .ok bs => .ok { f with blocks := bs }

/-! ### Branches -/

/-- `simplify_if_terminator` and `simplify_branch_cmp` (`simplify_branches.rs:35-88`). -/
def simplifyTerm : Terminator → Except Panic Terminator
  | .If (.Literal l) t e =>
    match asBool l with
    | some true => .ok (.Jump t)
    | some false => .ok (.Jump e)
    | none => .ok (.If (.Literal l) t e)
  | .BranchCmp op (.Literal a) (.Literal b) t e =>
    match evalBinary op a b with
    | .error p => .error p
    | .ok (some (.Boolean true)) => .ok (.Jump t)
    | .ok (some (.Boolean false)) => .ok (.Jump e)
    | .ok _ => .ok (.BranchCmp op (.Literal a) (.Literal b) t e)
  | t => .ok t

/-- `SimplifyBranches::run` (`simplify_branches.rs:92-117`). -/
def simplifyBranches (f : Function) : Except Panic Function :=
  match mapExcept (fun b : Block => match simplifyTerm b.term with
      | .error e => .error e
      | .ok t => .ok { b with term := t }) f.blocks with
  | .error e => .error e
  | .ok bs => .ok { f with blocks := bs }

/-- The replacement of a comparison whose result is branched on (`fuse_cmp.rs:81-119`). -/
def fuseCmp (op : BinaryOp) (l r : Value) (t e : BlockId) : Option Terminator :=
  match op with
  | .Eq | .U32Eq =>
    some (match isZero l, isZero r with
      | true, false => .If r e t
      | false, true => .If l e t
      | _, _ => .BranchCmp op l r t e)
  | .Neq | .U32Neq =>
    some (match isZero l, isZero r with
      | true, false => .If r t e
      | false, true => .If l t e
      | _, _ => .BranchCmp op l r t e)
  | _ => none

/-- The terminator that replaces `if c then t else e` after the instruction `i`, which is then removed
(`fuse_cmp.rs:66-136`). -/
def fuseLast (i : Instr) (c : ValueId) (t e : BlockId) : Option Terminator :=
  match i with
  | .BinaryOp op d l r => if d = c then fuseCmp op l r t e else none
  | .UnaryOp .Not d v => if d = c then some (.If v e t) else none
  | _ => none

/-- One block of `FuseCmpBranch::run` (`fuse_cmp.rs:53-139`); `counts` are the use counts of the function before
the pass. -/
def fuseBlock (counts : ValueId → ℕ) (b : Block) : Block :=
  match b.term with
  | .If (.Operand c) t e =>
    if counts c = 1 then
      match b.instrs.getLast? with
      | some i =>
        match fuseLast i c t e with
        | some term => { instrs := b.instrs.dropLast, term := term }
        | none => b
      | none => b
    else b
  | _ => b

/-- `FuseCmpBranch::run` (`fuse_cmp.rs:48-144`). -/
def fuseBranches (f : Function) : Function :=
  { f with blocks := f.blocks.map (fuseBlock (useCount f.blocks)) }

/-! ### Dead code -/

/-- `Terminator::target_blocks` (`mir/src/terminator.rs:117-133`). -/
def Terminator.targets : Terminator → List BlockId
  | .Jump t => [t]
  | .If _ t e => [t, e]
  | .BranchCmp _ _ _ t e => [t, e]
  | .Return _ | .Unreachable => []

/-- The blocks visited by the search of `is_block_reachable` (`mir/src/function.rs:324-343`): `seen` are the
blocks already expanded. Each expansion adds a block, so `fuel` larger than the number of pushes is enough. -/
def reach (blocks : List Block) : ℕ → List BlockId → List BlockId → List BlockId
  | 0, _, seen => seen
  | _ + 1, [], seen => seen
  | n + 1, b :: stack, seen =>
    if b ∈ seen then reach blocks n stack seen
    else
      match blocks[b]? with
      | some blk => reach blocks n (blk.term.targets.reverse ++ stack) (b :: seen)
      | none => reach blocks n stack (b :: seen)

/-- The blocks reachable from the entry (`function.rs:324-353`). -/
def reachable (f : Function) : List BlockId := reach f.blocks (3 * f.blocks.length + 2) [0] []

/-- The kept blocks, in order (`dead_code_elimination.rs:141-148`). -/
def keptBlocks (f : Function) : List BlockId :=
  (List.range f.blocks.length).filter (fun i => decide (i ∈ reachable f))

/-- `remap_terminator` (`dead_code_elimination.rs:26-75`). The targets of a kept block are kept. -/
def remapTerm (g : BlockId → BlockId) : Terminator → Terminator
  | .Jump t => .Jump (g t)
  | .If c t e => .If c (g t) (g e)
  | .BranchCmp op l r t e => .BranchCmp op l r (g t) (g e)
  | t => t

/-- New number of a kept block (`dead_code_elimination.rs:145-146`). -/
def newIndex (kept : List BlockId) (b : BlockId) : BlockId := kept.idxOf b

/-- Removal of the unreachable blocks (`dead_code_elimination.rs:127-174`): the targets of the terminators are
renumbered, the sources of the phi instructions are not. -/
def dropUnreachable (f : Function) : Function :=
  { f with blocks := (keptBlocks f).filterMap fun i => (f.blocks[i]?).map fun b =>
      { b with term := remapTerm (newIndex (keptBlocks f)) b.term } }

/-- `instr` is kept by the `retain` of `remove_dead_instructions` (`dead_code_elimination.rs:91-110`). -/
def isLive (counts : ValueId → ℕ) (i : Instr) : Bool :=
  if i.hasSideEffects then true
  else match i with
    | .Nop => false
    | i => match i.destination with
      | some d => decide (0 < counts d)
      | none => true

/-- One round of `remove_dead_instructions` (`dead_code_elimination.rs:84-119`). -/
def dropDeadOnce (bs : List Block) : List Block :=
  bs.map fun b => { b with instrs := b.instrs.filter (isLive (useCount bs)) }

/-- `remove_dead_instructions` (`dead_code_elimination.rs:79-123`): rounds until nothing is removed. Every round
but the last removes an instruction, so as many rounds as instructions are enough. -/
def dropDead : ℕ → List Block → List Block
  | 0, bs => bs
  | n + 1, bs => dropDead n (dropDeadOnce bs)

/-- Number of instructions of a function. -/
def instrCount (bs : List Block) : ℕ := (bs.map (fun b => b.instrs.length)).sum

/-- `DeadCodeElimination::run` (`dead_code_elimination.rs:126-181`). -/
def deadCode (f : Function) : Function :=
  { dropUnreachable f with
    blocks := dropDead (instrCount (dropUnreachable f).blocks) (dropUnreachable f).blocks }

/-! ### Replacement of values -/

/-- `replace_value_id` (`value_visitor.rs:33-40`). -/
def Value.replace (a b : ValueId) : Value → Value
  | .Operand v => .Operand (if v = a then b else v)
  | v => v

/-- `replace_place_value_ids` (`value_visitor.rs`). -/
def Place.replace (a b : ValueId) (p : Place) : Place :=
  { base := if p.base = a then b else p.base
    projections := p.projections.map fun
      | .Index v => .Index (v.replace a b)
      | q => q }

/-- `Instruction::replace_value_uses` (`instruction.rs:859-970`): the operands, not the destinations. -/
def Instr.replace (a b : ValueId) : Instr → Instr
  | .Assign d v t => .Assign d (v.replace a b) t
  | .UnaryOp op d v => .UnaryOp op d (v.replace a b)
  | .BinaryOp op d l r => .BinaryOp op d (l.replace a b) (r.replace a b)
  | .Call ds f args s => .Call ds f (args.map (Value.replace a b)) s
  | .Cast d v s t => .Cast d (v.replace a b) s t
  | .Load d p t => .Load d (p.replace a b) t
  | .Store p v t => .Store (p.replace a b) (v.replace a b) t
  | .Debug vs => .Debug (vs.map (Value.replace a b))
  | .Nop => .Nop
  | .Phi d t sources => .Phi d t (sources.map fun s => (s.1, s.2.replace a b))
  | .MakeTuple d vs => .MakeTuple d (vs.map (Value.replace a b))
  | .ExtractTupleElement d v i t => .ExtractTupleElement d (v.replace a b) i t
  | .MakeStruct d fs t => .MakeStruct d (fs.map fun s => (s.1, s.2.replace a b)) t
  | .ExtractStructField d v n t => .ExtractStructField d (v.replace a b) n t
  | .InsertField d s n v t => .InsertField d (s.replace a b) n (v.replace a b) t
  | .InsertTuple d s i v t => .InsertTuple d (s.replace a b) i (v.replace a b) t
  | .MakeFixedArray d vs t c => .MakeFixedArray d (vs.map (Value.replace a b)) t c
  | .AssertEq l r => .AssertEq (l.replace a b) (r.replace a b)
  | .HeapAllocCells d v => .HeapAllocCells d (v.replace a b)

/-- `Terminator::replace_value_uses` (`terminator.rs:174-199`). -/
def Terminator.replace (a b : ValueId) : Terminator → Terminator
  | .Jump t => .Jump t
  | .If c t e => .If (c.replace a b) t e
  | .BranchCmp op l r t e => .BranchCmp op (l.replace a b) (r.replace a b) t e
  | .Return vs => .Return (vs.map (Value.replace a b))
  | .Unreachable => .Unreachable

/-- `MirFunction::replace_all_uses` (`mir/src/function.rs:402-442`). -/
def replaceAllUses (a b : ValueId) (f : Function) : Function :=
  if a = b then f
  else
    { f with
      blocks := f.blocks.map fun blk =>
        { instrs := blk.instrs.map (Instr.replace a b), term := blk.term.replace a b }
      params := f.params.map fun p => if p = a then b else p
      returns := f.returns.map fun p => if p = a then b else p
      types := fun v =>
        if v = a then none
        else if v = b then (match f.types b with | some t => some t | none => f.types a)
        else f.types v }

mutual
/-- Equality of types (`#[derive(PartialEq)]`, `mir/src/mir_types.rs:17`). -/
def MirType.same : MirType → MirType → _root_.Bool
  | .Felt, .Felt => true
  | .Bool, .Bool => true
  | .U32, .U32 => true
  | .Tuple a, .Tuple b => MirType.sames a b
  | .Struct n a, .Struct m b => decide (n = m) && MirType.sameFields a b
  | .FixedArray a n, .FixedArray b m => MirType.same a b && decide (n = m)
  | .Pointer a, .Pointer b => MirType.same a b
  | .Function a r, .Function b s => MirType.sames a b && MirType.same r s
  | .Unit, .Unit => true
  | .Error, .Error => true
  | .Unknown, .Unknown => true
  | _, _ => false
/-- Equality of lists of types. -/
def MirType.sames : List MirType → List MirType → _root_.Bool
  | [], [] => true
  | a :: as, b :: bs => MirType.same a b && MirType.sames as bs
  | _, _ => false
/-- Equality of lists of fields. -/
def MirType.sameFields : List (Name × MirType) → List (Name × MirType) → _root_.Bool
  | [], [] => true
  | (n, a) :: as, (m, b) :: bs => decide (n = m) && MirType.same a b && MirType.sameFields as bs
  | _, _ => false
end

/-! ### Copy propagation -/

/-- The copies found by `collect_copies` (`copy_propagation.rs:30-54`). -/
def copyOf (f : Function) : Instr → Option (ValueId × ValueId)
  | .Assign d (.Operand s) _ =>
    match f.types d, f.types s with
    | some a, some b => if MirType.same a b then some (d, s) else none
    | _, _ => none
  | _ => none

/-- The map `direct_copies` (`copy_propagation.rs:28-54`): the last insertion for a destination wins. -/
def directCopies (f : Function) : List (ValueId × ValueId) :=
  ((f.blocks.flatMap Block.instrs).filterMap (copyOf f)).reverse

/-- `resolve_copy_chain` (`copy_propagation.rs:68-89`). A chain without repetition is no longer than the number
of copies. -/
def resolveCopy (copies : List (ValueId × ValueId)) : ℕ → List ValueId → ValueId → ValueId
  | 0, _, v => v
  | n + 1, seen, v =>
    match copies.lookup v with
    | none => v
    | some w => if v ∈ seen then v else resolveCopy copies n (v :: seen) w

/-- The map `resolved_copies` (`copy_propagation.rs:56-64`). -/
def resolvedCopies (f : Function) : List (ValueId × ValueId) :=
  ((directCopies f).map Prod.fst).dedup.map fun d =>
    (d, resolveCopy (directCopies f) ((directCopies f).length + 1) []
      (((directCopies f).lookup d).getD d))

/-- An instruction removed by `remove_copy_instructions` (`copy_propagation.rs:93-122`). -/
def isRemovedCopy (copies : List (ValueId × ValueId)) : Instr → Bool
  | .Assign d (.Operand _) _ => (copies.lookup d).isSome
  | _ => false

/-- `CopyPropagation::run` (`copy_propagation.rs:126-153`). The Rust code iterates over a hash map; `order` is
the order of iteration. -/
def copyProp (order : List (ValueId × ValueId) → List (ValueId × ValueId)) (f : Function) : Function :=
  let copies := resolvedCopies f
  let g := (order copies).foldl (fun g c => replaceAllUses c.1 c.2 g) f
  { g with blocks := g.blocks.map fun b =>
      { b with instrs := b.instrs.filter fun i => !isRemovedCopy copies i } }

/-! ### Constant propagation -/

/-- `Lattice` (`constant_propagation.rs:9-14`). -/
inductive Lattice where
  | Unknown
  | Const (l : Literal)
  | NonConst
deriving DecidableEq

/-- `Lattice::join` (`constant_propagation.rs:17-25`). -/
def Lattice.join : Lattice → Lattice → Lattice
  | .NonConst, _ => .NonConst
  | _, .NonConst => .NonConst
  | .Unknown, x => x
  | x, .Unknown => x
  | .Const a, .Const b => if a = b then .Const a else .NonConst

/-- What is known of a value (`constant_propagation.rs:57-61`, `:98-107`, `:146-150`). -/
def latticeOf (state : ValueId → Lattice) : Value → Lattice
  | .Literal l => .Const l
  | .Operand v => state v
  | .Error => .NonConst

/-- The join over the sources of a phi node (`constant_propagation.rs:143-157`). -/
def joinSources (state : ValueId → Lattice) : List (BlockId × Value) → Lattice → Lattice
  | [], acc => acc
  | (_, v) :: rest, acc => joinSources state rest (acc.join (latticeOf state v))

/-- `evaluate_instruction` (`constant_propagation.rs:44-183`). -/
def evalLattice (state : ValueId → Lattice) (i : Instr) : Except Panic (Option (ValueId × Lattice)) :=
  match i.destination with
  | none => .ok none
  | some d =>
    match i with
    | .Assign _ v _ => .ok (some (d, latticeOf state v))
    | .UnaryOp op _ v =>
      match latticeOf state v with
      | .Unknown => .ok (some (d, .Unknown))
      | .NonConst => .ok (some (d, .NonConst))
      | .Const l => .ok (some (d, match evalUnary op l with | some r => .Const r | none => .NonConst))
    | .BinaryOp op _ l r =>
      match latticeOf state l, latticeOf state r with
      | .Const a, .Const b =>
        match evalBinary op a b with
        | .error e => .error e
        | .ok (some r) => .ok (some (d, .Const r))
        | .ok none => .ok (some (d, .NonConst))
      | _, _ =>
        let nonConst : Value → Bool := fun
          | .Operand v => decide (state v = .NonConst)
          | _ => false
        .ok (some (d, if nonConst l || nonConst r then .NonConst else .Unknown))
    | .Phi _ _ sources => .ok (some (d, joinSources state sources .Unknown))
    | _ => .ok (some (d, .NonConst))

/-- The update of the state for one instruction (`constant_propagation.rs:316-333`). -/
def updateLattice (old new : Lattice) : Lattice :=
  match old, new with
  | .Unknown, x => x
  | .Const a, .Const b => if a = b then .Const a else .NonConst
  | .Const a, .Unknown => .Const a
  | .NonConst, _ => .NonConst
  | .Const _, .NonConst => .NonConst

/-- One sweep over all instructions (`constant_propagation.rs:313-335`). -/
def sweep : List Instr → (ValueId → Lattice) → Except Panic (ValueId → Lattice)
  | [], state => .ok state
  | i :: is, state =>
    match evalLattice state i with
    | .error e => .error e
    | .ok none => sweep is state
    | .ok (some (d, x)) => sweep is (Function.update state d (updateLattice (state d) x))

/-- The loop of `ConstantPropagation::run` (`constant_propagation.rs:310-337`): every sweep but the last raises
the value of a destination, and a value is raised at most twice. -/
def sweeps (is : List Instr) : ℕ → (ValueId → Lattice) → Except Panic (ValueId → Lattice)
  | 0, state => .ok state
  | n + 1, state =>
    match sweep is state with
    | .error e => .error e
    | .ok state' => sweeps is n state'

/-- The initial state (`constant_propagation.rs:299-308`). -/
def initialState (f : Function) (v : ValueId) : Lattice := if v ∈ f.params then .NonConst else .Unknown

/-- The state after convergence (`constant_propagation.rs:296-337`). -/
def constState (f : Function) : Except Panic (ValueId → Lattice) :=
  sweeps (f.blocks.flatMap Block.instrs) (2 * instrCount f.blocks + 1) (initialState f)

/-- `replace_value` (`constant_propagation.rs:195-207`). -/
def Value.constant (state : ValueId → Lattice) : Value → Value
  | .Operand v => match state v with
    | .Const l => .Literal l
    | _ => .Operand v
  | v => v

/-- `replace_place` (`constant_propagation.rs:209-219`): the indices, not the base. -/
def Place.constant (state : ValueId → Lattice) (p : Place) : Place :=
  { p with projections := p.projections.map fun
      | .Index v => .Index (v.constant state)
      | q => q }

/-- The rewriting of an instruction (`constant_propagation.rs:221-293`). -/
def Instr.constant (s : ValueId → Lattice) : Instr → Instr
  | .Assign d v t => .Assign d (v.constant s) t
  | .UnaryOp op d v => .UnaryOp op d (v.constant s)
  | .BinaryOp op d l r => .BinaryOp op d (l.constant s) (r.constant s)
  | .Call ds f args sig => .Call ds f (args.map (Value.constant s)) sig
  | .Cast d v a b => .Cast d (v.constant s) a b
  | .Load d p t => .Load d (p.constant s) t
  | .Store p v t => .Store (p.constant s) (v.constant s) t
  | .Debug vs => .Debug (vs.map (Value.constant s))
  | .Nop => .Nop
  | .Phi d t sources => .Phi d t (sources.map fun x => (x.1, x.2.constant s))
  | .MakeTuple d vs => .MakeTuple d (vs.map (Value.constant s))
  | .ExtractTupleElement d v i t => .ExtractTupleElement d (v.constant s) i t
  | .MakeStruct d fs t => .MakeStruct d (fs.map fun x => (x.1, x.2.constant s)) t
  | .ExtractStructField d v n t => .ExtractStructField d (v.constant s) n t
  | .InsertField d x n v t => .InsertField d (x.constant s) n (v.constant s) t
  | .InsertTuple d x i v t => .InsertTuple d (x.constant s) i (v.constant s) t
  | .MakeFixedArray d vs t c => .MakeFixedArray d (vs.map (Value.constant s)) t c
  | .AssertEq l r => .AssertEq (l.constant s) (r.constant s)
  | .HeapAllocCells d v => .HeapAllocCells d (v.constant s)

/-- `ConstantPropagation::run` (`constant_propagation.rs:295-343`). Terminators are not rewritten. -/
def constProp (f : Function) : Except Panic Function :=
  match constState f with
  | .error e => .error e
  | .ok s => .ok { f with blocks := f.blocks.map fun b => { b with instrs := b.instrs.map (Instr.constant s) } }

/-! ### Common subexpressions -/

/-- `PureExpressionKey` (`local_cse.rs:12-63`). The result types of operators are determined by the operator. -/
inductive Key where
  | Binary (op : BinaryOp) (l r : ValueId)
  | Unary (op : UnaryOp) (v : ValueId)
  | ExtractTuple (v : ValueId) (i : ℕ) (ty : MirType)
  | ExtractField (v : ValueId) (name : Name) (ty : MirType)
  | MakeTuple (vs : List ValueId)
  | MakeStruct (fields : List (Name × ValueId)) (ty : MirType)

/-- Equality of keys (`#[derive(PartialEq)]`, `local_cse.rs:11`). -/
def Key.same : Key → Key → Bool
  | .Binary o a b, .Binary p c d => decide (o = p ∧ a = c ∧ b = d)
  | .Unary o a, .Unary p b => decide (o = p ∧ a = b)
  | .ExtractTuple a i t, .ExtractTuple b j u => decide (a = b ∧ i = j) && MirType.same t u
  | .ExtractField a i t, .ExtractField b j u => decide (a = b ∧ i = j) && MirType.same t u
  | .MakeTuple a, .MakeTuple b => decide (a = b)
  | .MakeStruct a t, .MakeStruct b u => decide (a = b) && MirType.same t u
  | _, _ => false

/-- The identifiers of a list of operands; `none` if one of them is not an operand (`local_cse.rs:135-142`). -/
def operandIds : List Value → Option (List ValueId)
  | [] => some []
  | .Operand v :: vs => (operandIds vs).map (v :: ·)
  | _ :: _ => none

/-- The same for the fields of a struct (`local_cse.rs:153-160`). -/
def fieldIds : List (Name × Value) → Option (List (Name × ValueId))
  | [] => some []
  | (n, .Operand v) :: vs => (fieldIds vs).map ((n, v) :: ·)
  | _ :: _ => none

/-- `PureExpressionKey::from_instruction` (`local_cse.rs:67-207`). An array has the key of a tuple. -/
def keyOf : Instr → Option Key
  | .BinaryOp op _ (.Operand a) (.Operand b) => some (.Binary op a b)
  | .UnaryOp op _ (.Operand a) => some (.Unary op a)
  | .ExtractTupleElement _ (.Operand v) i t => some (.ExtractTuple v i t)
  | .ExtractStructField _ (.Operand v) n t => some (.ExtractField v n t)
  | .MakeTuple _ vs => (operandIds vs).map .MakeTuple
  | .MakeStruct _ fs t => (fieldIds fs).map (.MakeStruct · t)
  | .MakeFixedArray _ vs _ _ => (operandIds vs).map .MakeTuple
  | _ => none

/-- First entry with the given key. -/
def lookupKey (k : Key) : List (Key × ValueId) → Option ValueId
  | [] => none
  | (k', v) :: rest => if k'.same k then some v else lookupKey k rest

/-- The replacements found in a block (`local_cse.rs:221-247`). -/
def cseFind : List Instr → List (Key × ValueId) → List (ValueId × ValueId)
  | [], _ => []
  | i :: is, table =>
    match keyOf i, i.destination with
    | some k, some d =>
      match lookupKey k table with
      | some v => (d, v) :: cseFind is table
      | none => cseFind is ((k, d) :: table)
    | _, _ => cseFind is table

/-- The `retain` of `remove_redundant_instructions` (`local_cse.rs:263-280`): it drops every instruction of the
block whose single destination is not used, side effects or not. -/
def cseKeep (counts : ValueId → ℕ) (i : Instr) : Bool :=
  match i.destination with
  | some d => decide (0 < counts d)
  | none => true

/-- `process_block` (`local_cse.rs:219-261`). -/
def cseBlock (id : BlockId) (f : Function) : Function :=
  match f.blocks[id]? with
  | none => f
  | some b =>
    match cseFind b.instrs [] with
    | [] => f
    | rs =>
      let g := rs.foldl (fun g r => replaceAllUses r.1 r.2 g) f
      { g with blocks := g.blocks.modify id fun b =>
          { b with instrs := b.instrs.filter (cseKeep (useCount g.blocks)) } }

/-- `LocalCSE::run` (`local_cse.rs:284-296`). -/
def localCse (f : Function) : Function :=
  (List.range f.blocks.length).foldl (fun g id => cseBlock id g) f

/-! ### Elimination of phi nodes -/

/-- `Terminator::replace_target` (`terminator.rs:246-284`). -/
def Terminator.retarget (a b : BlockId) : Terminator → Terminator
  | .Jump t => .Jump (if t = a then b else t)
  | .If c t e => .If c (if t = a then b else t) (if e = a then b else e)
  | .BranchCmp op l r t e => .BranchCmp op l r (if t = a then b else t) (if e = a then b else e)
  | t => t

/-- The predecessors of a block (`cfg.rs:21-30`), computed from the terminators. -/
def predecessors (bs : List Block) (s : BlockId) : List BlockId :=
  (List.range bs.length).filter fun i =>
    match bs[i]? with
    | some b => decide (s ∈ b.term.targets)
    | none => false

/-- The critical edges (`cfg.rs:35-50`, `:93-102`). -/
def criticalEdges (bs : List Block) : List (BlockId × BlockId) :=
  (List.range bs.length).flatMap fun p =>
    match bs[p]? with
    | some b =>
      if 1 < b.term.targets.length then
        (b.term.targets.filter fun s => decide (1 < (predecessors bs s).length)).map fun s => (p, s)
      else []
    | none => []

/-- `split_critical_edge` (`cfg.rs:55-83`): the sources of the phi instructions of the successor are not
changed. -/
def splitEdge (bs : List Block) (e : BlockId × BlockId) : List Block :=
  (bs.modify e.1 fun b => { b with term := b.term.retarget e.2 bs.length }) ++
    [{ instrs := [], term := .Jump e.2 }]

/-- `split_all_critical_edges` (`cfg.rs:88-113`). -/
def splitEdges (bs : List Block) : List Block := (criticalEdges bs).foldl splitEdge bs

/-- A copy `dest := source`. -/
structure Copy where
  dest : ValueId
  source : Value
  ty : MirType

/-- The copies to be placed at the end of block `p` (`phi_elimination.rs:77-114`). -/
def phiCopies (bs : List Block) (p : BlockId) : List Copy :=
  (bs.flatMap Block.instrs).flatMap fun
    | .Phi d ty sources => (sources.filter fun s => decide (s.1 = p)).map fun s => { dest := d, source := s.2, ty := ty }
    | _ => []

/-- The destinations of the copies whose source is an operand (keys of `dest_to_source`,
`phi_elimination.rs:120-131`). -/
def operandDests (cs : List Copy) : List ValueId :=
  cs.filterMap fun c => match c.source with
    | .Operand _ => some c.dest
    | _ => none

/-- `graph.get(dest)` (`build_dependency_graph`, `phi_elimination.rs:117-157`): for each copy from an operand to
`dest`, the operand, if another copy from an operand writes it. -/
def copyDeps (cs : List Copy) (d : ValueId) : List ValueId :=
  cs.filterMap fun c => match c.source with
    | .Operand s => if c.dest = d ∧ s ∈ operandDests cs then some s else none
    | _ => none

/-- State of the depth-first search of `find_cycles`. -/
structure Dfs where
  visited : List ValueId
  cycles : List (List ValueId)

/-- `dfs` (`phi_elimination.rs:165-199`); `path` (last node first) holds the nodes on the recursion stack. A path
does not repeat nodes, so `fuel` larger than the number of nodes is enough. -/
def dfs (graph : ValueId → List ValueId) : ℕ → List ValueId → ValueId → Dfs → Dfs
  | 0, _, _, s => s
  | n + 1, path, node, s =>
    (graph node).foldl (fun s m =>
      if m ∉ s.visited then dfs graph n (node :: path) m s
      else if m ∈ node :: path then
        { s with cycles := s.cycles ++ [((node :: path).reverse).drop ((node :: path).reverse.idxOf m)] }
      else s) { s with visited := node :: s.visited }

/-- `find_cycles` (`phi_elimination.rs:158-221`); `keys` is the order in which the hash map of the graph is
iterated. -/
def findCycles (graph : ValueId → List ValueId) (fuel : ℕ) (keys : List ValueId) : List (List ValueId) :=
  (keys.foldl (fun s k => if k ∈ s.visited then s else dfs graph fuel [] k s)
    { visited := [], cycles := [] }).cycles

/-- The rotation inside a broken cycle (`phi_elimination.rs:272-289`): the destination of each copy receives the
source of the next copy. -/
def rotate : List Copy → List Copy
  | c :: d :: rest => { dest := c.dest, source := d.source, ty := c.ty } :: rotate (d :: rest)
  | _ => []

/-- The copies of one broken cycle (`phi_elimination.rs:249-305`); `temp` is the new value. -/
def breakCycle (temp : ValueId) (cs : List Copy) : List Copy :=
  match cs with
  | [] => []
  | c :: _ =>
    { dest := temp, source := c.source, ty := c.ty } :: rotate cs ++
      (cs.getLast?.map fun l => { dest := l.dest, source := .Operand temp, ty := l.ty }).toList

/-- The loop over the cycles (`phi_elimination.rs:243-308`): the copies emitted, the destinations processed, the
next unused value. -/
def breakCycles (cs : List Copy) : List (List ValueId) → List Copy × List ValueId × ValueId →
    List Copy × List ValueId × ValueId
  | [], s => s
  | cycle :: rest, (out, processed, next) =>
    if cycle.length ≤ 1 then breakCycles cs rest (out, processed, next)
    else
      let mine := cs.filter fun c => decide (c.dest ∈ cycle)
      if mine.isEmpty then breakCycles cs rest (out, processed, next)
      else breakCycles cs rest (out ++ breakCycle next mine, processed ++ mine.map Copy.dest, next + 1)

/-- Number of the copies `cs` that have `d` among their dependencies (`phi_elimination.rs:345-356`). -/
def inDegree (graph : ValueId → List ValueId) (cs : List Copy) (d : ValueId) : ℕ :=
  (cs.map fun c => (graph c.dest).count d).sum

/-- The copy with destination `d` in `copy_map` (`phi_elimination.rs:334-342`): the last one inserted. -/
def copyTo (cs : List Copy) (d : ValueId) : Option Copy := cs.reverse.find? fun c => decide (c.dest = d)

/-- Decrementing the counts of the dependencies of an emitted copy (`phi_elimination.rs:373-384`): the new
counts and the nodes whose count became zero. -/
def release (nodes : List ValueId) : List ValueId → (ValueId → ℕ) → List ValueId → (ValueId → ℕ) × List ValueId
  | [], counts, queue => (counts, queue)
  | d :: ds, counts, queue =>
    if d ∈ nodes then
      release nodes ds (Function.update counts d (counts d - 1))
        (if counts d - 1 = 0 then queue ++ [d] else queue)
    else release nodes ds counts queue

/-- The main loop of `topological_sort_copies` (`phi_elimination.rs:366-386`). Every iteration emits a node, so
as many iterations as nodes are enough. -/
def kahn (graph : ValueId → List ValueId) (cs : List Copy) (nodes : List ValueId) :
    ℕ → List ValueId → (ValueId → ℕ) → List Copy → List Copy
  | 0, _, _, out => out
  | _ + 1, [], _, out => out
  | n + 1, v :: queue, counts, out =>
    kahn graph cs nodes n (release nodes (graph v) counts queue).2 (release nodes (graph v) counts queue).1
      (out ++ (copyTo cs v).toList)

/-- `topological_sort_copies` (`phi_elimination.rs:320-399`); `order` is the order in which the hash map of the
in-degrees is iterated. -/
def topoSort (order : List ValueId → List ValueId) (graph : ValueId → List ValueId) (cs : List Copy) : List Copy :=
  let nodes := order ((cs.map Copy.dest).dedup)
  let counts := inDegree graph cs
  let out := kahn graph cs nodes (nodes.length + 1) (nodes.filter fun d => decide (counts d = 0)) counts []
  if out.length = cs.length then out else cs

/-- `sequence_parallel_copies` (`phi_elimination.rs:223-317`): the copies in the order in which they are
executed and the next unused value. `order` gives the orders in which hash maps are iterated. -/
def sequence (order : List ValueId → List ValueId) (next : ValueId) (cs : List Copy) : List Copy × ValueId :=
  if cs.length ≤ 1 then (cs, next)
  else
    let graph := copyDeps cs
    let keys := order ((cs.filter fun c => !(graph c.dest).isEmpty).map Copy.dest).dedup
    let cycles := findCycles graph (cs.length + 1) keys
    let r := breakCycles cs cycles ([], [], next)
    (r.1 ++ topoSort order graph (cs.filter fun c => decide (c.dest ∉ r.2.1)), r.2.2)

/-- A copy as an instruction. -/
def Copy.instr (c : Copy) : Instr := .Assign c.dest c.source c.ty

/-- `insert_copies` and `remove_phi_nodes` (`phi_elimination.rs:402-455`) for the blocks from number `p` on;
`cs p` are the copies to insert at the end of block `p`. -/
def placeCopies (order : List ValueId → List ValueId) (cs : BlockId → List Copy) :
    List Block → BlockId → ValueId → List Block × ValueId
  | [], _, next => ([], next)
  | b :: bs, p, next =>
    let s := sequence order next (cs p)
    let r := placeCopies order cs bs (p + 1) s.2
    ({ b with
        instrs := (b.instrs ++ s.1.map Copy.instr).filter fun
          | .Phi .. => false
          | _ => true } :: r.1, r.2)

/-- `PhiElimination::run` (`phi_elimination.rs:464-511`). The new temporaries have no type
(`new_value_id`); the Rust code visits the blocks in the order of a hash map, which only affects the numbers of
the temporaries. -/
def phiElim (order : List ValueId → List ValueId) (f : Function) : Function :=
  let bs := splitEdges f.blocks
  if bs.all (fun b => b.instrs.all fun | .Phi .. => false | _ => true) then { f with blocks := bs }
  else
    { f with
      blocks := (placeCopies order (phiCopies bs) bs 0 f.nextValue).1
      nextValue := (placeCopies order (phiCopies bs) bs 0 f.nextValue).2 }

/-! ### Pipelines -/

/-- `PassManager::standard_pipeline` (`mir/src/passes.rs:92-104`), without the scalar replacement of aggregates.
`oc` and `ov` are the orders in which hash maps are iterated. -/
def standardPipeline (oc : List (ValueId × ValueId) → List (ValueId × ValueId))
    (ov : List ValueId → List ValueId) (f : Function) : Except Panic Function :=
  match arithSimplify f with
  | .error e => .error e
  | .ok f =>
    match constProp f with
    | .error e => .error e
    | .ok f =>
      match constFold f with
      | .error e => .error e
      | .ok f =>
        match simplifyBranches (localCse (copyProp oc f)) with
        | .error e => .error e
        | .ok f => .ok (phiElim ov (deadCode (fuseBranches f)))

/-- `PassManager::no_opt_pipeline` (`mir/src/passes.rs:80-82`). -/
def noOptPipeline (ov : List ValueId → List ValueId) (f : Function) : Function := phiElim ov f

end Mir
end CairoM
