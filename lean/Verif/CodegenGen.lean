import Verif.Codegen
import Verif.VM

/-!
# Code generator: passes over the instruction list, functions, label resolution

Model of `crates/compiler/codegen/src/passes/mod.rs`, `mir_passes/legalize.rs` and `generator.rs`. Program
metadata and the names of the ABI slots are left out.
-/

namespace CairoM
namespace Codegen

open Mir

/-! ### Legalisation of the mid-level representation (`mir_passes/legalize.rs`) -/

/-- `canonicalize_commutative_u32` (`legalize.rs:130-142`); unlike the function of the builder it also swaps
boolean and unit literals. -/
def legalCanon (op : BinaryOp) (l r : Value) : Value × Value :=
  if Builder.commU32 op then
    match l, r with
    | .Literal _, .Operand _ => (r, l)
    | _, _ => (l, r)
  else (l, r)

/-- One instruction of `legalize_function_for_vm` (`legalize.rs:28-128`): the replacement, the next unused
value and the types. -/
def legalInstr (i : Instr) (next : ValueId) (types : ValueId → Option MirType) :
    List Instr × ValueId × (ValueId → Option MirType) :=
  match i with
  | .BinaryOp .U32Neq d l r =>
    ([.BinaryOp .U32Eq next (legalCanon .U32Neq l r).1 (legalCanon .U32Neq l r).2, .UnaryOp .Not d (.Operand next)],
      next + 1, Function.update types next (some .Bool))
  | .BinaryOp .U32Greater d l r => ([.BinaryOp .U32Less d r l], next, types)
  | .BinaryOp .U32GreaterEqual d l r =>
    ([.BinaryOp .U32Less next l r, .UnaryOp .Not d (.Operand next)], next + 1,
      Function.update types next (some .Bool))
  | .BinaryOp .U32LessEqual d l r =>
    ([.BinaryOp .U32Less next r l, .UnaryOp .Not d (.Operand next)], next + 1,
      Function.update types next (some .Bool))
  | i => ([i], next, types)

/-- The instructions of a block (`legalize.rs:39-119`). -/
def legalInstrs : List Instr → ValueId → (ValueId → Option MirType) →
    List Instr × ValueId × (ValueId → Option MirType)
  | [], next, types => ([], next, types)
  | i :: is, next, types =>
    let (js, next, types) := legalInstr i next types
    let (ks, next, types) := legalInstrs is next types
    (js ++ ks, next, types)

/-- The blocks of a function (`legalize.rs:28-124`). -/
def legalBlocks : List Block → ValueId → (ValueId → Option MirType) →
    List Block × ValueId × (ValueId → Option MirType)
  | [], next, types => ([], next, types)
  | b :: bs, next, types =>
    let (js, next, types) := legalInstrs b.instrs next types
    let (cs, next, types) := legalBlocks bs next types
    ({ b with instrs := js } :: cs, next, types)

/-- `legalize_function_for_vm` (`legalize.rs:28-128`). -/
def legalFunction (f : Function) : Function :=
  let (bs, next, types) := legalBlocks f.blocks f.nextValue f.types
  { f with blocks := bs, nextValue := next, types := types }

/-! ### Passes over the emitted instructions (`passes/mod.rs`) -/

/-- `u32_overlap` (`passes/mod.rs:391-398`) on the canonical representatives. -/
def u32Overlap (a b : M31) : Bool := !(decide (a.val + 1 < b.val) || decide (b.val + 1 < a.val))

/-- `rewrite_instruction` with `rewrite_felt_fp_fp` and `rewrite_u32_fp_fp` (`passes/mod.rs:194-257, 355-451`): the
temporary that is needed and the replacement, given the frame offset of the temporary. The rebuilt
instruction carries no label. -/
def dedupInstr (frame : ℕ) (i : IB) : ℕ × List IB :=
  let t : M31 := ofI32 frame
  let feltCopy (s : M31) : IB := ⟨.StoreAddFpImm s 0 t, none⟩
  let u32Copy (s : M31) : IB := ⟨.U32StoreAddFpImm s 0 0 t, none⟩
  match i.inner with
  | .StoreAddFpFp a b d => if a = b then (1, [feltCopy a, ⟨.StoreAddFpFp t b d, none⟩]) else (0, [i])
  | .StoreSubFpFp a b d => if a = b then (1, [feltCopy a, ⟨.StoreSubFpFp t b d, none⟩]) else (0, [i])
  | .StoreMulFpFp a b d => if a = b then (1, [feltCopy a, ⟨.StoreMulFpFp t b d, none⟩]) else (0, [i])
  | .StoreDivFpFp a b d => if a = b then (1, [feltCopy a, ⟨.StoreDivFpFp t b d, none⟩]) else (0, [i])
  | .U32StoreAddFpFp a b d =>
    if u32Overlap a b then (2, [u32Copy a, ⟨.U32StoreAddFpFp t b d, none⟩]) else (0, [i])
  | .U32StoreSubFpFp a b d =>
    if u32Overlap a b then (2, [u32Copy a, ⟨.U32StoreSubFpFp t b d, none⟩]) else (0, [i])
  | .U32StoreMulFpFp a b d =>
    if u32Overlap a b then (2, [u32Copy a, ⟨.U32StoreMulFpFp t b d, none⟩]) else (0, [i])
  | .U32StoreDivRemFpFp a b d e =>
    if u32Overlap a b then (2, [u32Copy a, ⟨.U32StoreDivRemFpFp t b d e, none⟩]) else (0, [i])
  | .U32StoreEqFpFp a b d =>
    if u32Overlap a b then (2, [u32Copy a, ⟨.U32StoreEqFpFp t b d, none⟩]) else (0, [i])
  | .U32StoreLtFpFp a b d =>
    if u32Overlap a b then (2, [u32Copy a, ⟨.U32StoreLtFpFp t b d, none⟩]) else (0, [i])
  | _ => (0, [i])

/-- The first loop of `DeduplicateOperandsPass::run` (`passes/mod.rs:46-62`): the replacement of every
instruction and the final frame size. -/
def dedupChunks : ℕ → List IB → ℕ × List (List IB)
  | frame, [] => (frame, [])
  | frame, i :: is =>
    let (n, js) := dedupInstr frame i
    let (fr, cs) := dedupChunks (frame + n) is
    (fr, js :: cs)

/-- Start of the `i`-th replacement (`index_mapping`). -/
def chunkStart (cs : List (List IB)) (i : ℕ) : ℕ := (cs.take i).flatten.length

/-- Remapping of a label (`passes/mod.rs:65-80`): a label after the last instruction keeps its address. -/
def remapLabel (cs : List (List IB)) (l : Label) : Label :=
  if l.addr < cs.length then { l with addr := chunkStart cs l.addr } else l

/-- `DeduplicateOperandsPass::run` (`passes/mod.rs:45-84`). -/
def dedup (b : Builder) : Builder :=
  let (fr, cs) := dedupChunks b.layout.frame b.instrs
  { b with instrs := cs.flatten, labels := b.labels.map (remapLabel cs), layout := { b.layout with frame := fr } }

/-- One instruction of `CanonicalizeImmediateOpsPass::run` (`passes/mod.rs:98-180`). -/
def canonImm (i : IB) : IB :=
  match i.inner with
  | .StoreMulFpImm s imm d =>
    if imm.val = 1 then ⟨.StoreAddFpImm s 0 d, i.label⟩
    else if imm.val = 0 then ⟨.StoreImm 0 d, i.label⟩
    else i
  | .U32StoreMulFpImm s lo hi d =>
    if lo.val = 1 ∧ hi.val = 0 then ⟨.U32StoreAddFpImm s 0 0 d, i.label⟩
    else if lo.val = 0 ∧ hi.val = 0 then ⟨.U32StoreImm 0 0 d, i.label⟩
    else i
  | _ => i

/-- `passes::run_all` (`passes/mod.rs:184-190`). -/
def runPasses (b : Builder) : Builder :=
  let b := dedup b
  { b with instrs := b.instrs.map canonImm }

/-! ### Generator state -/

/-- `CodeGenerator` (`generator.rs:27-53`). Every read-only blob has exactly one label, so the two label maps
are the list `roLabels` parallel to `rodata`; the only mutable cell is the heap cursor. -/
structure Gen where
  instrs : List IB
  labels : List Label
  entries : List (Name × ℕ)
  counter : ℕ
  rodata : List (List QM31)
  roLabels : List Name
  heap : Bool

/-- `CodeGenerator::new` (`generator.rs:57-72`). -/
def Gen.init : Gen := ⟨[], [], [], 0, [], [], false⟩

/-- `"HEAP_CURSOR"` -/
def sHeapCursor : Name := ['H', 'E', 'A', 'P', '_', 'C', 'U', 'R', 'S', 'O', 'R']
/-- `"RODATA"` -/
def sRodata : Name := ['R', 'O', 'D', 'A', 'T', 'A']

/-- `Label::for_block` (`lib.rs:121-123`), also `format!("{function_name}_{target:?}")`. -/
def blockLabel (f : Name) (i : BlockId) : Name := mkName f i

/-! ### Heap allocation (`generator.rs:89-190`) -/

/-- The slot holding the number of cells (`generator.rs:117-136`). -/
def heapSize (b : Builder) (cells : Value) : Except Err (ℤ × Builder) :=
  match cells with
  | .Operand id =>
    match b.layout.getOffset id with
    | .error e => .error e
    | .ok off => .ok (off, b)
  | .Literal (.Integer n) => .ok ((b.reserve 1).1, (b.reserve 1).2.storeImm n (b.reserve 1).1)
  | .Literal (.Boolean x) =>
    .ok ((b.reserve 1).1, (b.reserve 1).2.storeImm (Builder.boolWord x) (b.reserve 1).1)
  | _ => .error .invalidMir

/-- `lower_heap_alloc_cells` (`generator.rs:89-190`). -/
def lowerHeap (b : Builder) (dest : ValueId) (cells : Value) : Except Err Builder := do
  let (hp, b) := b.reserve 1
  let b := b.pushL (.StoreImm 0 (ofI32 hp)) sHeapCursor
  let (cur, b) := b.reserve 1
  let b := b.loadImm hp 0 cur
  let (size, b) ← heapSize b cells
  let (sum, b) := b.reserve 1
  let b := b.push (.StoreAddFpFp (ofI32 cur) (ofI32 size) (ofI32 sum))
  let b := b.feltSubImm sum 1 sum
  let (mx, b) := b.reserve 1
  let b := b.storeImm (BitVec.ofNat 32 (2 ^ 28 - 1)) mx
  let (base, b) := b.reserve 1
  let b := b.push (.StoreSubFpFp (ofI32 mx) (ofI32 sum) (ofI32 base))
  let (new, b) := b.reserve 1
  let b := b.push (.StoreAddFpFp (ofI32 cur) (ofI32 size) (ofI32 new))
  let b := b.storeToImm new hp 0
  let (d, b) := b.allocateLocal dest 1
  pure (b.copySingle base d)

/-! ### Constant arrays (`generator.rs:283-345, 452-519`) -/

/-- A literal of a felt or bool array (`generator.rs:288-303`). -/
def rodataFelt : Value → Except Err (List QM31)
  | .Literal (.Integer n) => .ok [QM31.ofM31 (toM31 n)]
  | .Literal (.Boolean x) => .ok [QM31.ofM31 (toM31 (Builder.boolWord x))]
  | _ => .error .invalidMir

/-- A literal of a u32 array (`generator.rs:312-337`). -/
def rodataU32 : Value → Except Err (List QM31)
  | .Literal (.Integer n) => .ok [QM31.ofM31 (splitLo n), QM31.ofM31 (splitHi n)]
  | _ => .error .invalidMir

/-- Concatenation of the cells of all elements. -/
def rodataAll (f : Value → Except Err (List QM31)) : List Value → Except Err (List QM31)
  | [] => .ok []
  | v :: vs =>
    match f v with
    | .error e => .error e
    | .ok q =>
      match rodataAll f vs with
      | .error e => .error e
      | .ok qs => .ok (q ++ qs)

/-- `linearize_rodata_blob` (`generator.rs:283-345`). -/
def linearize (vs : List Value) (ty : MirType) : Except Err (List QM31) :=
  match ty with
  | .Felt | .Bool => rodataAll rodataFelt vs
  | .U32 => rodataAll rodataU32 vs
  | _ => .error .unsupported

/-- Position of an equal blob. -/
def findBlob (blob : List QM31) : List (List QM31) → ℕ → Option ℕ
  | [], _ => none
  | x :: xs, i => if x = blob then some i else findBlob blob xs (i + 1)

/-- Registration of a read-only blob and its label (`generator.rs:463-497`). -/
def registerBlob (g : Gen) (blob : List QM31) : Name × Gen :=
  match findBlob blob g.rodata 0 with
  | some i => (g.roLabels.getD i [], g)
  | none =>
    (mkName sRodata g.counter,
      { g with rodata := g.rodata ++ [blob], roLabels := g.roLabels ++ [mkName sRodata g.counter],
               counter := (g.counter + 1) % 2 ^ 64 })

/-- `matches!(v, Value::Literal(_))`. -/
def isLiteral : Value → Bool
  | .Literal _ => true
  | _ => false

/-- The treatment of `MakeFixedArray` at the level of basic blocks (`generator.rs:452-519`). -/
def genArray (g : Gen) (b : Builder) (dest : ValueId) (vs : List Value) (ty : MirType) (isConst : Bool) :
    Except Err (Gen × Builder) :=
  if isConst && vs.all isLiteral && ty.isScalar then
    match linearize vs ty with
    | .error e => .error e
    | .ok blob =>
      let (lbl, g) := registerBlob g blob
      let (d, b) := b.allocateLocal dest 1
      .ok (g, b.pushL (.StoreImm 0 (ofI32 d)) lbl)
  else
    match b.makeArray dest vs ty with
    | .error e => .error e
    | .ok b => .ok (g, b)

/-! ### Choice of the destination slot -/

/-- `find_direct_argument_placement_offset` (`generator.rs:547-577`): `next` is the following instruction. -/
def argPlacement (dest : ValueId) (next : Option Instr) (b : Builder) : Option ℤ :=
  match next with
  | some (.Call _ _ args sig) =>
    match args.findIdx? (· = .Operand dest) with
    | some i => some (b.layout.frame + Builder.sizeSum (sig.params.take i))
    | none => none
  | _ => none

/-- Types of the declared return values, a panic if one is missing (`generator.rs:1346-1356`). -/
def returnTypes (f : Function) : List ValueId → Except Err (List MirType)
  | [] => .ok []
  | v :: vs =>
    match f.types v with
    | none => .error .panic
    | some t =>
      match returnTypes f vs with
      | .error e => .error e
      | .ok ts => .ok (t :: ts)

/-- `get_target_offset_for_dest` (`generator.rs:1390-1400`, with `:1337-1388`). -/
def returnPlacement (f : Function) (dest : ValueId) (term : Terminator) : Except Err (Option ℤ) :=
  match term with
  | .Return values =>
    match returnTypes f f.returns with
    | .error e => .error e
    | .ok ts =>
      match values.findIdx? (· = .Operand dest) with
      | none => .ok none
      | some i =>
        if i < ts.length then
          .ok (some (-(Builder.sizeSum ts + 2) + Builder.sizeSum (ts.take i)))
        else .error .panic
  | _ => .ok none

/-- First argument placement, then return placement (`generator.rs:592-604`). -/
def placement (f : Function) (dest : ValueId) (next : Option Instr) (term : Terminator) (b : Builder) :
    Except Err (Option ℤ) :=
  match argPlacement dest next b with
  | some off => .ok (some off)
  | none => returnPlacement f dest term

/-- The operators for which the return placement is disabled (`generator.rs:713-720`). -/
def wideResult : BinaryOp → Bool
  | .U32Add | .U32Sub | .U32Mul | .U32Div | .U32Rem => true
  | _ => false

/-! ### Places (`generator.rs:838-1335`) -/

/-- Element type of an indexable type. -/
def elementType : MirType → Except Err MirType
  | .FixedArray t _ => .ok t
  | .Pointer t => .ok t
  | _ => .error .invalidMir

/-- The dynamic part of an index projection (`generator.rs:869-936`). -/
def indexOperand (types : ValueId → Option MirType) (id : ValueId) (stride : ℕ) (dyn : Option ℤ) (b : Builder) :
    Except Err (ℤ × Builder) :=
  match b.layout.values id with
  | none => .error .invalidMir
  | some (.multi _ _) => .error .internal
  | some (.slot off) =>
    if (match types id with | some t => !t.isFelt | none => false) then .error .invalidMir
    else
      let (scaled, b) :=
        if stride ≠ 1 then ((b.reserve 1).1, (b.reserve 1).2.feltMulImm off stride (b.reserve 1).1) else (off, b)
      match dyn with
      | none => .ok (scaled, b)
      | some ex =>
        let (sum, b) := b.reserve 1
        .ok (sum, b.push (.StoreAddFpFp (ofI32 ex) (ofI32 scaled) (ofI32 sum)))

/-- The projection loop of `Load` and `Store` (`generator.rs:851-975, 1036-1150`): static offset, slot of the
dynamic offset, builder. -/
def project (types : ValueId → Option MirType) : List Projection → MirType → ℤ → Option ℤ → Builder →
    Except Err (ℤ × Option ℤ × Builder)
  | [], _, imm, dyn, b => .ok (imm, dyn, b)
  | .Index idx :: ps, ty, imm, dyn, b =>
    match elementType ty with
    | .error e => .error e
    | .ok elem =>
      match idx with
      | .Literal (.Integer i) => project types ps elem (imm + i.toInt * elem.memSize) dyn b
      | .Operand id =>
        match indexOperand types id elem.memSize dyn b with
        | .error e => .error e
        | .ok (off, b) => project types ps elem imm (some off) b
      | _ => .error .invalidMir
  | .Field n :: ps, ty, imm, dyn, b =>
    match ty.fieldOffset n, ty.fieldType n with
    | some off, some t => project types ps t (imm + off) dyn b
    | _, _ => .error .invalidMir
  | .Tuple i :: ps, ty, imm, dyn, b =>
    match ty.tupleOffset i, ty.tupleElementType i with
    | some off, some t => project types ps t (imm + off) dyn b
    | _, _ => .error .invalidMir

/-- The slot holding the dynamic offset of one cell of an element (`generator.rs:990-1009`). -/
def slotOffset (off imm : ℤ) (s : ℕ) (b : Builder) : ℤ × Builder :=
  if imm ≠ 0 ∨ s ≠ 0 then ((b.reserve 1).1, (b.reserve 1).2.feltAddImm off (imm + s) (b.reserve 1).1)
  else (off, b)

/-- The cells of a loaded element from slot `s` on (`generator.rs:978-1023`). -/
def loadSlots (base imm : ℤ) (dyn : Option ℤ) (d : ℤ) : ℕ → ℕ → Builder → Builder
  | 0, _, b => b
  | n + 1, s, b =>
    match dyn with
    | none => loadSlots base imm dyn d n (s + 1) (b.loadImm base (imm + s) (d + s))
    | some off =>
      let (o, b) := slotOffset off imm s b
      loadSlots base imm dyn d n (s + 1) (b.loadFp base o (d + s))

/-- The cells of a stored element from slot `s` on (`generator.rs:1284-1330`, and `1181-1236` for a u32
literal). -/
def storeSlots (base imm : ℤ) (dyn : Option ℤ) (src : ℤ) : ℕ → ℕ → Builder → Builder
  | 0, _, b => b
  | n + 1, s, b =>
    match dyn with
    | none => storeSlots base imm dyn src n (s + 1) (b.storeToImm (src + s) base (imm + s))
    | some off =>
      let (o, b) := slotOffset off imm s b
      storeSlots base imm dyn src n (s + 1) (b.storeToFp base o (src + s))

/-- Storing a one-cell literal (`generator.rs:1155-1180, 1252-1281`): with a dynamic offset the static offset
is not used. -/
def storeLit (base imm : ℤ) (dyn : Option ℤ) (v : BitVec 32) (b : Builder) : Builder :=
  let (tmp, b) := b.reserve 1
  let b := b.storeImm v tmp
  match dyn with
  | some off => b.storeToFp base off tmp
  | none => b.storeToImm tmp base imm

/-- `InstructionKind::Load` (`generator.rs:838-1024`). -/
def genLoad (f : Function) (b : Builder) (dest : ValueId) (p : Place) (ty : MirType) : Except Err Builder := do
  let base ← b.layout.getOffset p.base
  match f.types p.base with
  | none => .error .invalidMir
  | some t => do
    let (imm, dyn, b) ← project f.types p.projections t 0 none b
    let (d, b) := b.allocateLocal dest ty.memSize
    pure (loadSlots base imm dyn d ty.memSize 0 b)

/-- `InstructionKind::Store` (`generator.rs:1026-1335`). -/
def genStore (f : Function) (b : Builder) (p : Place) (v : Value) (ty : MirType) : Except Err Builder := do
  let base ← b.layout.getOffset p.base
  match f.types p.base with
  | none => .error .invalidMir
  | some t => do
    let (imm, dyn, b) ← project f.types p.projections t 0 none b
    match v with
    | .Literal (.Integer n) =>
      if ty.memSize = 1 then pure (storeLit base imm dyn n b)
      else if ty.isU32 then
        let (tmp, b) := b.reserve 2
        pure (storeSlots base imm dyn tmp 2 0 (b.storeU32Imm n tmp))
      else .error .unsupported
    | .Literal (.Boolean x) =>
      if ty.memSize ≠ 1 then .error .invalidMir else pure (storeLit base imm dyn (Builder.boolWord x) b)
    | .Operand id => do
      let src ← b.layout.getOffset id
      pure (storeSlots base imm dyn src ty.memSize 0 b)
    | _ => .error .invalidMir

/-! ### Instructions and terminators -/

/-- `Literal::as_integer` (`mir/src/value.rs:150-156`). -/
def asInteger : Literal → Option (BitVec 32)
  | .Integer n => some n
  | .Boolean x => some (Builder.boolWord x)
  | .Unit => none

/-- `InstructionKind::AssertEq` (`generator.rs:611-668`). -/
def genAssert (b : Builder) (l r : Value) : Except Err Builder :=
  match l, r with
  | .Operand _, .Operand _ => .error .invalidMir
  | .Operand id, .Literal (.Integer n) | .Literal (.Integer n), .Operand id => do
    let off ← b.layout.getOffset id
    pure (b.assertEqImm off n.toInt)
  | .Operand id, .Literal (.Boolean x) | .Literal (.Boolean x), .Operand id => do
    let off ← b.layout.getOffset id
    pure (b.assertEqImm off (if x then 1 else 0))
  | .Literal x, .Literal y =>
    match asInteger x, asInteger y with
    | some m, some n =>
      let (t, b) := b.reserve 1
      pure ((b.storeImm (Builder.boolWord (m == n)) t).assertEqImm t 1)
    | _, _ => .error .panic
  | _, _ => .error .panic

/-- `generate_instruction` (`generator.rs:581-1333`) and the cases of `generate_basic_blocks`
(`generator.rs:451-536`): `next` is the following instruction of the block. -/
def genInstr (m : Module) (f : Function) (term : Terminator) (g : Gen) (b : Builder) (i : Instr)
    (next : Option Instr) : Except Err (Gen × Builder) :=
  match i with
  | .MakeFixedArray d vs ty c => genArray g b d vs ty c
  | .HeapAllocCells d cells => do
    let b ← lowerHeap b d cells
    pure ({ g with heap := true }, b)
  | .Assign d v ty => do
    let tgt ← placement f d next term b
    let b ← b.assign d v ty tgt
    pure (g, b)
  | .UnaryOp op d v => do
    let tgt ← placement f d next term b
    let b ← b.unaryOp op d v tgt
    pure (g, b)
  | .BinaryOp op d l r => do
    let tgt ← match argPlacement d next b with
      | some off => .ok (some off)
      | none => if wideResult op then .ok none else returnPlacement f d term
    let b ← b.binaryOp op d l r tgt
    pure (g, b)
  | .AssertEq l r => do
    let b ← genAssert b l r
    pure (g, b)
  | .Call dests callee args sig =>
    match m[callee]? with
    | none => .error .missingTarget
    | some c => do
      let b ← b.lowerCall c.name args sig dests
      pure (g, b)
  | .Cast d v st tt => do
    let b ← b.cast d v st tt
    pure (g, b)
  | .Debug _ => .error .panic
  | .Phi _ _ _ => .error .invalidMir
  | .Nop => .ok (g, b)
  | .MakeTuple d vs => do
    let b ← b.makeTuple f.types d vs
    pure (g, b)
  | .ExtractTupleElement d v n ty => do
    let b ← b.extractTuple f.types d v n ty
    pure (g, b)
  | .MakeStruct d fs ty => do
    let b ← b.makeStruct d fs ty
    pure (g, b)
  | .ExtractStructField d v n ty => do
    let b ← b.extractField f.types d v n ty
    pure (g, b)
  | .InsertField d v n new ty => do
    let b ← b.insertField d v n new ty
    pure (g, b)
  | .InsertTuple d v n new ty => do
    let b ← b.insertTuple d v n new ty
    pure (g, b)
  | .Load d p ty => do
    let b ← genLoad f b d p ty
    pure (g, b)
  | .Store p v ty => do
    let b ← genStore f b p v ty
    pure (g, b)

/-- The instructions of a block (`generator.rs:450-537`). -/
def genInstrs (m : Module) (f : Function) (term : Terminator) : List Instr → Gen → Builder →
    Except Err (Gen × Builder)
  | [], g, b => .ok (g, b)
  | i :: is, g, b =>
    match genInstr m f term g b i is.head? with
    | .error e => .error e
    | .ok (g, b) => genInstrs m f term is g b

/-- `generate_terminator` (`generator.rs:1403-1557`); `next` is the block emitted next, if any. -/
def genTerm (f : Function) (b : Builder) (term : Terminator) (next : Option BlockId) : Except Err Builder :=
  match term with
  | .Jump t => .ok (if next = some t then b else b.jump (blockLabel f.name t))
  | .If c t e => do
    let b ← b.jnz c (blockLabel f.name t)
    pure (b.jump (blockLabel f.name e))
  | .BranchCmp op l r t e =>
    let (tmp, b) := b.reserve 1
    match op with
    | .Eq => do
      let b ← b.computeInto .Sub tmp l r
      let b := b.jnzOffset tmp (blockLabel f.name e)
      pure (if next = some t then b else b.jump (blockLabel f.name t))
    | .Neq => do
      let b ← b.computeInto .Sub tmp l r
      let b := b.jnzOffset tmp (blockLabel f.name t)
      pure (if next = some e then b else b.jump (blockLabel f.name e))
    | .U32Eq => do
      let b ← b.computeInto .U32Eq tmp l r
      let b := b.jnzOffset tmp (blockLabel f.name t)
      pure (if next = some e then b else b.jump (blockLabel f.name e))
    | .U32Neq => do
      let b ← b.computeInto .U32Eq tmp l r
      let b := b.jnzOffset tmp (blockLabel f.name e)
      pure (if next = some t then b else b.jump (blockLabel f.name t))
    | _ => .error .unsupported
  | .Return vs =>
    match returnTypes f f.returns with
    | .error e => .error e
    | .ok ts => b.returnValues vs ts
  | .Unreachable => .ok b

/-- `generate_basic_blocks` (`generator.rs:437-541`) from block `i` on. -/
def genBlocks (m : Module) (f : Function) : List Block → BlockId → Gen → Builder → Except Err (Gen × Builder)
  | [], _, g, b => .ok (g, b)
  | blk :: blks, i, g, b =>
    match genInstrs m f blk.term blk.instrs g (b.addLabel (blockLabel f.name i)) with
    | .error e => .error e
    | .ok (g, b) =>
      match genTerm f b blk.term (if blks.isEmpty then none else some (i + 1)) with
      | .error e => .error e
      | .ok b => genBlocks m f blks (i + 1) g b

mutual
/-- `abi_type_from_mir` (`generator.rs:2338-2378`): whether the type can appear in a signature. -/
def abiOk : MirType → Bool
  | .Felt | .Bool | .U32 | .Unit => true
  | .Pointer t => abiOk t
  | .Tuple ts => abiOks ts
  | .Struct _ fs => abiOkFields fs
  | .FixedArray t _ => abiOk t
  | .Function _ _ | .Error | .Unknown => false
/-- All elements of a tuple. -/
def abiOks : List MirType → Bool
  | [] => true
  | t :: ts => abiOk t && abiOks ts
/-- All fields of a struct. -/
def abiOkFields : List (Name × MirType) → Bool
  | [] => true
  | (_, t) :: fs => abiOk t && abiOkFields fs
end

/-- Whether the parameters and return values have ABI types (`generator.rs:377-402`). -/
def signatureOk (f : Function) : Bool :=
  (f.params ++ f.returns).all fun v => match f.types v with | some t => abiOk t | none => false

/-- `generate_function` (`generator.rs:356-434`), the function having been legalised. -/
def genFunction (m : Module) (g : Gen) (f : Function) : Except Err Gen :=
  match Layout.new f with
  | .error e => .error e
  | .ok l =>
    if signatureOk f then
      match genBlocks m f f.blocks 0 { g with entries := g.entries ++ [(f.name, g.instrs.length)] }
          ((Builder.new l g.counter).addLabel f.name) with
      | .error e => .error e
      | .ok (g, b) =>
        let c := (g.counter + b.counter) % 2 ^ 64
        let b := runPasses b
        .ok { g with
          counter := c
          instrs := g.instrs ++ b.instrs
          labels := g.labels ++ b.labels.map fun x => { x with addr := x.addr + g.instrs.length } }
    else .error .invalidMir

/-- `generate_all_functions` (`generator.rs:348-353`). -/
def genFunctions (m : Module) : List Function → Gen → Except Err Gen
  | [], g => .ok g
  | f :: fs, g =>
    match genFunction m g f with
    | .error e => .error e
    | .ok g => genFunctions m fs g

/-! ### Label resolution -/

/-- Total size of a list of instructions in memory words (`generator.rs:259-280`). -/
def codeSize (is : List IB) : ℕ := (is.map fun i => i.inner.sizeInQM31s).sum

/-- `memory_layout[i]` (`generator.rs:259-280`): physical address of instruction `i`. -/
def physical (is : List IB) (i : ℕ) : ℕ := codeSize (is.take i)

/-- The last label with the given name. -/
def lastLabel (ls : List Label) (n : Name) : Option ℕ :=
  ls.foldl (fun acc l => if l.name = n then some l.addr else acc) none

/-- Address of the read-only blob with the given label. -/
def rodataAddr (base : ℕ) : List Name → List (List QM31) → Name → Option ℕ
  | l :: ls, blob :: blobs, n => if l = n then some base else rodataAddr (base + blob.length) ls blobs n
  | _, _, _ => none

/-- The label map of `resolve_labels` (`generator.rs:1560-1701`): later insertions win. -/
def labelMap (g : Gen) (n : Name) : Option ℕ :=
  if g.heap ∧ n = sHeapCursor then some (codeSize g.instrs + g.rodata.flatten.length)
  else
    match rodataAddr (codeSize g.instrs) g.roLabels g.rodata n with
    | some a => some a
    | none =>
      match lastLabel g.labels n with
      | some i => some (physical g.instrs i)
      | none => (g.entries.lookup n).map (physical g.instrs)

/-- The resolution of one instruction (`generator.rs:1649-1700`). -/
def resolveOne (g : Gen) (pc : ℕ) (i : IB) : Except Err Instruction :=
  match i.label with
  | none => .ok i.inner
  | some n =>
    match i.inner with
    | .JmpRelImm _ =>
      match labelMap g n with
      | none => .error .unresolvedLabel
      | some a => .ok (.JmpRelImm (ofI32 (a - pc)))
    | .JnzFpImm c _ =>
      match labelMap g n with
      | none => .error .unresolvedLabel
      | some a => .ok (.JnzFpImm c (ofI32 (a - pc)))
    | .CallAbsImm off _ =>
      match labelMap g n with
      | none => .error .unresolvedLabel
      | some a => .ok (.CallAbsImm off (ofI32 a))
    | .StoreImm _ d =>
      match labelMap g n with
      | none => .error .unresolvedLabel
      | some a => .ok (.StoreImm (ofI32 a) d)
    | _ => .error .unresolvedLabel

/-- The resolution loop from physical address `pc` on. -/
def resolveAll (g : Gen) : ℕ → List IB → Except Err (List Instruction)
  | _, [] => .ok []
  | pc, i :: is =>
    match resolveOne g pc i with
    | .error e => .error e
    | .ok j =>
      match resolveAll g (pc + i.inner.sizeInQM31s) is with
      | .error e => .error e
      | .ok js => .ok (j :: js)

/-- A compiled program: instructions, read-only data, mutable data, entry points (`generator.rs:213-246`). -/
structure Compiled where
  code : List Instruction
  rodata : List QM31
  data : List QM31
  entries : List (Name × ℕ)

/-- `resolve_labels` and `compile` (`generator.rs:1560-1702, 213-246`). -/
def link (g : Gen) : Except Err Compiled :=
  if (g.entries.all fun e => decide (e.2 < g.instrs.length)) &&
      (g.labels.all fun l => decide (l.addr < g.instrs.length)) then
    if codeSize g.instrs + g.rodata.flatten.length + (if g.heap then 1 else 0) ≥ 2 ^ 30 then .error .internal
    else
      match resolveAll g 0 g.instrs with
      | .error e => .error e
      | .ok js =>
        .ok ⟨js, g.rodata.flatten, if g.heap then [QM31.ofM31 0] else [],
          g.entries.map fun e => (e.1, physical g.instrs e.2)⟩
  else .error .unresolvedLabel

/-- Targets of a terminator (`mir/src/terminator.rs`, `target_blocks`). -/
def targets : Terminator → List BlockId
  | .Jump t => [t]
  | .If _ t e => [t, e]
  | .BranchCmp _ _ _ t e => [t, e]
  | .Return _ | .Unreachable => []

/-- `matches!(kind, InstructionKind::Phi { .. })`. -/
def isPhi : Instr → Bool
  | .Phi .. => true
  | _ => false

/-- `MirFunction::validate` (`mir/src/function.rs:204-313`) and `validate_for_casm` (`backend.rs:9-40`),
without the checks on the types of returned values and on phi instructions (which are rejected anyway). -/
def validFunction (f : Function) : Bool :=
  !f.blocks.isEmpty &&
  f.blocks.all fun b =>
    (targets b.term).all (fun t => decide (t < f.blocks.length)) &&
    !b.instrs.any isPhi &&
    (match b.term with
     | .Return vs => vs.length == f.returns.length
     | _ => true)

/-- `compile_module` (`backend.rs:43-54`) with `generate_module` (`generator.rs:192-210`). Layouts are
computed for all functions before code is generated; as layouts do not depend on the generated code only the
order in which errors are found differs. -/
def compileModule (m : Module) : Except Err Compiled :=
  if decide ((m.map Mir.Function.name).Nodup) && m.all validFunction then
    match genFunctions (m.map legalFunction) (m.map legalFunction) Gen.init with
    | .error e => .error e
    | .ok g => link g
  else .error .invalidMir

/-- The linear program data (`generator.rs:220-236`). -/
def Compiled.program (c : Compiled) : List ProgramData :=
  c.code.map .instruction ++ c.rodata.map .value ++ c.data.map .value

end Codegen
end CairoM
