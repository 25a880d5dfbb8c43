import Verif.Mir
import Verif.Instruction

/-!
# Code generator: frame layout and instruction builder

Model of `crates/compiler/codegen/src/layout.rs`, `builder.rs` and `builder/*.rs`. Offsets (`i32`) are
unbounded integers and sizes (`usize`) natural numbers: overflow of the 32-bit offset arithmetic is not
modelled. Comments attached to instructions are left out. Rust `&mut self` methods become functions returning
the new builder.
-/

namespace CairoM
namespace Codegen

open Mir

/-- `CodegenError` (`codegen/src/lib.rs:133-155`) without the messages; `panic` stands for `unreachable!`,
`todo!` and `expect`. -/
inductive Err where
  | invalidMir | missingTarget | unsupported | layout | unresolvedLabel | internal | panic
deriving DecidableEq, Repr

/-- `M31::from(i32)` (stwo `m31.rs`): the residue of a possibly negative integer. -/
def ofI32 : ℤ → M31
  | .ofNat n => (n : M31)
  | .negSucc n => -((n + 1 : ℕ) : M31)

/-- `ValueLayout` (`layout.rs:39-48`); the variants `Constant` and `OptimizedOut` are never constructed. -/
inductive Slot where
  | slot (off : ℤ)
  | multi (off : ℤ) (size : ℕ)
deriving DecidableEq, Repr

namespace Slot

/-- The recurring `if size == 1 { Slot } else { MultiSlot }`. -/
def of (off : ℤ) (size : ℕ) : Slot := if size = 1 then .slot off else .multi off size

/-- The offset of a layout. -/
def off : Slot → ℤ
  | .slot o => o
  | .multi o _ => o

/-- The size of a layout. -/
def size : Slot → ℕ
  | .slot _ => 1
  | .multi _ n => n

end Slot

/-- `FunctionLayout` (`layout.rs:52-64`): the hash map of layouts is a partial function. -/
structure Layout where
  values : ValueId → Option Slot
  frame : ℕ
  retSlots : ℕ

namespace Layout

/-- Sizes of a list of values with known types (`layout.rs:93-112`), an error if a type is missing. -/
def sizeOfAll (types : ValueId → Option MirType) : List ValueId → Except Err ℕ
  | [] => .ok 0
  | v :: vs =>
    match types v with
    | none => .error .layout
    | some t =>
      match sizeOfAll types vs with
      | .error e => .error e
      | .ok n => .ok (t.memSize + n)

/-- `value_layouts.insert`. -/
def insert (l : Layout) (v : ValueId) (s : Slot) : Layout :=
  { l with values := Function.update l.values v (some s) }

/-- The loop placing the parameters from offset `off` upwards (`layout.rs:118-140`). -/
def allocParams (types : ValueId → Option MirType) : List ValueId → ℤ → Layout → Except Err Layout
  | [], _, l => .ok l
  | v :: vs, off, l =>
    match types v with
    | none => .error .layout
    | some t => allocParams types vs (off + t.memSize) (l.insert v (Slot.of off t.memSize))

/-- The loop placing the destinations of the instructions (`layout.rs:148-238`); calls and other
instructions are treated alike. -/
def allocLocals (types : ValueId → Option MirType) : List ValueId → ℕ → Layout → Except Err (ℕ × Layout)
  | [], cur, l => .ok (cur, l)
  | v :: vs, cur, l =>
    if (l.values v).isSome then allocLocals types vs cur l
    else
      match types v with
      | none => .error .layout
      | some t => allocLocals types vs (cur + t.memSize) (l.insert v (Slot.of cur t.memSize))

/-- Destinations of all instructions in block order. -/
def locals (f : Function) : List ValueId :=
  f.blocks.flatMap fun b => b.instrs.flatMap Instr.destinations

/-- `FunctionLayout::new` (`layout.rs:70-87`). -/
def new (f : Function) : Except Err Layout := do
  let m ← sizeOfAll f.types f.params
  let k ← sizeOfAll f.types f.returns
  let l ← allocParams f.types f.params (-(m : ℤ) - k - 2) ⟨fun _ => none, 0, k⟩
  let (cur, l) ← allocLocals f.types (locals f) 0 l
  pure { l with frame := cur }

/-- `get_value_size` (`layout.rs:328-334`). -/
def valueSize (l : Layout) (v : ValueId) : ℕ :=
  match l.values v with
  | some s => s.size
  | none => 1

/-- `get_offset` (`layout.rs:292-305`). -/
def getOffset (l : Layout) (v : ValueId) : Except Err ℤ :=
  match l.values v with
  | some s => .ok s.off
  | none => .error .layout

/-- `allocate_local` (`layout.rs:238-260`). -/
def allocateLocal (l : Layout) (v : ValueId) (size : ℕ) : ℤ × Layout :=
  match l.values v with
  | some s => (s.off, l)
  | none => (l.frame, { l.insert v (Slot.of l.frame size) with frame := l.frame + size })

/-- `map_value` (`layout.rs:264-281`). -/
def mapValue (l : Layout) (v : ValueId) (off : ℤ) : Layout :=
  let size := l.valueSize v
  let l' := l.insert v (Slot.of off size)
  if off + size > l.frame then { l' with frame := (off + size).toNat } else l'

/-- `reserve_stack` (`layout.rs:285-289`). -/
def reserve (l : Layout) (n : ℕ) : ℤ × Layout := (l.frame, { l with frame := l.frame + n })

/-- `is_contiguous` (`layout.rs:349-362`). -/
def isContiguous (l : Layout) (v : ValueId) (off : ℤ) (size : ℕ) : Bool :=
  match l.values v with
  | some (.slot o) => size == 1 && o == off
  | some (.multi o n) => n == size && o == off
  | none => false

end Layout

/-- `InstructionBuilder` (`codegen/src/lib.rs:46-54`): an instruction and the label still to be resolved. -/
structure IB where
  inner : Instruction
  label : Option Name
deriving DecidableEq, Repr

/-- `Label` (`lib.rs:104-109`); the address is always present once the label has been emitted. -/
structure Label where
  name : Name
  addr : ℕ
deriving DecidableEq, Repr

/-- `CasmBuilder` (`builder.rs:42-53`). -/
structure Builder where
  instrs : List IB
  labels : List Label
  layout : Layout
  counter : ℕ
  maxWritten : ℤ

/-- `CasmBuilder::new` (`builder.rs:65-82`). -/
def Builder.new (l : Layout) (counter : ℕ) : Builder :=
  ⟨[], [], l, counter, if l.frame > 0 then (l.frame : ℤ) - 1 else -1⟩

/-- Decimal rendering of a counter. -/
def digits (n : ℕ) : Name := Nat.toDigits 10 n

/-- `format!("{}_{}", prefix, n)`. -/
def mkName (pre : Name) (n : ℕ) : Name := pre ++ '_' :: digits n

/-- `split_u32_value` (`builder.rs:33-35`). -/
def splitLo (n : BitVec 32) : M31 := ((n.toNat % 2 ^ 16 : ℕ) : M31)

/-- `split_u32_value` (`builder.rs:33-35`), the high half. -/
def splitHi (n : BitVec 32) : M31 := ((n.toNat / 2 ^ 16 : ℕ) : M31)

namespace Builder

/-! ### Emission (`builder/emit.rs`) -/

/-- `emit_push` without label (`emit.rs:12-14`). -/
def push (b : Builder) (i : Instruction) : Builder := { b with instrs := b.instrs ++ [⟨i, none⟩] }

/-- `emit_push` of an instruction with a label to resolve. -/
def pushL (b : Builder) (i : Instruction) (l : Name) : Builder :=
  { b with instrs := b.instrs ++ [⟨i, some l⟩] }

/-- `emit_new_label_name` (`emit.rs:17-21`). The counter is a `usize` that wraps around in release builds. -/
def newLabel (b : Builder) (pre : Name) : Name × Builder :=
  (mkName pre b.counter, { b with counter := (b.counter + 1) % 2 ^ 64 })

/-- `emit_add_label` (`emit.rs:24-27`). -/
def addLabel (b : Builder) (n : Name) : Builder :=
  { b with labels := b.labels ++ [⟨n, b.instrs.length⟩] }

/-- `self.layout.reserve_stack`. -/
def reserve (b : Builder) (n : ℕ) : ℤ × Builder :=
  ((b.layout.reserve n).1, { b with layout := (b.layout.reserve n).2 })

/-- `self.layout.map_value`. -/
def mapValue (b : Builder) (v : ValueId) (off : ℤ) : Builder := { b with layout := b.layout.mapValue v off }

/-- `self.layout.allocate_local`. -/
def allocateLocal (b : Builder) (v : ValueId) (size : ℕ) : ℤ × Builder :=
  ((b.layout.allocateLocal v size).1, { b with layout := (b.layout.allocateLocal v size).2 })

/-- `self.layout.value_layouts.insert`. -/
def insertSlot (b : Builder) (v : ValueId) (s : Slot) : Builder := { b with layout := b.layout.insert v s }

/-! ### Stores and copies (`builder/store.rs`) -/

/-- `felt_add_fp_imm` (`builder/felt.rs:225`, macro at 25-42). -/
def feltAddImm (b : Builder) (src imm dst : ℤ) : Builder :=
  b.push (.StoreAddFpImm (ofI32 src) (ofI32 imm) (ofI32 dst))

/-- `felt_mul_fp_imm` (`builder/felt.rs:224`). -/
def feltMulImm (b : Builder) (src imm dst : ℤ) : Builder :=
  b.push (.StoreMulFpImm (ofI32 src) (ofI32 imm) (ofI32 dst))

/-- `felt_le_fp_imm` (`builder/felt.rs:226`). -/
def feltLeImm (b : Builder) (src imm dst : ℤ) : Builder :=
  b.push (.StoreLeFpImm (ofI32 src) (ofI32 imm) (ofI32 dst))

/-- `store_copy_single` (`store.rs:13-15`). -/
def copySingle (b : Builder) (src dst : ℤ) : Builder := b.feltAddImm src 0 dst

/-- `store_fp_plus_imm` (`store.rs:18-25`). -/
def storeFpPlus (b : Builder) (base dst : ℤ) : Builder :=
  b.push (.StoreFramePointer (ofI32 base) (ofI32 dst))

/-- `store_from_double_deref_fp_imm` (`store.rs:28-42`). -/
def loadImm (b : Builder) (base imm dst : ℤ) : Builder :=
  b.push (.StoreDoubleDerefFp (ofI32 base) (ofI32 imm) (ofI32 dst))

/-- `store_from_double_deref_fp_fp` (`store.rs:45-59`). -/
def loadFp (b : Builder) (base idx dst : ℤ) : Builder :=
  b.push (.StoreDoubleDerefFpFp (ofI32 base) (ofI32 idx) (ofI32 dst))

/-- `store_copy_u32` (`store.rs:61-74`). -/
def copyU32 (b : Builder) (src dst : ℤ) : Builder :=
  b.push (.U32StoreAddFpImm (ofI32 src) 0 0 (ofI32 dst))

/-- `store_immediate` (`store.rs:77-84`). -/
def storeImm (b : Builder) (v : BitVec 32) (off : ℤ) : Builder := b.push (.StoreImm (toM31 v) (ofI32 off))

/-- `store_u32_immediate` (`store.rs:87-96`). -/
def storeU32Imm (b : Builder) (v : BitVec 32) (off : ℤ) : Builder :=
  b.push (.U32StoreImm (splitLo v) (splitHi v) (ofI32 off))

/-- `copy_slots` (`store.rs:99-118`) and the identical loops in `copy_value_to_offset` and
`return_values`. -/
def copySlots (b : Builder) (src dst : ℤ) : ℕ → Builder
  | 0 => b
  | n + 1 => (copySlots b src dst n).copySingle (src + n) (dst + n)

/-- `store_to_double_deref_fp_imm` (`store.rs:120-135`). -/
def storeToImm (b : Builder) (src base imm : ℤ) : Builder :=
  b.push (.StoreToDoubleDerefFpImm (ofI32 base) (ofI32 imm) (ofI32 src))

/-- `store_to_double_deref_fp_fp` (`store.rs:137-152`). -/
def storeToFp (b : Builder) (base idx src : ℤ) : Builder :=
  b.push (.StoreToDoubleDerefFpFp (ofI32 base) (ofI32 idx) (ofI32 src))

/-- `b as u32`. -/
def boolWord (x : Bool) : BitVec 32 := if x then 1 else 0

/-- `copy_value_to_offset` (`store.rs:155-226`). -/
def copyValueTo (b : Builder) (v : Value) (off : ℤ) (size : ℕ) : Except Err Builder :=
  if size = 0 then .ok b
  else
    match v with
    | .Literal (.Integer imm) =>
      if size = 1 then .ok (b.storeImm imm off)
      else if size = 2 then .ok (b.storeU32Imm imm off)
      else .error .unsupported
    | .Literal (.Boolean x) => .ok (b.storeImm (boolWord x) off)
    | .Literal .Unit => .ok b
    | .Operand id =>
      match b.layout.getOffset id with
      | .error e => .error e
      | .ok src => .ok (b.copySlots src off size)
    | .Error => .error .unsupported

/-! ### Control flow (`builder/ctrlflow.rs`) -/

/-- `jump` (`ctrlflow.rs:12-22`). -/
def jump (b : Builder) (l : Name) : Builder := b.pushL (.JmpRelImm 0) l

/-- `jnz_offset` (`ctrlflow.rs:48-59`). -/
def jnzOffset (b : Builder) (off : ℤ) (l : Name) : Builder := b.pushL (.JnzFpImm (ofI32 off) 0) l

/-- `jnz` (`ctrlflow.rs:26-45`). -/
def jnz (b : Builder) (c : Value) (l : Name) : Except Err Builder :=
  match c with
  | .Operand id =>
    match b.layout.getOffset id with
    | .error e => .error e
    | .ok off => .ok (b.jnzOffset off l)
  | .Literal (.Boolean x) => .ok (if x then b.jump l else b)
  | _ => .error .unsupported

/-- `const_truthiness` (`ctrlflow.rs:198-204`). -/
def constTruth : Value → Option Bool
  | .Literal (.Integer i) => some (i != 0)
  | .Literal (.Boolean x) => some x
  | _ => none

/-- `branch_if_nonzero_to` with `emit_jmp_if_const_true = true` (`ctrlflow.rs:166-189`); the returned
truth value is not used by the callers. -/
def branchIfNonzero (b : Builder) (v : Value) (l : Name) : Except Err Builder :=
  match constTruth v with
  | some t => .ok (if t then b.jump l else b)
  | none =>
    match v with
    | .Operand id =>
      match b.layout.getOffset id with
      | .error e => .error e
      | .ok off => .ok (b.jnzOffset off l)
    | _ => .error .unsupported

/-- `"or_true"` -/
def sOrTrue : Name := ['o', 'r', '_', 't', 'r', 'u', 'e']
/-- `"or_end"` -/
def sOrEnd : Name := ['o', 'r', '_', 'e', 'n', 'd']
/-- `"and_check_right"` -/
def sAndCheck : Name := ['a', 'n', 'd', '_', 'c', 'h', 'e', 'c', 'k', '_', 'r', 'i', 'g', 'h', 't']
/-- `"and_true"` -/
def sAndTrue : Name := ['a', 'n', 'd', '_', 't', 'r', 'u', 'e']
/-- `"and_end"` -/
def sAndEnd : Name := ['a', 'n', 'd', '_', 'e', 'n', 'd']
/-- `"not_zero"` -/
def sNotZero : Name := ['n', 'o', 't', '_', 'z', 'e', 'r', 'o']
/-- `"not_end"` -/
def sNotEnd : Name := ['n', 'o', 't', '_', 'e', 'n', 'd']
/-- `"end"` -/
def sEnd : Name := ['e', 'n', 'd']
/-- `"neq_non_zero"` -/
def sNeqNonZero : Name := ['n', 'e', 'q', '_', 'n', 'o', 'n', '_', 'z', 'e', 'r', 'o']
/-- `"neq_end"` -/
def sNeqEnd : Name := ['n', 'e', 'q', '_', 'e', 'n', 'd']
/-- `"u32_cast_ok"` -/
def sCastOk : Name := ['u', '3', '2', '_', 'c', 'a', 's', 't', '_', 'o', 'k']

/-- `sc_or` (`ctrlflow.rs:62-83`). -/
def scOr (b : Builder) (d : ℤ) (l r : Value) : Except Err Builder := do
  let b := b.storeImm 0 d
  let (setTrue, b) := b.newLabel sOrTrue
  let (fin, b) := b.newLabel sOrEnd
  let b ← b.branchIfNonzero l setTrue
  let b ← b.branchIfNonzero r setTrue
  let b := b.jump fin
  let b := b.addLabel setTrue
  let b := b.storeImm 1 d
  pure (b.addLabel fin)

/-- The part of `sc_and` after the check of the left operand (`ctrlflow.rs:119-133`). -/
def scAndRight (b : Builder) (d : ℤ) (r : Value) (check setTrue fin : Name) : Except Err Builder := do
  let b := b.addLabel check
  let b ← b.branchIfNonzero r setTrue
  let b := b.jump fin
  let b := b.addLabel setTrue
  let b := b.storeImm 1 d
  pure (b.addLabel fin)

/-- `sc_and` (`ctrlflow.rs:86-133`). -/
def scAnd (b : Builder) (d : ℤ) (l r : Value) : Except Err Builder :=
  let b := b.storeImm 0 d
  let (check, b) := b.newLabel sAndCheck
  let (setTrue, b) := b.newLabel sAndTrue
  let (fin, b) := b.newLabel sAndEnd
  match constTruth l with
  | some false => .ok (b.addLabel fin)
  | some true => b.scAndRight d r check setTrue fin
  | none =>
    match l with
    | .Operand id =>
      match b.layout.getOffset id with
      | .error e => .error e
      | .ok off => ((b.jnzOffset off check).jump fin).scAndRight d r check setTrue fin
    | _ => .error .unsupported

/-- `sc_not` (`ctrlflow.rs:136-168`). -/
def scNot (b : Builder) (d : ℤ) (v : Value) : Except Err Builder :=
  let (setZero, b) := b.newLabel sNotZero
  let (fin, b) := b.newLabel sNotEnd
  match v with
  | .Operand id =>
    match b.layout.getOffset id with
    | .error e => .error e
    | .ok off =>
      let b := b.jnzOffset off setZero
      let b := b.storeImm 1 d
      let b := b.jump fin
      let b := b.addLabel setZero
      let b := b.storeImm 0 d
      .ok (b.addLabel fin)
  | .Literal (.Boolean x) => .ok (b.storeImm (boolWord (!x)) d)
  | .Literal (.Integer n) => .ok (b.storeImm (boolWord (n == 0)) d)
  | _ => .error .unsupported

/-! ### Felt operations (`builder/felt.rs`) -/

/-- `literal_to_i32` (`felt.rs:46-58`): the bit pattern read as a signed number. -/
def litI32 : Literal → ℤ
  | .Integer n => n.toInt
  | .Boolean x => if x then 1 else 0
  | .Unit => 0

/-- `literal_to_i32(l) as u32`. -/
def litU32 : Literal → BitVec 32
  | .Integer n => n
  | .Boolean x => boolWord x
  | .Unit => 0

/-- `canonicalize_commutative_felt` (`normalize.rs:28-41`). -/
def canonFelt (op : BinaryOp) (l r : Value) : Value × Value :=
  if op = .Add ∨ op = .Mul then
    match l, r with
    | .Literal (.Integer _), .Operand _ => (r, l)
    | _, _ => (l, r)
  else (l, r)

/-- `felt_fp_fp_op` (`felt.rs:183-203`). -/
def feltFpFp (b : Builder) (op : BinaryOp) (s0 s1 d : ℤ) : Except Err Builder :=
  match op with
  | .Add => .ok (b.push (.StoreAddFpFp (ofI32 s0) (ofI32 s1) (ofI32 d)))
  | .Sub => .ok (b.push (.StoreSubFpFp (ofI32 s0) (ofI32 s1) (ofI32 d)))
  | .Mul => .ok (b.push (.StoreMulFpFp (ofI32 s0) (ofI32 s1) (ofI32 d)))
  | .Div => .ok (b.push (.StoreDivFpFp (ofI32 s0) (ofI32 s1) (ofI32 d)))
  | _ => .error .unsupported

/-- `felt_sub_fp_imm` (`felt.rs:236-250`) with `m31_negate_imm` (`felt.rs:294-296`). The negated immediate
is below `P`, so reading it as `i32` changes nothing. -/
def feltSubImm (b : Builder) (src : ℤ) (imm : BitVec 32) (d : ℤ) : Builder :=
  b.push (.StoreAddFpImm (ofI32 src) (-toM31 imm) (ofI32 d))

/-- `felt_div_fp_imm` (`felt.rs:252-267`) with `m31_inverse_imm` (`felt.rs:307-315`). -/
def feltDivImm (b : Builder) (src : ℤ) (imm : BitVec 32) (d : ℤ) : Except Err Builder :=
  if imm = 0 ∨ toM31 imm = 0 then .error .invalidMir
  else .ok (b.push (.StoreMulFpImm (ofI32 src) (toM31 imm)⁻¹ (ofI32 d)))

/-- `felt_fp_imm_op` (`felt.rs:205-225`). Additions and multiplications encode the literal through a signed
32-bit number, subtractions and divisions through an unsigned one. -/
def feltFpImm (b : Builder) (op : BinaryOp) (src : ℤ) (lit : Literal) (d : ℤ) : Except Err Builder :=
  match op with
  | .Add => .ok (b.feltAddImm src (litI32 lit) d)
  | .Sub => .ok (b.feltSubImm src (litU32 lit) d)
  | .Mul => .ok (b.feltMulImm src (litI32 lit) d)
  | .Div => b.feltDivImm src (litU32 lit) d
  | _ => .error .unsupported

/-- The literal-literal case of `felt_arith` (`felt.rs:60-128`). -/
def feltConst (op : BinaryOp) (l r : M31) : Except Err M31 :=
  match op with
  | .Add => .ok (l + r)
  | .Sub => .ok (l - r)
  | .Mul => .ok (l * r)
  | .Div => if r = 0 then .error .invalidMir else .ok (l * r⁻¹)
  | _ => .error .unsupported

/-- `felt_arith` (`felt.rs:60-128`). -/
def feltArith (b : Builder) (op : BinaryOp) (d : ℤ) (l r : Value) : Except Err Builder :=
  match canonFelt op l r with
  | (.Operand x, .Operand y) => do
    let lo ← b.layout.getOffset x
    let ro ← b.layout.getOffset y
    b.feltFpFp op lo ro d
  | (.Operand x, .Literal lit) => do
    let lo ← b.layout.getOffset x
    b.feltFpImm op lo lit d
  | (.Literal lit, .Operand y) =>
    match op with
    | .Add | .Mul => do
      let ro ← b.layout.getOffset y
      b.feltFpImm op ro lit d
    | .Sub | .Div => do
      let (tmp, b) := b.reserve 1
      let b := b.storeImm (litU32 lit) tmp
      let ro ← b.layout.getOffset y
      b.feltFpFp op tmp ro d
    | _ => .error .panic
  | (.Literal x, .Literal y) => do
    let res ← feltConst op (toM31 (litU32 x)) (toM31 (litU32 y))
    pure (b.push (.StoreImm res (ofI32 d)))
  | _ => .error .panic

/-- `emit_branch_on_nonzero_set_bool` (`felt.rs:157-181`). -/
def setBool (b : Builder) (d : ℤ) (trueOnZero : Bool) (nz fin : Name) : Builder :=
  let b := b.jnzOffset d nz
  let b := b.storeImm (boolWord trueOnZero) d
  let b := b.jump fin
  let b := b.addLabel nz
  let b := b.storeImm (boolWord (!trueOnZero)) d
  b.addLabel fin

/-- `felt_eq` (`felt.rs:130-142`). -/
def feltEq (b : Builder) (d : ℤ) (l r : Value) : Except Err Builder := do
  let b ← b.feltArith .Sub d l r
  let (nz, b) := b.newLabel sNotZero
  let (fin, b) := b.newLabel sEnd
  pure (b.setBool d true nz fin)

/-- `felt_neq` (`felt.rs:144-155`, second function). -/
def feltNeq (b : Builder) (d : ℤ) (l r : Value) : Except Err Builder := do
  let b ← b.feltArith .Sub d l r
  let (nz, b) := b.newLabel sNeqNonZero
  let (fin, b) := b.newLabel sNeqEnd
  pure (b.setBool d false nz fin)

/-! ### u32 operations (`builder/u32_ops.rs`) -/

/-- `is_commutative_u32` (`normalize.rs:14-25`). -/
def commU32 : BinaryOp → Bool
  | .U32Add | .U32Mul | .U32BitwiseAnd | .U32BitwiseOr | .U32BitwiseXor | .U32Eq | .U32Neq => true
  | _ => false

/-- `canonicalize_commutative_u32` (`normalize.rs:44-57`). -/
def canonU32 (op : BinaryOp) (l r : Value) : Value × Value :=
  if commU32 op then
    match l, r with
    | .Literal (.Integer _), .Operand _ => (r, l)
    | _, _ => (l, r)
  else (l, r)

/-- `u32_fp_fp_cmp` and `u32_fp_fp_op` (`u32_ops.rs:246-275`), with `u32_div_rem_fp_fp` and `u32_rem_fp_fp`
(`:368-425`); the two functions are called for disjoint sets of operators. -/
def u32FpFp (b : Builder) (op : BinaryOp) (s0 s1 d : ℤ) : Except Err Builder :=
  match op with
  | .U32Eq => .ok (b.push (.U32StoreEqFpFp (ofI32 s0) (ofI32 s1) (ofI32 d)))
  | .U32Less => .ok (b.push (.U32StoreLtFpFp (ofI32 s0) (ofI32 s1) (ofI32 d)))
  | .U32Add => .ok (b.push (.U32StoreAddFpFp (ofI32 s0) (ofI32 s1) (ofI32 d)))
  | .U32Sub => .ok (b.push (.U32StoreSubFpFp (ofI32 s0) (ofI32 s1) (ofI32 d)))
  | .U32Mul => .ok (b.push (.U32StoreMulFpFp (ofI32 s0) (ofI32 s1) (ofI32 d)))
  | .U32Div =>
    let (rem, b) := b.reserve 2
    .ok (b.push (.U32StoreDivRemFpFp (ofI32 s0) (ofI32 s1) (ofI32 d) (ofI32 rem)))
  | .U32Rem =>
    let (q, b) := b.reserve 2
    .ok (b.push (.U32StoreDivRemFpFp (ofI32 s0) (ofI32 s1) (ofI32 q) (ofI32 d)))
  | .U32BitwiseAnd => .ok (b.push (.U32StoreAndFpFp (ofI32 s0) (ofI32 s1) (ofI32 d)))
  | .U32BitwiseOr => .ok (b.push (.U32StoreOrFpFp (ofI32 s0) (ofI32 s1) (ofI32 d)))
  | .U32BitwiseXor => .ok (b.push (.U32StoreXorFpFp (ofI32 s0) (ofI32 s1) (ofI32 d)))
  | _ => .error .unsupported

/-- `twos_complement_u32` (`u32_ops.rs:466-468`). -/
def twosComplement (n : BitVec 32) : BitVec 32 := ~~~n + 1

/-- `u32_fp_imm_op` (`u32_ops.rs:277-319`) with `u32_div_rem_fp_imm`, `u32_rem_fp_imm` (`:319-366`) and
`u32_sub_fp_imm` (`:445-470`). -/
def u32FpImm (b : Builder) (op : BinaryOp) (s : ℤ) (imm : BitVec 32) (d : ℤ) : Except Err Builder :=
  match op with
  | .U32Add => .ok (b.push (.U32StoreAddFpImm (ofI32 s) (splitLo imm) (splitHi imm) (ofI32 d)))
  | .U32Sub =>
    .ok (b.push (.U32StoreAddFpImm (ofI32 s) (splitLo (twosComplement imm)) (splitHi (twosComplement imm))
      (ofI32 d)))
  | .U32Mul => .ok (b.push (.U32StoreMulFpImm (ofI32 s) (splitLo imm) (splitHi imm) (ofI32 d)))
  | .U32Div =>
    let (rem, b) := b.reserve 2
    .ok (b.push (.U32StoreDivRemFpImm (ofI32 s) (splitLo imm) (splitHi imm) (ofI32 d) (ofI32 rem)))
  | .U32Rem =>
    let (q, b) := b.reserve 2
    .ok (b.push (.U32StoreDivRemFpImm (ofI32 s) (splitLo imm) (splitHi imm) (ofI32 q) (ofI32 d)))
  | .U32Eq => .ok (b.push (.U32StoreEqFpImm (ofI32 s) (splitLo imm) (splitHi imm) (ofI32 d)))
  | .U32Less => .ok (b.push (.U32StoreLtFpImm (ofI32 s) (splitLo imm) (splitHi imm) (ofI32 d)))
  | .U32BitwiseAnd => .ok (b.push (.U32StoreAndFpImm (ofI32 s) (splitLo imm) (splitHi imm) (ofI32 d)))
  | .U32BitwiseOr => .ok (b.push (.U32StoreOrFpImm (ofI32 s) (splitLo imm) (splitHi imm) (ofI32 d)))
  | .U32BitwiseXor => .ok (b.push (.U32StoreXorFpImm (ofI32 s) (splitLo imm) (splitHi imm) (ofI32 d)))
  | _ => .error .unsupported

/-- The literal-literal case of `u32_op` (`u32_ops.rs:73-210`). -/
def u32Const (b : Builder) (op : BinaryOp) (d : ℤ) (l r : BitVec 32) : Except Err Builder :=
  match op with
  | .U32Eq => .ok (b.storeImm (boolWord (l == r)) d)
  | .U32Less => .ok (b.storeImm (boolWord (l.ult r)) d)
  | .U32Add => .ok (b.storeU32Imm (l + r) d)
  | .U32Sub => .ok (b.storeU32Imm (l - r) d)
  | .U32Mul => .ok (b.storeU32Imm (l * r) d)
  | .U32Div =>
    if r = 0 then .error .invalidMir
    else
      let b := b.storeU32Imm (l / r) d
      let (rem, b) := b.reserve 2
      .ok (b.storeU32Imm (l % r) rem)
  | .U32Rem => if r = 0 then .error .invalidMir else .ok (b.storeU32Imm (l % r) d)
  | .U32BitwiseAnd => .ok (b.storeU32Imm (l &&& r) d)
  | .U32BitwiseOr => .ok (b.storeU32Imm (l ||| r) d)
  | .U32BitwiseXor => .ok (b.storeU32Imm (l ^^^ r) d)
  | _ => .error .unsupported

/-- `u32_op` (`u32_ops.rs:73-210`) with `check_op` (`:54-67`). -/
def u32Op (b : Builder) (op : BinaryOp) (d : ℤ) (l r : Value) : Except Err Builder :=
  if op = .U32Neq ∨ op = .U32Greater ∨ op = .U32GreaterEqual ∨ op = .U32LessEqual then .error .unsupported
  else
    match canonU32 op l r with
    | (.Operand x, .Operand y) => do
      let lo ← b.layout.getOffset x
      let ro ← b.layout.getOffset y
      b.u32FpFp op lo ro d
    | (.Operand x, .Literal (.Integer imm)) => do
      let lo ← b.layout.getOffset x
      if (op = .U32Div ∨ op = .U32Rem) ∧ imm = 0 then .error .invalidMir
      else b.u32FpImm op lo imm d
    | (.Literal (.Integer imm), .Operand y) => do
      let ro ← b.layout.getOffset y
      if commU32 op then b.u32FpImm op ro imm d
      else if op = .U32Sub ∨ op = .U32Div ∨ op = .U32Rem ∨ op = .U32Less then
        let (tmp, b) := b.reserve 2
        let b := b.storeU32Imm imm tmp
        b.u32FpFp op tmp ro d
      else .error .unsupported
    | (.Literal (.Integer x), .Literal (.Integer y)) => b.u32Const op d x y
    | _ => .error .unsupported

/-! ### Assertions (`builder/asserts.rs`) -/

/-- `assert_eq_fp_imm` (`asserts.rs:7-14`). -/
def assertEqImm (b : Builder) (src imm : ℤ) : Builder := b.push (.AssertEqFpImm (ofI32 src) (ofI32 imm))

/-! ### Instructions (`builder.rs`) -/

/-- `compute_into_offset` (`builder.rs:288-323`), also the dispatch of `binary_op` (`:231-284`). -/
def computeInto (b : Builder) (op : BinaryOp) (d : ℤ) (l r : Value) : Except Err Builder :=
  match op with
  | .Add | .Sub | .Mul | .Div => b.feltArith op d l r
  | .Eq => b.feltEq d l r
  | .Neq => b.feltNeq d l r
  | .And => b.scAnd d l r
  | .Or => b.scOr d l r
  | .Less | .Greater | .LessEqual | .GreaterEqual => .error .unsupported
  | _ => b.u32Op op d l r

/-- Choice of the destination slot: the requested slot, to which the value is then mapped, or its slot in
the layout (`builder.rs:204-211, 238-245`). -/
def destOffset (b : Builder) (dest : ValueId) (target : Option ℤ) : Except Err (ℤ × Builder) :=
  match target with
  | some off => .ok (off, b.mapValue dest off)
  | none =>
    match b.layout.getOffset dest with
    | .error e => .error e
    | .ok off => .ok (off, b)

/-- `binary_op` (`builder.rs:235-284`). -/
def binaryOp (b : Builder) (op : BinaryOp) (dest : ValueId) (l r : Value) (target : Option ℤ) :
    Except Err Builder := do
  let (d, b) ← b.destOffset dest target
  b.computeInto op d l r

/-- `unary_op` (`builder.rs:197-229`). -/
def unaryOp (b : Builder) (op : UnaryOp) (dest : ValueId) (src : Value) (target : Option ℤ) :
    Except Err Builder := do
  let (d, b) ← b.destOffset dest target
  match op with
  | .Neg => b.feltArith .Sub d (.Literal (.Integer 0)) src
  | .Not => b.scNot d src

/-- The part of `assign` that emits code (`builder.rs:130-189`). -/
def assignTo (b : Builder) (d : ℤ) (src : Value) (ty : MirType) : Except Err Builder :=
  match src with
  | .Literal (.Integer imm) =>
    if ty.memSize = 1 then .ok (b.storeImm imm d)
    else if ty.memSize = 2 ∧ ty.isU32 then .ok (b.storeU32Imm imm d)
    else .error .unsupported
  | .Literal (.Boolean x) => if ty.memSize ≠ 1 then .error .unsupported else .ok (b.storeImm (boolWord x) d)
  | .Operand id =>
    match b.layout.getOffset id with
    | .error e => .error e
    | .ok s =>
      if ty.memSize = 1 then .ok (b.copySingle s d)
      else if ty.isU32 then .ok (b.copyU32 s d)
      else .ok (b.copySlots s d ty.memSize)
  | _ => .error .unsupported

/-- `assign` (`builder.rs:99-194`). -/
def assign (b : Builder) (dest : ValueId) (src : Value) (ty : MirType) (target : Option ℤ) :
    Except Err Builder :=
  match target with
  | some off => (b.mapValue dest off).assignTo off src ty
  | none => (b.allocateLocal dest ty.memSize).2.assignTo (b.allocateLocal dest ty.memSize).1 src ty

/-- The u32-to-felt sequence of `generate_cast` for a source in memory (`builder.rs:404-474`). -/
def castSeq (b : Builder) (d s : ℤ) : Builder :=
  let (t1, b) := b.reserve 1
  let b := b.feltLeImm (s + 1) 32766 t1
  let (ok, b) := b.newLabel sCastOk
  let b := b.jnzOffset t1 ok
  let (t2, b) := b.reserve 1
  let b := b.feltLeImm (s + 1) 32767 t2
  let (t3, b) := b.reserve 1
  let b := b.push (.StoreSubFpFp (ofI32 t2) (ofI32 t1) (ofI32 t3))
  let (t4, b) := b.reserve 1
  let b := b.feltLeImm s 65534 t4
  let (t5, b) := b.reserve 1
  let b := b.push (.StoreMulFpFp (ofI32 t3) (ofI32 t4) (ofI32 t5))
  let b := b.assertEqImm t5 1
  let b := b.addLabel ok
  let (t6, b) := b.reserve 1
  let b := b.feltMulImm (s + 1) 65536 t6
  b.push (.StoreAddFpFp (ofI32 s) (ofI32 t6) (ofI32 d))

/-- `generate_cast` (`builder.rs:358-480`). -/
def cast (b : Builder) (dest : ValueId) (src : Value) (st tt : MirType) : Except Err Builder :=
  match st, tt with
  | .U32, .Felt =>
    let (d, b) := b.allocateLocal dest 1
    match src with
    | .Operand id =>
      match b.layout.getOffset id with
      | .error e => .error e
      | .ok s => .ok (b.castSeq d s)
    | .Literal (.Integer imm) =>
      if (toM31 imm).val = imm.toNat then .ok (b.storeImm imm d) else .error .invalidMir
    | _ => .error .invalidMir
  | _, _ => .error .unsupported

/-! ### Aggregates (`builder/aggregates.rs`) -/

/-- The loop of `make_struct` (`aggregates.rs:8-42`). -/
def makeFields (ty : MirType) (base : ℤ) : List (Name × Value) → Builder → Except Err Builder
  | [], b => .ok b
  | (n, v) :: fs, b =>
    match ty.fieldOffset n, ty.fieldType n with
    | some off, some t => do
      let b ← b.copyValueTo v (base + off) t.memSize
      makeFields ty base fs b
    | _, _ => .error .invalidMir

/-- `make_struct` (`aggregates.rs:8-42`). -/
def makeStruct (b : Builder) (dest : ValueId) (fields : List (Name × Value)) (ty : MirType) :
    Except Err Builder :=
  makeFields ty (b.allocateLocal dest ty.memSize).1 fields (b.allocateLocal dest ty.memSize).2

/-- `extract_struct_field` (`aggregates.rs:45-95`): the result is mapped onto the slots of the field. -/
def extractField (b : Builder) (types : ValueId → Option MirType) (dest : ValueId) (v : Value) (n : Name)
    (ty : MirType) : Except Err Builder :=
  match v with
  | .Operand id => do
    let base ← b.layout.getOffset id
    match types id with
    | none => .error .invalidMir
    | some sty =>
      match sty.fieldOffset n with
      | none => .error .invalidMir
      | some off => .ok (b.insertSlot dest (Slot.of (base + off) ty.memSize))
  | _ => .error .invalidMir

/-- `insert_struct_field` (`aggregates.rs:98-154`): the field is overwritten in place and the result mapped
onto the slots of the source. -/
def insertField (b : Builder) (dest : ValueId) (v : Value) (n : Name) (new : Value) (ty : MirType) :
    Except Err Builder :=
  match v with
  | .Operand id => do
    let base ← b.layout.getOffset id
    match ty.fieldOffset n, ty.fieldType n with
    | some off, some t => do
      let b ← b.copyValueTo new (base + off) t.memSize
      pure (b.insertSlot dest (Slot.of base ty.memSize))
    | _, _ => .error .invalidMir
  | _ => .error .invalidMir

/-- Size of an element of a tuple being built (`aggregates.rs:178-203`). -/
def elementSize (b : Builder) (types : ValueId → Option MirType) (dest : ValueId) (i : ℕ) (v : Value) : ℕ :=
  match v with
  | .Operand id =>
    match types id with
    | some t => t.memSize
    | none => b.layout.valueSize id
  | .Literal _ =>
    match types dest with
    | some (.Tuple ts) =>
      match ts[i]? with
      | some t => t.memSize
      | none => 1
    | _ => 1
  | .Error => 1

/-- Sizes of the elements, in order. -/
def elementSizes (b : Builder) (types : ValueId → Option MirType) (dest : ValueId) : ℕ → List Value → List ℕ
  | _, [] => []
  | i, v :: vs => b.elementSize types dest i v :: elementSizes b types dest (i + 1) vs

/-- The copying loop of `make_tuple` (`aggregates.rs:156-218`). -/
def copyElements : List (Value × ℕ) → ℤ → Builder → Except Err Builder
  | [], _, b => .ok b
  | (v, n) :: vs, off, b => do
    let b ← b.copyValueTo v off n
    copyElements vs (off + n) b

/-- `make_tuple` (`aggregates.rs:156-218`). -/
def makeTuple (b : Builder) (types : ValueId → Option MirType) (dest : ValueId) (vs : List Value) :
    Except Err Builder :=
  let sizes := b.elementSizes types dest 0 vs
  copyElements (vs.zip sizes) (b.allocateLocal dest sizes.sum).1 (b.allocateLocal dest sizes.sum).2

/-- `extract_tuple_element` (`aggregates.rs:221-271`). -/
def extractTuple (b : Builder) (types : ValueId → Option MirType) (dest : ValueId) (v : Value) (i : ℕ)
    (ty : MirType) : Except Err Builder :=
  match v with
  | .Operand id => do
    let base ← b.layout.getOffset id
    match types id with
    | none => .error .invalidMir
    | some tty =>
      match tty.tupleOffset i with
      | none => .error .invalidMir
      | some off => .ok (b.insertSlot dest (Slot.of (base + off) ty.memSize))
  | _ => .error .invalidMir

/-- `insert_tuple_element` (`aggregates.rs:274-330`). -/
def insertTuple (b : Builder) (dest : ValueId) (v : Value) (i : ℕ) (new : Value) (ty : MirType) :
    Except Err Builder :=
  match v with
  | .Operand id => do
    let base ← b.layout.getOffset id
    match ty.tupleOffset i, ty.tupleElementType i with
    | some off, some t => do
      let b ← b.copyValueTo new (base + off) t.memSize
      pure (b.insertSlot dest (Slot.of base ty.memSize))
    | _, _ => .error .invalidMir
  | _ => .error .invalidMir

/-- The copying loop of `make_fixed_array` (`aggregates.rs:334-372`): zero literals are not written. -/
def arrayElements (size : ℕ) : List Value → ℤ → Builder → Except Err Builder
  | [], _, b => .ok b
  | v :: vs, off, b =>
    if v = .Literal (.Integer 0) then arrayElements size vs (off + size) b
    else do
      let b ← b.copyValueTo v off size
      arrayElements size vs (off + size) b

/-- `make_fixed_array` (`aggregates.rs:334-372`). Reserving zero slots returns the current top, so the case
of an empty array needs no special treatment. -/
def makeArray (b : Builder) (dest : ValueId) (vs : List Value) (ty : MirType) : Except Err Builder := do
  let (base, b) := b.reserve (ty.valSize * vs.length)
  let b ← arrayElements ty.valSize vs base b
  let (d, b) := b.allocateLocal dest 1
  pure (b.storeFpPlus base d)

/-! ### Calls (`builder/calls.rs`) -/

/-- Sum of memory sizes. -/
def sizeSum (ts : List MirType) : ℕ := (ts.map MirType.memSize).sum

/-- All arguments are operands lying one after the other from `off` (`calls.rs:146-160`). -/
def contiguousFrom (l : Layout) : List (Value × MirType) → ℤ → Bool
  | [], _ => true
  | (.Operand id, t) :: as, off => l.isContiguous id off t.memSize && contiguousFrom l as (off + t.memSize)
  | _ :: _, _ => false

/-- The argument-in-place test (`calls.rs:138-179`): the offset of the arguments if they can stay. -/
def inPlace (b : Builder) (args : List Value) (sig : Signature) : Option ℤ :=
  match args with
  | .Operand id :: _ =>
    match b.layout.values id with
    | none => none
    | some s =>
      let last := s.off + sizeSum sig.params
      if contiguousFrom b.layout (args.zip sig.params) s.off = true ∧
          (last = b.layout.frame ∨ (b.maxWritten ≥ 0 ∧ last = b.maxWritten + 1)) then some s.off
      else none
  | _ => none

/-- The copying loop of `pass_arguments` (`calls.rs:124-228`). -/
def copyArgs : List (Value × MirType) → ℤ → Builder → Except Err Builder
  | [], _, b => .ok b
  | (v, t) :: as, off, b =>
    match v with
    | .Literal (.Integer imm) =>
      match t with
      | .Bool | .Felt => copyArgs as (off + t.memSize) (b.storeImm imm off)
      | .U32 => copyArgs as (off + t.memSize) (b.storeU32Imm imm off)
      | _ => .error .unsupported
    | .Operand id =>
      match b.layout.getOffset id with
      | .error e => .error e
      | .ok s =>
        if s = off ∧ b.layout.isContiguous id off t.memSize then copyArgs as (off + t.memSize) b
        else copyArgs as (off + t.memSize) (b.copySlots s off t.memSize)
    | _ => .error .unsupported

/-- `pass_arguments` (`calls.rs:124-228`). -/
def passArgs (b : Builder) (args : List Value) (sig : Signature) : Except Err (ℤ × Builder) :=
  if args.length ≠ sig.params.length then .error .invalidMir
  else
    match b.inPlace args sig with
    | some off => .ok (off, b)
    | none =>
      match copyArgs (args.zip sig.params) b.layout.frame b with
      | .error e => .error e
      | .ok b' => .ok (b.layout.frame, b')

/-- Mapping of the results of a call onto the return slots (`calls.rs:43-49`). -/
def mapResults : List ValueId → List MirType → ℤ → Builder → Builder
  | [], _, _, b => b
  | v :: vs, [], off, b => mapResults vs [] off (b.mapValue v off)
  | v :: vs, t :: ts, off, b => mapResults vs ts (off + t.memSize) (b.mapValue v off)

/-- `lower_call` (`calls.rs:12-71`). -/
def lowerCall (b : Builder) (callee : Name) (args : List Value) (sig : Signature) (dests : List ValueId) :
    Except Err Builder := do
  let (off, b) ← b.passArgs args sig
  let m := sizeSum sig.params
  let k := sizeSum sig.returns
  if dests.isEmpty then
    if sig.returns.isEmpty then pure (b.pushL (.CallAbsImm (ofI32 (off + m)) 0) callee)
    else throw .invalidMir
  else
    let b := mapResults dests sig.returns (off + m) b
    let b := (b.reserve k).2
    let b := { b with maxWritten := max b.maxWritten (off + m + k - 1) }
    pure (b.pushL (.CallAbsImm (ofI32 (off + m + k)) 0) callee)

/-- The loop of `return_values` (`calls.rs:231-342`). -/
def returnLoop : List Value → List MirType → ℤ → Builder → Except Err Builder
  | [], _, _, b => .ok b
  | _ :: _, [], _, _ => .error .panic
  | v :: vs, t :: ts, off, b =>
    match v with
    | .Operand id =>
      match b.layout.values id with
      | none =>
        -- `unwrap_or(0)`: with no layout the copy fails, unless the slot happens to be `0`
        if off = 0 then returnLoop vs ts (off + 1) b else .error .layout
      | some s =>
        if s.off = off then returnLoop vs ts (off + s.size) b
        else returnLoop vs ts (off + s.size) (b.copySlots s.off off s.size)
    | .Literal (.Integer imm) =>
      if t.isU32 then returnLoop vs ts (off + 2) (b.storeU32Imm imm off)
      else returnLoop vs ts (off + 1) (b.storeImm imm off)
    | .Literal (.Boolean x) =>
      if t.isU32 then returnLoop vs ts (off + 2) (b.storeU32Imm (boolWord x) off)
      else returnLoop vs ts (off + 1) (b.storeImm (boolWord x) off)
    | _ => .error .unsupported

/-- `return_values` (`calls.rs:231-342`). -/
def returnValues (b : Builder) (vs : List Value) (ts : List MirType) : Except Err Builder := do
  let b ← returnLoop vs ts (-(b.layout.retSlots + 2)) b
  pure (b.push .Ret)

end Builder
end Codegen
end CairoM
