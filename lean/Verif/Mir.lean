import Verif.MirOps

/-!
# The mid-level representation: types, instructions, functions

Data types of `crates/compiler/mir/src/` used by the passes and by the code generator. Source spans, comments
and the SSA construction state are left out. Names (functions, fields, labels) are lists of characters.
-/

namespace CairoM
namespace Mir

/-- Identifiers and labels (`String` in the Rust code). -/
abbrev Name := List Char

/-- `BasicBlockId`, an index (`mir/src/lib.rs`, `index_vec` newtype). -/
abbrev BlockId := ℕ

/-- `MirType` (`mir/src/mir_types.rs:17-72`). -/
inductive MirType where
  | Felt
  | Bool
  | U32
  | Tuple (types : List MirType)
  | Struct (name : Name) (fields : List (Name × MirType))
  | FixedArray (element : MirType) (size : ℕ)
  | Pointer (element : MirType)
  | Function (params : List MirType) (ret : MirType)
  | Unit
  | Error
  | Unknown

namespace MirType

mutual
/-- `DataLayout::memory_size_of` (`mir/src/layout.rs:63-77`). -/
def memSize : MirType → ℕ
  | .Felt | .Bool => 1
  | .U32 => 2
  | .Tuple ts => memSizes ts
  | .Struct _ fs => memSizeFields fs
  | .FixedArray _ _ => 1
  | .Pointer _ => 1
  | .Unit => 0
  | .Function _ _ => 1
  | .Error | .Unknown => 1
/-- Sum of the memory sizes of the elements of a tuple. -/
def memSizes : List MirType → ℕ
  | [] => 0
  | t :: ts => memSize t + memSizes ts
/-- Sum of the memory sizes of the fields of a struct. -/
def memSizeFields : List (Name × MirType) → ℕ
  | [] => 0
  | (_, t) :: fs => memSize t + memSizeFields fs
end

mutual
/-- `DataLayout::value_size_of` (`mir/src/layout.rs:33-57`). -/
def valSize : MirType → ℕ
  | .Felt | .Bool => 1
  | .U32 => 2
  | .Tuple ts => valSizes ts
  | .Struct _ fs => valSizeFields fs
  | .FixedArray t n => valSize t * n
  | .Pointer _ => 1
  | .Function _ _ => 1
  | .Unit => 0
  | .Error | .Unknown => 1
/-- Sum over the elements of a tuple. -/
def valSizes : List MirType → ℕ
  | [] => 0
  | t :: ts => valSize t + valSizes ts
/-- Sum over the fields of a struct. -/
def valSizeFields : List (Name × MirType) → ℕ
  | [] => 0
  | (_, t) :: fs => valSize t + valSizeFields fs
end

/-- The loop of `DataLayout::field_offset` (`mir/src/layout.rs:83-98`). -/
def fieldOffsetFrom : List (Name × MirType) → Name → ℕ → Option ℕ
  | [], _, _ => none
  | (n, t) :: fs, name, off => if n = name then some off else fieldOffsetFrom fs name (off + memSize t)

/-- `DataLayout::field_offset` (`mir/src/layout.rs:83-98`). -/
def fieldOffset : MirType → Name → Option ℕ
  | .Struct _ fs, name => fieldOffsetFrom fs name 0
  | _, _ => none

/-- `DataLayout::tuple_offset` (`mir/src/layout.rs:104-121`). -/
def tupleOffset : MirType → ℕ → Option ℕ
  | .Tuple ts, i => if i ≥ ts.length then none else some (memSizes (ts.take i))
  | _, _ => none

/-- First field with the given name (`mir/src/mir_types.rs:163-171`). -/
def lookupField : List (Name × MirType) → Name → Option MirType
  | [], _ => none
  | (n, t) :: fs, name => if n = name then some t else lookupField fs name

/-- `MirType::field_type` (`mir/src/mir_types.rs:163-171`). -/
def fieldType : MirType → Name → Option MirType
  | .Struct _ fs, name => lookupField fs name
  | _, _ => none

/-- `MirType::tuple_element_type` (`mir/src/mir_types.rs:175-180`). -/
def tupleElementType : MirType → ℕ → Option MirType
  | .Tuple ts, i => ts[i]?
  | _, _ => none

/-- `matches!(ty, MirType::U32)`. -/
def isU32 : MirType → _root_.Bool
  | .U32 => true
  | _ => false

/-- `matches!(ty, MirType::Felt)`. -/
def isFelt : MirType → _root_.Bool
  | .Felt => true
  | _ => false

/-- `matches!(ty, MirType::Felt | MirType::Bool | MirType::U32)` (`codegen/src/generator.rs:455-456`). -/
def isScalar : MirType → _root_.Bool
  | .Felt | .Bool | .U32 => true
  | _ => false

end MirType

/-- `Projection` (`mir/src/value.rs:226-233`). -/
inductive Projection where
  | Index (v : Value)
  | Field (name : Name)
  | Tuple (i : ℕ)
deriving DecidableEq

/-- `Place` (`mir/src/value.rs:239-246`). -/
structure Place where
  base : ValueId
  projections : List Projection
deriving DecidableEq

/-- `CalleeSignature` (`mir/src/instruction.rs`). -/
structure Signature where
  params : List MirType
  returns : List MirType

/-- `InstructionKind` (`mir/src/instruction.rs`, `enum InstructionKind`). -/
inductive Instr where
  | Assign (dest : ValueId) (source : Value) (ty : MirType)
  | UnaryOp (op : Mir.UnaryOp) (dest : ValueId) (source : Value)
  | BinaryOp (op : Mir.BinaryOp) (dest : ValueId) (left right : Value)
  | Call (dests : List ValueId) (callee : ℕ) (args : List Value) (sig : Signature)
  | Cast (dest : ValueId) (source : Value) (sourceTy targetTy : MirType)
  | Load (dest : ValueId) (place : Place) (ty : MirType)
  | Store (place : Place) (value : Value) (ty : MirType)
  | Debug (values : List Value)
  | Nop
  | Phi (dest : ValueId) (ty : MirType) (sources : List (BlockId × Value))
  | MakeTuple (dest : ValueId) (elements : List Value)
  | ExtractTupleElement (dest : ValueId) (tuple : Value) (index : ℕ) (ty : MirType)
  | MakeStruct (dest : ValueId) (fields : List (Name × Value)) (ty : MirType)
  | ExtractStructField (dest : ValueId) (struct : Value) (field : Name) (ty : MirType)
  | InsertField (dest : ValueId) (struct : Value) (field : Name) (value : Value) (ty : MirType)
  | InsertTuple (dest : ValueId) (tuple : Value) (index : ℕ) (value : Value) (ty : MirType)
  | MakeFixedArray (dest : ValueId) (elements : List Value) (ty : MirType) (isConst : Bool)
  | AssertEq (left right : Value)
  | HeapAllocCells (dest : ValueId) (cells : Value)

/-- `Instruction::destinations` (`mir/src/instruction.rs:675-699`). -/
def Instr.destinations : Instr → List ValueId
  | .Assign d .. | .UnaryOp _ d .. | .BinaryOp _ d .. | .Cast d .. | .Load d .. | .Phi d .. | .MakeTuple d ..
  | .ExtractTupleElement d .. | .MakeStruct d .. | .ExtractStructField d .. | .InsertField d ..
  | .InsertTuple d .. | .MakeFixedArray d .. | .HeapAllocCells d .. => [d]
  | .Call ds .. => ds
  | .Debug .. | .Nop | .Store .. | .AssertEq .. => []

/-- `Terminator` (`mir/src/terminator.rs`). -/
inductive Terminator where
  | Jump (target : BlockId)
  | If (cond : Value) (thenTarget elseTarget : BlockId)
  | BranchCmp (op : BinaryOp) (left right : Value) (thenTarget elseTarget : BlockId)
  | Return (values : List Value)
  | Unreachable
deriving DecidableEq

/-- `BasicBlock` (`mir/src/basic_block.rs`), without the bookkeeping of the SSA construction. -/
structure Block where
  instrs : List Instr
  term : Terminator

/-- `MirFunction` (`mir/src/function.rs`); block `0` is the entry block. -/
structure Function where
  name : Name
  blocks : List Block
  params : List ValueId
  returns : List ValueId
  nextValue : ValueId
  types : ValueId → Option MirType

/-- `MirModule` (`mir/src/module.rs`): the functions in the order of their identifiers. -/
abbrev Module := List Function

end Mir
end CairoM
