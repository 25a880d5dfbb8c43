import Verif.M31

/-!
# Instruction set and its encodings

Model of `crates/common/src/instruction.rs`. The Rust `instructions!` macro (lines 98-232) generates the
enum, `opcode_value`, `size_in_m31s`, `memory_accesses`, `to_smallvec` and `TryFrom`; here each generated
function is written out. The rows come from the table at lines 314-577.
-/

namespace CairoM

/-- `OperandType`/`DataType` (`crates/common/src/instruction.rs:26-35` and `DataType` at lines 7-12). -/
inductive OperandType where
  | imm
  | memFelt
  | memU32
deriving DecidableEq, Repr

/-- `__mem_accesses_for_kind!` (`crates/common/src/instruction.rs:38-53`). -/
def OperandType.memAccesses : OperandType → ℕ
  | .imm => 0
  | .memFelt => 1
  | .memU32 => 2

/-- `InstructionError` (`crates/common/src/instruction.rs:14-24`), the variants produced by decoding. -/
inductive InstrError where
  | sizeMismatch (expected found : ℕ)
  | invalidOpcode (op : M31)
deriving DecidableEq, Repr

/-- `enum Instruction` (`crates/common/src/instruction.rs:107-111`, rows 314-577). -/
inductive Instruction where
  /-- row at line 317 -/
  | StoreAddFpFp (src0Off : M31) (src1Off : M31) (dstOff : M31)
  /-- row at line 323 -/
  | StoreSubFpFp (src0Off : M31) (src1Off : M31) (dstOff : M31)
  /-- row at line 329 -/
  | StoreMulFpFp (src0Off : M31) (src1Off : M31) (dstOff : M31)
  /-- row at line 335 -/
  | StoreDivFpFp (src0Off : M31) (src1Off : M31) (dstOff : M31)
  /-- row at line 343 -/
  | StoreAddFpImm (srcOff : M31) (imm : M31) (dstOff : M31)
  /-- row at line 349 -/
  | StoreMulFpImm (srcOff : M31) (imm : M31) (dstOff : M31)
  /-- row at line 357 -/
  | StoreLeFpImm (srcOff : M31) (imm : M31) (dstOff : M31)
  /-- row at line 364 -/
  | AssertEqFpImm (srcOff : M31) (imm : M31)
  /-- row at line 371 -/
  | StoreDoubleDerefFp (baseOff : M31) (imm : M31) (dstOff : M31)
  /-- row at line 379 -/
  | StoreDoubleDerefFpFp (baseOff : M31) (offsetOff : M31) (dstOff : M31)
  /-- row at line 387 -/
  | StoreImm (imm : M31) (dstOff : M31)
  /-- row at line 392 -/
  | StoreFramePointer (imm : M31) (dstOff : M31)
  /-- row at line 400 -/
  | CallAbsImm (frameOff : M31) (target : M31)
  /-- row at line 411 -/
  | Ret
  /-- row at line 418 -/
  | JmpAbsImm (target : M31)
  /-- row at line 420 -/
  | JmpRelImm (offset : M31)
  /-- row at line 424 -/
  | JnzFpImm (condOff : M31) (offset : M31)
  /-- row at line 431 -/
  | U32StoreAddFpFp (src0Off : M31) (src1Off : M31) (dstOff : M31)
  /-- row at line 437 -/
  | U32StoreSubFpFp (src0Off : M31) (src1Off : M31) (dstOff : M31)
  /-- row at line 443 -/
  | U32StoreMulFpFp (src0Off : M31) (src1Off : M31) (dstOff : M31)
  /-- row at line 449 -/
  | U32StoreDivRemFpFp (src0Off : M31) (src1Off : M31) (dstOff : M31) (dstRemOff : M31)
  /-- row at line 458 -/
  | U32StoreAddFpImm (srcOff : M31) (immLo : M31) (immHi : M31) (dstOff : M31)
  /-- row at line 465 -/
  | U32StoreMulFpImm (srcOff : M31) (immLo : M31) (immHi : M31) (dstOff : M31)
  /-- row at line 472 -/
  | U32StoreDivRemFpImm (srcOff : M31) (immLo : M31) (immHi : M31) (dstOff : M31) (dstRemOff : M31)
  /-- row at line 482 -/
  | U32StoreImm (immLo : M31) (immHi : M31) (dstOff : M31)
  /-- row at line 490 -/
  | U32StoreEqFpFp (src0Off : M31) (src1Off : M31) (dstOff : M31)
  /-- row at line 496 -/
  | U32StoreLtFpFp (src0Off : M31) (src1Off : M31) (dstOff : M31)
  /-- row at line 504 -/
  | U32StoreEqFpImm (srcOff : M31) (immLo : M31) (immHi : M31) (dstOff : M31)
  /-- row at line 511 -/
  | U32StoreLtFpImm (srcOff : M31) (immLo : M31) (immHi : M31) (dstOff : M31)
  /-- row at line 520 -/
  | U32StoreAndFpFp (src0Off : M31) (src1Off : M31) (dstOff : M31)
  /-- row at line 525 -/
  | U32StoreOrFpFp (src0Off : M31) (src1Off : M31) (dstOff : M31)
  /-- row at line 530 -/
  | U32StoreXorFpFp (src0Off : M31) (src1Off : M31) (dstOff : M31)
  /-- row at line 537 -/
  | U32StoreAndFpImm (srcOff : M31) (immLo : M31) (immHi : M31) (dstOff : M31)
  /-- row at line 543 -/
  | U32StoreOrFpImm (srcOff : M31) (immLo : M31) (immHi : M31) (dstOff : M31)
  /-- row at line 549 -/
  | U32StoreXorFpImm (srcOff : M31) (immLo : M31) (immHi : M31) (dstOff : M31)
  /-- row at line 558 -/
  | StoreToDoubleDerefFpImm (baseOff : M31) (imm : M31) (srcOff : M31)
  /-- row at line 566 -/
  | StoreToDoubleDerefFpFp (baseOff : M31) (offsetOff : M31) (srcOff : M31)
  /-- row at line 575 -/
  | PrintM31 (offset : M31)
  /-- row at line 576 -/
  | PrintU32 (offset : M31)
deriving DecidableEq, Repr

namespace Instruction

/-- `opcode_value` (`crates/common/src/instruction.rs:130-134`). -/
def opcodeValue : Instruction → ℕ
  | .StoreAddFpFp .. => 0
  | .StoreSubFpFp .. => 1
  | .StoreMulFpFp .. => 2
  | .StoreDivFpFp .. => 3
  | .StoreAddFpImm .. => 4
  | .StoreMulFpImm .. => 6
  | .StoreLeFpImm .. => 48
  | .AssertEqFpImm .. => 50
  | .StoreDoubleDerefFp .. => 8
  | .StoreDoubleDerefFpFp .. => 42
  | .StoreImm .. => 9
  | .StoreFramePointer .. => 43
  | .CallAbsImm .. => 10
  | .Ret .. => 11
  | .JmpAbsImm .. => 12
  | .JmpRelImm .. => 13
  | .JnzFpImm .. => 14
  | .U32StoreAddFpFp .. => 15
  | .U32StoreSubFpFp .. => 16
  | .U32StoreMulFpFp .. => 17
  | .U32StoreDivRemFpFp .. => 18
  | .U32StoreAddFpImm .. => 19
  | .U32StoreMulFpImm .. => 21
  | .U32StoreDivRemFpImm .. => 22
  | .U32StoreImm .. => 23
  | .U32StoreEqFpFp .. => 24
  | .U32StoreLtFpFp .. => 28
  | .U32StoreEqFpImm .. => 30
  | .U32StoreLtFpImm .. => 34
  | .U32StoreAndFpFp .. => 36
  | .U32StoreOrFpFp .. => 37
  | .U32StoreXorFpFp .. => 38
  | .U32StoreAndFpImm .. => 39
  | .U32StoreOrFpImm .. => 40
  | .U32StoreXorFpImm .. => 41
  | .StoreToDoubleDerefFpImm .. => 44
  | .StoreToDoubleDerefFpFp .. => 45
  | .PrintM31 .. => 46
  | .PrintU32 .. => 47

/-- The explicit operand fields in declaration order, as pushed by `to_smallvec`
(`crates/common/src/instruction.rs:176-182`). -/
def operands : Instruction → List M31
  | .StoreAddFpFp src0Off src1Off dstOff => [src0Off, src1Off, dstOff]
  | .StoreSubFpFp src0Off src1Off dstOff => [src0Off, src1Off, dstOff]
  | .StoreMulFpFp src0Off src1Off dstOff => [src0Off, src1Off, dstOff]
  | .StoreDivFpFp src0Off src1Off dstOff => [src0Off, src1Off, dstOff]
  | .StoreAddFpImm srcOff imm dstOff => [srcOff, imm, dstOff]
  | .StoreMulFpImm srcOff imm dstOff => [srcOff, imm, dstOff]
  | .StoreLeFpImm srcOff imm dstOff => [srcOff, imm, dstOff]
  | .AssertEqFpImm srcOff imm => [srcOff, imm]
  | .StoreDoubleDerefFp baseOff imm dstOff => [baseOff, imm, dstOff]
  | .StoreDoubleDerefFpFp baseOff offsetOff dstOff => [baseOff, offsetOff, dstOff]
  | .StoreImm imm dstOff => [imm, dstOff]
  | .StoreFramePointer imm dstOff => [imm, dstOff]
  | .CallAbsImm frameOff target => [frameOff, target]
  | .Ret => []
  | .JmpAbsImm target => [target]
  | .JmpRelImm offset => [offset]
  | .JnzFpImm condOff offset => [condOff, offset]
  | .U32StoreAddFpFp src0Off src1Off dstOff => [src0Off, src1Off, dstOff]
  | .U32StoreSubFpFp src0Off src1Off dstOff => [src0Off, src1Off, dstOff]
  | .U32StoreMulFpFp src0Off src1Off dstOff => [src0Off, src1Off, dstOff]
  | .U32StoreDivRemFpFp src0Off src1Off dstOff dstRemOff => [src0Off, src1Off, dstOff, dstRemOff]
  | .U32StoreAddFpImm srcOff immLo immHi dstOff => [srcOff, immLo, immHi, dstOff]
  | .U32StoreMulFpImm srcOff immLo immHi dstOff => [srcOff, immLo, immHi, dstOff]
  | .U32StoreDivRemFpImm srcOff immLo immHi dstOff dstRemOff => [srcOff, immLo, immHi, dstOff, dstRemOff]
  | .U32StoreImm immLo immHi dstOff => [immLo, immHi, dstOff]
  | .U32StoreEqFpFp src0Off src1Off dstOff => [src0Off, src1Off, dstOff]
  | .U32StoreLtFpFp src0Off src1Off dstOff => [src0Off, src1Off, dstOff]
  | .U32StoreEqFpImm srcOff immLo immHi dstOff => [srcOff, immLo, immHi, dstOff]
  | .U32StoreLtFpImm srcOff immLo immHi dstOff => [srcOff, immLo, immHi, dstOff]
  | .U32StoreAndFpFp src0Off src1Off dstOff => [src0Off, src1Off, dstOff]
  | .U32StoreOrFpFp src0Off src1Off dstOff => [src0Off, src1Off, dstOff]
  | .U32StoreXorFpFp src0Off src1Off dstOff => [src0Off, src1Off, dstOff]
  | .U32StoreAndFpImm srcOff immLo immHi dstOff => [srcOff, immLo, immHi, dstOff]
  | .U32StoreOrFpImm srcOff immLo immHi dstOff => [srcOff, immLo, immHi, dstOff]
  | .U32StoreXorFpImm srcOff immLo immHi dstOff => [srcOff, immLo, immHi, dstOff]
  | .StoreToDoubleDerefFpImm baseOff imm srcOff => [baseOff, imm, srcOff]
  | .StoreToDoubleDerefFpFp baseOff offsetOff srcOff => [baseOff, offsetOff, srcOff]
  | .PrintM31 offset => [offset]
  | .PrintU32 offset => [offset]

/-- The declared kinds of the explicit operands (table rows, lines 314-577). -/
def operandTypes : Instruction → List OperandType
  | .StoreAddFpFp .. => [.memFelt, .memFelt, .memFelt]
  | .StoreSubFpFp .. => [.memFelt, .memFelt, .memFelt]
  | .StoreMulFpFp .. => [.memFelt, .memFelt, .memFelt]
  | .StoreDivFpFp .. => [.memFelt, .memFelt, .memFelt]
  | .StoreAddFpImm .. => [.memFelt, .imm, .memFelt]
  | .StoreMulFpImm .. => [.memFelt, .imm, .memFelt]
  | .StoreLeFpImm .. => [.memFelt, .imm, .memFelt]
  | .AssertEqFpImm .. => [.memFelt, .imm]
  | .StoreDoubleDerefFp .. => [.memFelt, .imm, .memFelt]
  | .StoreDoubleDerefFpFp .. => [.memFelt, .memFelt, .memFelt]
  | .StoreImm .. => [.imm, .memFelt]
  | .StoreFramePointer .. => [.imm, .memFelt]
  | .CallAbsImm .. => [.imm, .imm]
  | .Ret .. => []
  | .JmpAbsImm .. => [.imm]
  | .JmpRelImm .. => [.imm]
  | .JnzFpImm .. => [.memFelt, .imm]
  | .U32StoreAddFpFp .. => [.memU32, .memU32, .memU32]
  | .U32StoreSubFpFp .. => [.memU32, .memU32, .memU32]
  | .U32StoreMulFpFp .. => [.memU32, .memU32, .memU32]
  | .U32StoreDivRemFpFp .. => [.memU32, .memU32, .memU32, .memU32]
  | .U32StoreAddFpImm .. => [.memU32, .imm, .imm, .memU32]
  | .U32StoreMulFpImm .. => [.memU32, .imm, .imm, .memU32]
  | .U32StoreDivRemFpImm .. => [.memU32, .imm, .imm, .memU32, .memU32]
  | .U32StoreImm .. => [.imm, .imm, .memU32]
  | .U32StoreEqFpFp .. => [.memU32, .memU32, .memFelt]
  | .U32StoreLtFpFp .. => [.memU32, .memU32, .memFelt]
  | .U32StoreEqFpImm .. => [.memU32, .imm, .imm, .memFelt]
  | .U32StoreLtFpImm .. => [.memU32, .imm, .imm, .memFelt]
  | .U32StoreAndFpFp .. => [.memU32, .memU32, .memU32]
  | .U32StoreOrFpFp .. => [.memU32, .memU32, .memU32]
  | .U32StoreXorFpFp .. => [.memU32, .memU32, .memU32]
  | .U32StoreAndFpImm .. => [.memU32, .imm, .imm, .memU32]
  | .U32StoreOrFpImm .. => [.memU32, .imm, .imm, .memU32]
  | .U32StoreXorFpImm .. => [.memU32, .imm, .imm, .memU32]
  | .StoreToDoubleDerefFpImm .. => [.memFelt, .imm, .memFelt]
  | .StoreToDoubleDerefFpFp .. => [.memFelt, .memFelt, .memFelt]
  | .PrintM31 .. => [.memFelt]
  | .PrintU32 .. => [.memU32]

/-- The declared `implicit_operands` (table rows, lines 314-577). -/
def implicitOperands : Instruction → List OperandType
  | .StoreDoubleDerefFp .. => [.memFelt]
  | .StoreDoubleDerefFpFp .. => [.memFelt]
  | .CallAbsImm .. => [.memFelt, .memFelt]
  | .Ret .. => [.memFelt, .memFelt]
  | .StoreToDoubleDerefFpImm .. => [.memFelt]
  | .StoreToDoubleDerefFpFp .. => [.memFelt]
  | _ => []

/-- `to_smallvec` (`crates/common/src/instruction.rs:176-182`): opcode followed by the operands. -/
def encode (i : Instruction) : List M31 := M31.ofU32 i.opcodeValue :: i.operands

/-- `size_in_m31s` (`crates/common/src/instruction.rs:137-141`): `1 + #fields`, per variant. -/
def sizeInM31s : Instruction → ℕ
  | .StoreAddFpFp .. => 1 + 1 + 1 + 1
  | .StoreSubFpFp .. => 1 + 1 + 1 + 1
  | .StoreMulFpFp .. => 1 + 1 + 1 + 1
  | .StoreDivFpFp .. => 1 + 1 + 1 + 1
  | .StoreAddFpImm .. => 1 + 1 + 1 + 1
  | .StoreMulFpImm .. => 1 + 1 + 1 + 1
  | .StoreLeFpImm .. => 1 + 1 + 1 + 1
  | .AssertEqFpImm .. => 1 + 1 + 1
  | .StoreDoubleDerefFp .. => 1 + 1 + 1 + 1
  | .StoreDoubleDerefFpFp .. => 1 + 1 + 1 + 1
  | .StoreImm .. => 1 + 1 + 1
  | .StoreFramePointer .. => 1 + 1 + 1
  | .CallAbsImm .. => 1 + 1 + 1
  | .Ret .. => 1
  | .JmpAbsImm .. => 1 + 1
  | .JmpRelImm .. => 1 + 1
  | .JnzFpImm .. => 1 + 1 + 1
  | .U32StoreAddFpFp .. => 1 + 1 + 1 + 1
  | .U32StoreSubFpFp .. => 1 + 1 + 1 + 1
  | .U32StoreMulFpFp .. => 1 + 1 + 1 + 1
  | .U32StoreDivRemFpFp .. => 1 + 1 + 1 + 1 + 1
  | .U32StoreAddFpImm .. => 1 + 1 + 1 + 1 + 1
  | .U32StoreMulFpImm .. => 1 + 1 + 1 + 1 + 1
  | .U32StoreDivRemFpImm .. => 1 + 1 + 1 + 1 + 1 + 1
  | .U32StoreImm .. => 1 + 1 + 1 + 1
  | .U32StoreEqFpFp .. => 1 + 1 + 1 + 1
  | .U32StoreLtFpFp .. => 1 + 1 + 1 + 1
  | .U32StoreEqFpImm .. => 1 + 1 + 1 + 1 + 1
  | .U32StoreLtFpImm .. => 1 + 1 + 1 + 1 + 1
  | .U32StoreAndFpFp .. => 1 + 1 + 1 + 1
  | .U32StoreOrFpFp .. => 1 + 1 + 1 + 1
  | .U32StoreXorFpFp .. => 1 + 1 + 1 + 1
  | .U32StoreAndFpImm .. => 1 + 1 + 1 + 1 + 1
  | .U32StoreOrFpImm .. => 1 + 1 + 1 + 1 + 1
  | .U32StoreXorFpImm .. => 1 + 1 + 1 + 1 + 1
  | .StoreToDoubleDerefFpImm .. => 1 + 1 + 1 + 1
  | .StoreToDoubleDerefFpFp .. => 1 + 1 + 1 + 1
  | .PrintM31 .. => 1 + 1
  | .PrintU32 .. => 1 + 1

/-- `usize::div_ceil(4)`. -/
def divCeil4 (n : ℕ) : ℕ := (n + 3) / 4

/-- `size_in_qm31s` (`crates/common/src/instruction.rs:144`). -/
def sizeInQM31s (i : Instruction) : ℕ := divCeil4 i.sizeInM31s

/-- `size_in_m31s_for_opcode` (`crates/common/src/instruction.rs:147-152`). -/
def sizeInM31sForOpcode (op : ℕ) : Option ℕ :=
  match op with
  | 0 => some (1 + 1 + 1 + 1)
  | 1 => some (1 + 1 + 1 + 1)
  | 2 => some (1 + 1 + 1 + 1)
  | 3 => some (1 + 1 + 1 + 1)
  | 4 => some (1 + 1 + 1 + 1)
  | 6 => some (1 + 1 + 1 + 1)
  | 8 => some (1 + 1 + 1 + 1)
  | 9 => some (1 + 1 + 1)
  | 10 => some (1 + 1 + 1)
  | 11 => some (1)
  | 12 => some (1 + 1)
  | 13 => some (1 + 1)
  | 14 => some (1 + 1 + 1)
  | 15 => some (1 + 1 + 1 + 1)
  | 16 => some (1 + 1 + 1 + 1)
  | 17 => some (1 + 1 + 1 + 1)
  | 18 => some (1 + 1 + 1 + 1 + 1)
  | 19 => some (1 + 1 + 1 + 1 + 1)
  | 21 => some (1 + 1 + 1 + 1 + 1)
  | 22 => some (1 + 1 + 1 + 1 + 1 + 1)
  | 23 => some (1 + 1 + 1 + 1)
  | 24 => some (1 + 1 + 1 + 1)
  | 28 => some (1 + 1 + 1 + 1)
  | 30 => some (1 + 1 + 1 + 1 + 1)
  | 34 => some (1 + 1 + 1 + 1 + 1)
  | 36 => some (1 + 1 + 1 + 1)
  | 37 => some (1 + 1 + 1 + 1)
  | 38 => some (1 + 1 + 1 + 1)
  | 39 => some (1 + 1 + 1 + 1 + 1)
  | 40 => some (1 + 1 + 1 + 1 + 1)
  | 41 => some (1 + 1 + 1 + 1 + 1)
  | 42 => some (1 + 1 + 1 + 1)
  | 43 => some (1 + 1 + 1)
  | 44 => some (1 + 1 + 1 + 1)
  | 45 => some (1 + 1 + 1 + 1)
  | 46 => some (1 + 1)
  | 47 => some (1 + 1)
  | 48 => some (1 + 1 + 1 + 1)
  | 50 => some (1 + 1 + 1)
  | _ => none

/-- `size_in_qm31s_for_opcode` (`crates/common/src/instruction.rs:155-160`). -/
def sizeInQM31sForOpcode (op : ℕ) : Option ℕ := (sizeInM31sForOpcode op).map divCeil4

/-- `MAX_OPCODE` (`crates/common/src/instruction.rs:215-224`), the largest opcode of the table. -/
def maxOpcode : ℕ := 50

/-- `OPCODE_SIZE_TABLE` (`crates/common/src/instruction.rs:227-231`): array of length `MAX_OPCODE + 1`. -/
def opcodeSizeTable : List (Option ℕ) := (List.range (maxOpcode + 1)).map sizeInM31sForOpcode

/-- `INSTRUCTION_MAX_SIZE` (`crates/common/src/instruction.rs:117-126`), the maximum of the sizes. -/
def instructionMaxSize : ℕ := 6

/-- `memory_accesses` (`crates/common/src/instruction.rs:163-173`). -/
def memoryAccesses (i : Instruction) : ℕ :=
  (i.operandTypes.map OperandType.memAccesses).sum + (i.implicitOperands.map OperandType.memAccesses).sum

/-- `TryFrom<SmallVec<[M31; INSTRUCTION_MAX_SIZE]>>` (`crates/common/src/instruction.rs:186-211`). -/
def decode : List M31 → Except InstrError Instruction
  | [] => .error (.sizeMismatch 1 0)
  | op :: rest =>
    match op.val with
    | 0 => match rest with
      | [src0Off, src1Off, dstOff] => .ok (.StoreAddFpFp src0Off src1Off dstOff)
      | _ => .error (.sizeMismatch 3 rest.length)
    | 1 => match rest with
      | [src0Off, src1Off, dstOff] => .ok (.StoreSubFpFp src0Off src1Off dstOff)
      | _ => .error (.sizeMismatch 3 rest.length)
    | 2 => match rest with
      | [src0Off, src1Off, dstOff] => .ok (.StoreMulFpFp src0Off src1Off dstOff)
      | _ => .error (.sizeMismatch 3 rest.length)
    | 3 => match rest with
      | [src0Off, src1Off, dstOff] => .ok (.StoreDivFpFp src0Off src1Off dstOff)
      | _ => .error (.sizeMismatch 3 rest.length)
    | 4 => match rest with
      | [srcOff, imm, dstOff] => .ok (.StoreAddFpImm srcOff imm dstOff)
      | _ => .error (.sizeMismatch 3 rest.length)
    | 6 => match rest with
      | [srcOff, imm, dstOff] => .ok (.StoreMulFpImm srcOff imm dstOff)
      | _ => .error (.sizeMismatch 3 rest.length)
    | 8 => match rest with
      | [baseOff, imm, dstOff] => .ok (.StoreDoubleDerefFp baseOff imm dstOff)
      | _ => .error (.sizeMismatch 3 rest.length)
    | 9 => match rest with
      | [imm, dstOff] => .ok (.StoreImm imm dstOff)
      | _ => .error (.sizeMismatch 2 rest.length)
    | 10 => match rest with
      | [frameOff, target] => .ok (.CallAbsImm frameOff target)
      | _ => .error (.sizeMismatch 2 rest.length)
    | 11 => match rest with
      | [] => .ok (.Ret)
      | _ => .error (.sizeMismatch 0 rest.length)
    | 12 => match rest with
      | [target] => .ok (.JmpAbsImm target)
      | _ => .error (.sizeMismatch 1 rest.length)
    | 13 => match rest with
      | [offset] => .ok (.JmpRelImm offset)
      | _ => .error (.sizeMismatch 1 rest.length)
    | 14 => match rest with
      | [condOff, offset] => .ok (.JnzFpImm condOff offset)
      | _ => .error (.sizeMismatch 2 rest.length)
    | 15 => match rest with
      | [src0Off, src1Off, dstOff] => .ok (.U32StoreAddFpFp src0Off src1Off dstOff)
      | _ => .error (.sizeMismatch 3 rest.length)
    | 16 => match rest with
      | [src0Off, src1Off, dstOff] => .ok (.U32StoreSubFpFp src0Off src1Off dstOff)
      | _ => .error (.sizeMismatch 3 rest.length)
    | 17 => match rest with
      | [src0Off, src1Off, dstOff] => .ok (.U32StoreMulFpFp src0Off src1Off dstOff)
      | _ => .error (.sizeMismatch 3 rest.length)
    | 18 => match rest with
      | [src0Off, src1Off, dstOff, dstRemOff] => .ok (.U32StoreDivRemFpFp src0Off src1Off dstOff dstRemOff)
      | _ => .error (.sizeMismatch 4 rest.length)
    | 19 => match rest with
      | [srcOff, immLo, immHi, dstOff] => .ok (.U32StoreAddFpImm srcOff immLo immHi dstOff)
      | _ => .error (.sizeMismatch 4 rest.length)
    | 21 => match rest with
      | [srcOff, immLo, immHi, dstOff] => .ok (.U32StoreMulFpImm srcOff immLo immHi dstOff)
      | _ => .error (.sizeMismatch 4 rest.length)
    | 22 => match rest with
      | [srcOff, immLo, immHi, dstOff, dstRemOff] => .ok (.U32StoreDivRemFpImm srcOff immLo immHi dstOff dstRemOff)
      | _ => .error (.sizeMismatch 5 rest.length)
    | 23 => match rest with
      | [immLo, immHi, dstOff] => .ok (.U32StoreImm immLo immHi dstOff)
      | _ => .error (.sizeMismatch 3 rest.length)
    | 24 => match rest with
      | [src0Off, src1Off, dstOff] => .ok (.U32StoreEqFpFp src0Off src1Off dstOff)
      | _ => .error (.sizeMismatch 3 rest.length)
    | 28 => match rest with
      | [src0Off, src1Off, dstOff] => .ok (.U32StoreLtFpFp src0Off src1Off dstOff)
      | _ => .error (.sizeMismatch 3 rest.length)
    | 30 => match rest with
      | [srcOff, immLo, immHi, dstOff] => .ok (.U32StoreEqFpImm srcOff immLo immHi dstOff)
      | _ => .error (.sizeMismatch 4 rest.length)
    | 34 => match rest with
      | [srcOff, immLo, immHi, dstOff] => .ok (.U32StoreLtFpImm srcOff immLo immHi dstOff)
      | _ => .error (.sizeMismatch 4 rest.length)
    | 36 => match rest with
      | [src0Off, src1Off, dstOff] => .ok (.U32StoreAndFpFp src0Off src1Off dstOff)
      | _ => .error (.sizeMismatch 3 rest.length)
    | 37 => match rest with
      | [src0Off, src1Off, dstOff] => .ok (.U32StoreOrFpFp src0Off src1Off dstOff)
      | _ => .error (.sizeMismatch 3 rest.length)
    | 38 => match rest with
      | [src0Off, src1Off, dstOff] => .ok (.U32StoreXorFpFp src0Off src1Off dstOff)
      | _ => .error (.sizeMismatch 3 rest.length)
    | 39 => match rest with
      | [srcOff, immLo, immHi, dstOff] => .ok (.U32StoreAndFpImm srcOff immLo immHi dstOff)
      | _ => .error (.sizeMismatch 4 rest.length)
    | 40 => match rest with
      | [srcOff, immLo, immHi, dstOff] => .ok (.U32StoreOrFpImm srcOff immLo immHi dstOff)
      | _ => .error (.sizeMismatch 4 rest.length)
    | 41 => match rest with
      | [srcOff, immLo, immHi, dstOff] => .ok (.U32StoreXorFpImm srcOff immLo immHi dstOff)
      | _ => .error (.sizeMismatch 4 rest.length)
    | 42 => match rest with
      | [baseOff, offsetOff, dstOff] => .ok (.StoreDoubleDerefFpFp baseOff offsetOff dstOff)
      | _ => .error (.sizeMismatch 3 rest.length)
    | 43 => match rest with
      | [imm, dstOff] => .ok (.StoreFramePointer imm dstOff)
      | _ => .error (.sizeMismatch 2 rest.length)
    | 44 => match rest with
      | [baseOff, imm, srcOff] => .ok (.StoreToDoubleDerefFpImm baseOff imm srcOff)
      | _ => .error (.sizeMismatch 3 rest.length)
    | 45 => match rest with
      | [baseOff, offsetOff, srcOff] => .ok (.StoreToDoubleDerefFpFp baseOff offsetOff srcOff)
      | _ => .error (.sizeMismatch 3 rest.length)
    | 46 => match rest with
      | [offset] => .ok (.PrintM31 offset)
      | _ => .error (.sizeMismatch 1 rest.length)
    | 47 => match rest with
      | [offset] => .ok (.PrintU32 offset)
      | _ => .error (.sizeMismatch 1 rest.length)
    | 48 => match rest with
      | [srcOff, imm, dstOff] => .ok (.StoreLeFpImm srcOff imm dstOff)
      | _ => .error (.sizeMismatch 3 rest.length)
    | 50 => match rest with
      | [srcOff, imm] => .ok (.AssertEqFpImm srcOff imm)
      | _ => .error (.sizeMismatch 2 rest.length)
    | _ => .error (.invalidOpcode op)

/-- `slice::chunks(4)` followed by zero padding of the last chunk, as in `to_qm31_vec`
(`crates/common/src/instruction.rs:594-606`). -/
def packQM31s : List M31 → List QM31
  | [] => []
  | [a] => [⟨a, 0, 0, 0⟩]
  | [a, b] => [⟨a, b, 0, 0⟩]
  | [a, b, c] => [⟨a, b, c, 0⟩]
  | a :: b :: c :: d :: t => ⟨a, b, c, d⟩ :: packQM31s t

/-- `to_qm31_vec` (`crates/common/src/instruction.rs:591-607`). -/
def toQM31s (i : Instruction) : List QM31 := packQM31s i.encode

/-- The smallest instruction, used by padding rows (`Default for Instruction` is not derived in Rust; this
only makes the Lean type inhabited). -/
instance : Inhabited Instruction := ⟨.Ret⟩

end Instruction

end CairoM
