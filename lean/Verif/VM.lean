import Verif.Memory

/-!
# The VM: instruction handlers, step, execute, segments

Model of `crates/runner/src/vm/mod.rs`, `crates/runner/src/vm/state.rs` and
`crates/runner/src/vm/instructions/*.rs`.
-/

namespace CairoM

/-- `State { pc, fp }` (`crates/common/src/state.rs`). -/
structure State where
  pc : M31
  fp : M31
deriving DecidableEq, Repr

namespace State

/-- `advance_by` (`crates/runner/src/vm/state.rs:16-21`). -/
def advanceBy (s : State) (offset : ℕ) : State := ⟨s.pc + M31.ofU32 offset, s.fp⟩
/-- `jump_abs` (`crates/runner/src/vm/state.rs:25-30`). -/
def jumpAbs (s : State) (target : M31) : State := ⟨target, s.fp⟩
/-- `jump_rel` (`crates/runner/src/vm/state.rs:34-39`). -/
def jumpRel (s : State) (offset : M31) : State := ⟨s.pc + offset, s.fp⟩
/-- `call_abs` (`crates/runner/src/vm/state.rs:47-52`). -/
def callAbs (s : State) (pc fpOffset : M31) : State := ⟨pc, s.fp + fpOffset⟩
/-- `ret` (`crates/runner/src/vm/state.rs:72-74`). -/
def ret (_s : State) (pc fp : M31) : State := ⟨pc, fp⟩

end State

open Memory

/-! ### u32 machine operations (Rust `u32` methods; arguments are `< 2^32`) -/

/-- `u32::wrapping_add`. -/
def wrappingAdd (a b : ℕ) : ℕ := (a + b) % 2 ^ 32
/-- `u32::wrapping_sub`. -/
def wrappingSub (a b : ℕ) : ℕ := (a + (2 ^ 32 - b)) % 2 ^ 32
/-- `u32::wrapping_mul`. -/
def wrappingMul (a b : ℕ) : ℕ := (a * b) % 2 ^ 32

/-! ### Instruction handlers -/

/-- Field operators used by `impl_store_bin_op_fp_fp!`; `M31 /` panics on a zero divisor
(stwo `M31::inverse` asserts `!self.is_zero()`). -/
def feltAdd (a b : M31) : Option M31 := some (a + b)
/-- see `feltAdd` -/
def feltSub (a b : M31) : Option M31 := some (a - b)
/-- see `feltAdd` -/
def feltMul (a b : M31) : Option M31 := some (a * b)
/-- see `feltAdd`; `none` is the Rust panic -/
def feltDiv (a b : M31) : Option M31 := if b = 0 then none else some (a / b)

/-- `impl_store_bin_op_fp_fp!` (`crates/runner/src/vm/instructions/store.rs:117-135`). -/
def storeBinFpFp (i : Instruction) (s : State) (src0 src1 dst : M31) (op : M31 → M31 → Option M31) :
    MemM State := do
  let a ← getData (s.fp + src0)
  let b ← getData (s.fp + src1)
  match op a b with
  | none => throw .panic
  | some v => do
    insert (s.fp + dst) (QM31.ofM31 v)
    pure (s.advanceBy i.sizeInQM31s)

/-- `impl_store_bin_op_fp_imm!` (`crates/runner/src/vm/instructions/store.rs:138-155`). -/
def storeBinFpImm (i : Instruction) (s : State) (src imm dst : M31) (op : M31 → M31 → M31) :
    MemM State := do
  let a ← getData (s.fp + src)
  insert (s.fp + dst) (QM31.ofM31 (op a imm))
  pure (s.advanceBy i.sizeInQM31s)

/-- `store_le_fp_imm` (`crates/runner/src/vm/instructions/store.rs:179-191`): `M31`'s order is the order of
canonical representatives. -/
def storeLeFpImm (i : Instruction) (s : State) (src imm dst : M31) : MemM State := do
  let a ← getData (s.fp + src)
  let v : M31 := M31.ofU32 (if a.val ≤ imm.val then 1 else 0)
  insert (s.fp + dst) (QM31.ofM31 v)
  pure (s.advanceBy i.sizeInQM31s)

/-- `store_double_deref_fp` (`crates/runner/src/vm/instructions/store.rs:201-213`). -/
def storeDoubleDerefFp (i : Instruction) (s : State) (base imm dst : M31) : MemM State := do
  let b ← getData (s.fp + base)
  let v ← getData (b + imm)
  insert (s.fp + dst) (QM31.ofM31 v)
  pure (s.advanceBy i.sizeInQM31s)

/-- `store_double_deref_fp_fp` (`crates/runner/src/vm/instructions/store.rs:219-246`). -/
def storeDoubleDerefFpFp (i : Instruction) (s : State) (base off dst : M31) : MemM State := do
  let b ← getData (s.fp + base)
  let o ← getData (s.fp + off)
  let v ← getData (b + o)
  insert (s.fp + dst) (QM31.ofM31 v)
  pure (s.advanceBy i.sizeInQM31s)

/-- `store_to_double_deref_fp_imm` (`crates/runner/src/vm/instructions/store.rs:258-276`). -/
def storeToDoubleDerefFpImm (i : Instruction) (s : State) (base imm src : M31) : MemM State := do
  let b ← getData (s.fp + base)
  let v ← getData (s.fp + src)
  insert (b + imm) (QM31.ofM31 v)
  pure (s.advanceBy i.sizeInQM31s)

/-- `store_to_double_deref_fp_fp` (`crates/runner/src/vm/instructions/store.rs:284-303`). -/
def storeToDoubleDerefFpFp (i : Instruction) (s : State) (base off src : M31) : MemM State := do
  let b ← getData (s.fp + base)
  let o ← getData (s.fp + off)
  let v ← getData (s.fp + src)
  insert (b + o) (QM31.ofM31 v)
  pure (s.advanceBy i.sizeInQM31s)

/-- `store_imm` (`crates/runner/src/vm/instructions/store.rs:309-318`). -/
def storeImm (i : Instruction) (s : State) (imm dst : M31) : MemM State := do
  insert (s.fp + dst) (QM31.ofM31 imm)
  pure (s.advanceBy i.sizeInQM31s)

/-- `store_fp_imm` (`crates/runner/src/vm/instructions/store.rs:324-334`), opcode `StoreFramePointer`. -/
def storeFramePointer (i : Instruction) (s : State) (imm dst : M31) : MemM State := do
  insert (s.fp + dst) (QM31.ofM31 (s.fp + imm))
  pure (s.advanceBy i.sizeInQM31s)

/-- `exec_u32_bin_op_fp_fp` (`crates/runner/src/vm/instructions/store.rs:15-33`). -/
def u32BinFpFp (i : Instruction) (s : State) (src0 src1 dst : M31) (op : ℕ → ℕ → ℕ) : MemM State := do
  let a ← getU32 (s.fp + src0)
  let b ← getU32 (s.fp + src1)
  insertU32 (s.fp + dst) (op a b)
  pure (s.advanceBy i.sizeInQM31s)

/-- The immediate-limb check shared by the `*_fp_imm` u32 handlers
(`crates/runner/src/vm/instructions/store.rs:50-57, 400-407, 438-445, 497-504`). -/
def checkImm (lo hi : M31) : MemM Unit :=
  if hi.val > U32_LIMB_MASK ∨ lo.val > U32_LIMB_MASK then throw (.u32LimbOutOfRange lo.val hi.val)
  else pure ()

/-- `(imm_hi.0 << U32_LIMB_BITS) | imm_lo.0`. -/
def immValue (lo hi : M31) : ℕ := (hi.val <<< 16) ||| lo.val

/-- `exec_u32_bin_op_fp_imm` (`crates/runner/src/vm/instructions/store.rs:37-64`). -/
def u32BinFpImm (i : Instruction) (s : State) (src lo hi dst : M31) (op : ℕ → ℕ → ℕ) : MemM State := do
  checkImm lo hi
  let a ← getU32 (s.fp + src)
  insertU32 (s.fp + dst) (op a (immValue lo hi))
  pure (s.advanceBy i.sizeInQM31s)

/-- `u32_store_div_rem_fp_fp` (`crates/runner/src/vm/instructions/store.rs:348-375`). -/
def u32DivRemFpFp (i : Instruction) (s : State) (src0 src1 dst dstRem : M31) : MemM State := do
  let a ← getU32 (s.fp + src0)
  let b ← getU32 (s.fp + src1)
  if b = 0 then throw .invalidOperand
  else do
    insertU32 (s.fp + dst) (a / b)
    insertU32 (s.fp + dstRem) (a % b)
    pure (s.advanceBy i.sizeInQM31s)

/-- `u32_store_div_rem_fp_imm` (`crates/runner/src/vm/instructions/store.rs:389-425`). -/
def u32DivRemFpImm (i : Instruction) (s : State) (src lo hi dst dstRem : M31) : MemM State := do
  checkImm lo hi
  if immValue lo hi = 0 then throw .invalidOperand
  else do
    let a ← getU32 (s.fp + src)
    insertU32 (s.fp + dst) (a / immValue lo hi)
    insertU32 (s.fp + dstRem) (a % immValue lo hi)
    pure (s.advanceBy i.sizeInQM31s)

/-- `u32_store_imm` (`crates/runner/src/vm/instructions/store.rs:431-449`). -/
def u32StoreImm (i : Instruction) (s : State) (lo hi dst : M31) : MemM State := do
  checkImm lo hi
  insert (s.fp + dst) (QM31.ofM31 lo)
  insert (s.fp + dst + 1) (QM31.ofM31 hi)
  pure (s.advanceBy i.sizeInQM31s)

/-- `exec_u32_cmp_op_fp_fp` (`crates/runner/src/vm/instructions/store.rs:456-479`). -/
def u32CmpFpFp (i : Instruction) (s : State) (src0 src1 dst : M31) (op : ℕ → ℕ → Bool) : MemM State := do
  let a ← getU32 (s.fp + src0)
  let b ← getU32 (s.fp + src1)
  insert (s.fp + dst) (if op a b then QM31.ofM31 1 else QM31.ofM31 0)
  pure (s.advanceBy i.sizeInQM31s)

/-- `exec_u32_cmp_op_fp_imm` (`crates/runner/src/vm/instructions/store.rs:483-516`). -/
def u32CmpFpImm (i : Instruction) (s : State) (src lo hi dst : M31) (op : ℕ → ℕ → Bool) : MemM State := do
  checkImm lo hi
  let a ← getU32 (s.fp + src)
  insert (s.fp + dst) (if op a (immValue lo hi) then QM31.ofM31 1 else QM31.ofM31 0)
  pure (s.advanceBy i.sizeInQM31s)

/-- `assert_eq_fp_imm` (`crates/runner/src/vm/instructions/assert.rs:13-26`). -/
def assertEqFpImm (i : Instruction) (s : State) (src imm : M31) : MemM State := do
  let a ← getData (s.fp + src)
  if a ≠ imm then throw (.assertionFailed a imm)
  else pure (s.advanceBy i.sizeInQM31s)

/-- `call_abs_imm` (`crates/runner/src/vm/instructions/call.rs:48-62`). -/
def callAbsImm (i : Instruction) (s : State) (frameOff target : M31) : MemM State := do
  insert (s.fp + frameOff) (QM31.ofM31 s.fp)
  insert (s.fp + frameOff + 1) (QM31.ofM31 (s.pc + M31.ofU32 i.sizeInQM31s))
  pure (s.callAbs target (frameOff + 2))

/-- `ret` (`crates/runner/src/vm/instructions/call.rs:69-78`). -/
def retHandler (s : State) : MemM State := do
  let pc ← getData (s.fp - 1)
  let fp ← getData (s.fp - 2)
  pure (s.ret pc fp)

/-- `jnz_fp_imm` (`crates/runner/src/vm/instructions/jnz.rs:18-33`). -/
def jnzFpImm (i : Instruction) (s : State) (cond offset : M31) : MemM State := do
  let c ← getData (s.fp + cond)
  if c ≠ 0 then pure (s.jumpRel offset) else pure (s.advanceBy i.sizeInQM31s)

/-- `print_m31` (`crates/runner/src/vm/instructions/print.rs:14-25`); stdout is not modelled. -/
def printM31 (i : Instruction) (s : State) (off : M31) : MemM State := do
  let _ ← getDataNoTrace (s.fp + off)
  pure (s.advanceBy i.sizeInQM31s)

/-- `print_u32` (`crates/runner/src/vm/instructions/print.rs:29-40`); stdout is not modelled. -/
def printU32 (i : Instruction) (s : State) (off : M31) : MemM State := do
  let _ ← getU32NoTrace (s.fp + off)
  pure (s.advanceBy i.sizeInQM31s)

/-- `instruction_to_fn` applied to its result (`crates/runner/src/vm/instructions/mod.rs:68-111`), with the
operator closures of `store.rs:161-171, 341-346, 378-381, 568-587`. -/
def execInstr (i : Instruction) (s : State) : MemM State :=
  match i with
  | .StoreAddFpFp a b d => storeBinFpFp i s a b d feltAdd
  | .StoreSubFpFp a b d => storeBinFpFp i s a b d feltSub
  | .StoreMulFpFp a b d => storeBinFpFp i s a b d feltMul
  | .StoreDivFpFp a b d => storeBinFpFp i s a b d feltDiv
  | .StoreAddFpImm a imm d => storeBinFpImm i s a imm d (· + ·)
  | .StoreMulFpImm a imm d => storeBinFpImm i s a imm d (· * ·)
  | .StoreLeFpImm a imm d => storeLeFpImm i s a imm d
  | .AssertEqFpImm a imm => assertEqFpImm i s a imm
  | .StoreDoubleDerefFp b imm d => storeDoubleDerefFp i s b imm d
  | .StoreDoubleDerefFpFp b o d => storeDoubleDerefFpFp i s b o d
  | .StoreImm imm d => storeImm i s imm d
  | .StoreFramePointer imm d => storeFramePointer i s imm d
  | .CallAbsImm f t => callAbsImm i s f t
  | .Ret => retHandler s
  | .JmpAbsImm t => pure (s.jumpAbs t)
  | .JmpRelImm o => pure (s.jumpRel o)
  | .JnzFpImm c o => jnzFpImm i s c o
  | .U32StoreAddFpFp a b d => u32BinFpFp i s a b d wrappingAdd
  | .U32StoreSubFpFp a b d => u32BinFpFp i s a b d wrappingSub
  | .U32StoreMulFpFp a b d => u32BinFpFp i s a b d wrappingMul
  | .U32StoreDivRemFpFp a b d r => u32DivRemFpFp i s a b d r
  | .U32StoreAddFpImm a lo hi d => u32BinFpImm i s a lo hi d wrappingAdd
  | .U32StoreMulFpImm a lo hi d => u32BinFpImm i s a lo hi d wrappingMul
  | .U32StoreDivRemFpImm a lo hi d r => u32DivRemFpImm i s a lo hi d r
  | .U32StoreImm lo hi d => u32StoreImm i s lo hi d
  | .U32StoreEqFpFp a b d => u32CmpFpFp i s a b d (fun x y => decide (x = y))
  | .U32StoreLtFpFp a b d => u32CmpFpFp i s a b d (fun x y => decide (x < y))
  | .U32StoreEqFpImm a lo hi d => u32CmpFpImm i s a lo hi d (fun x y => decide (x = y))
  | .U32StoreLtFpImm a lo hi d => u32CmpFpImm i s a lo hi d (fun x y => decide (x < y))
  | .U32StoreAndFpFp a b d => u32BinFpFp i s a b d (· &&& ·)
  | .U32StoreOrFpFp a b d => u32BinFpFp i s a b d (· ||| ·)
  | .U32StoreXorFpFp a b d => u32BinFpFp i s a b d (· ^^^ ·)
  | .U32StoreAndFpImm a lo hi d => u32BinFpImm i s a lo hi d (· &&& ·)
  | .U32StoreOrFpImm a lo hi d => u32BinFpImm i s a lo hi d (· ||| ·)
  | .U32StoreXorFpImm a lo hi d => u32BinFpImm i s a lo hi d (· ^^^ ·)
  | .StoreToDoubleDerefFpImm b imm src => storeToDoubleDerefFpImm i s b imm src
  | .StoreToDoubleDerefFpFp b o src => storeToDoubleDerefFpFp i s b o src
  | .PrintM31 o => printM31 i s o
  | .PrintU32 o => printU32 i s o

/-! ### The machine -/

/-- `Segment` (`crates/common/src/execution.rs`). The `initial_memory` hash map is kept as the two regions it
is built from (`finalize_segment` enumerates them, `crates/runner/src/vm/mod.rs:206-220`); the map view is
`segmentInitialMemory` in `Verif.Segments`. -/
structure Segment where
  initialLocals : List QM31
  initialHeap : List QM31
  memoryTrace : List MemoryEntry
  trace : List State
deriving DecidableEq, Repr

/-- `struct VM` (`crates/runner/src/vm/mod.rs:55-64`). -/
structure VM where
  finalPc : M31
  initialLocals : List QM31
  initialHeap : List QM31
  memory : Memory
  state : State
  programLength : M31
  trace : List State
  segments : List Segment
deriving DecidableEq, Repr

/-- `ProgramData` (`crates/common/src/program.rs`). -/
inductive ProgramData where
  | instruction (i : Instruction)
  | value (q : QM31)
deriving DecidableEq, Repr

/-- Flattening of program data (`crates/runner/src/vm/mod.rs:88-96`). -/
def ProgramData.words : ProgramData → List QM31
  | .instruction i => i.toQM31s
  | .value q => [q]

/-- Errors of decoding as VM errors (`VmError::Instruction`). -/
def VMError.ofInstr : InstrError → VMError
  | .sizeMismatch e f => .sizeMismatch e f
  | .invalidOpcode op => .invalidOpcode op

namespace VM

/-- `TryFrom<&Program> for VM` (`crates/runner/src/vm/mod.rs:86-119`). `M31(len as u32)` is modelled by the
reduction (they agree when the program has fewer than `P` words). -/
def load (prog : List ProgramData) : VM :=
  let ws := prog.flatMap ProgramData.words
  { finalPc := M31.ofU32 ws.length, initialLocals := [], initialHeap := [], memory := Memory.ofWords ws
    state := ⟨0, M31.ofU32 ws.length⟩, programLength := M31.ofU32 ws.length, trace := [], segments := [] }

/-- `step` (`crates/runner/src/vm/mod.rs:130-141`). The half-updated VM that Rust leaves behind when a step
fails is not kept: every caller returns the error. -/
def step (vm : VM) : Except VMError VM :=
  match getInstruction vm.state.pc vm.memory with
  | .error e _ => .error e
  | .ok ws mem =>
    match Instruction.decode ws with
    | .error e => .error (VMError.ofInstr e)
    | .ok i =>
      match execInstr i vm.state mem with
      | .error e _ => .error e
      | .ok s' mem' => .ok { vm with memory := mem', state := s', trace := vm.trace ++ [vm.state] }

/-- The `while` loop of `execute` (`crates/runner/src/vm/mod.rs:163-165`). `fuel` is
`max_steps - trace.len()`, which decreases by one at each step because `step` pushes one trace entry; the
loop stops when it reaches zero, i.e. exactly when `trace.len() < max_steps` fails
(`VM.executeLoop_while` proves the unfolding). -/
def executeLoop : ℕ → VM → Except VMError VM
  | 0, vm => .ok vm
  | fuel + 1, vm =>
    if vm.state.pc = vm.finalPc then .ok vm
    else match vm.step with
      | .error e => .error e
      | .ok vm' => executeLoop fuel vm'

/-- `ExecutionStatus` (`crates/runner/src/vm/mod.rs:24-27`). -/
inductive Status where
  | complete
  | ongoing
deriving DecidableEq, Repr

/-- `execute` (`crates/runner/src/vm/mod.rs:158-175`). -/
def execute (maxSteps : ℕ) (vm : VM) : Except VMError (Status × VM) :=
  if vm.finalPc = 0 then .ok (.complete, vm)
  else match executeLoop (maxSteps - vm.trace.length) vm with
    | .error e => .error e
    | .ok vm' =>
      let vm'' := { vm' with trace := vm'.trace ++ [vm'.state] }
      .ok (if vm''.state.pc = vm''.finalPc then .complete else .ongoing, vm'')

/-- `finalize_segment` (`crates/runner/src/vm/mod.rs:184-227`). -/
def finalizeSegment (isLast : Bool) (vm : VM) : VM :=
  let seg : Segment := ⟨vm.initialLocals, vm.initialHeap, vm.memory.trace, vm.trace⟩
  { vm with
    initialLocals := if isLast then [] else vm.memory.locals
    initialHeap := if isLast then [] else vm.memory.heap
    memory := { vm.memory with trace := [] }
    trace := []
    segments := vm.segments ++ [seg] }

/-- Writing the arguments (`crates/runner/src/vm/mod.rs:263-268`): argument `i` goes to
`new_fp - (M + K + 2 - i)`. -/
def writeArgs (newFp : M31) (total : ℕ) : ℕ → List M31 → MemM Unit
  | _, [] => pure ()
  | i, a :: as => do
    insertNoTrace (newFp - M31.ofU32 (total + 2 - i)) (QM31.ofM31 a)
    writeArgs newFp total (i + 1) as

/-- The part of `run_from_entrypoint` before the loop (`crates/runner/src/vm/mod.rs:257-276`). -/
def setupEntrypoint (pcEntry fpOffset : ℕ) (args : List M31) (numRet : ℕ) (vm : VM) : Except VMError VM :=
  let newFp := vm.state.fp + M31.ofU32 fpOffset
  match (do writeArgs newFp (args.length + numRet) 0 args
            insertEntrypointCall vm.finalPc newFp : MemM Unit) vm.memory with
  | .error e _ => .error e
  | .ok _ mem => .ok { vm with memory := mem, state := ⟨M31.ofU32 pcEntry, newFp⟩,
                               initialLocals := mem.locals, initialHeap := mem.heap }

/-- The `loop` of `run_from_entrypoint` (`crates/runner/src/vm/mod.rs:277-283`). The Rust loop is unbounded;
`fuel` bounds the number of iterations and `none` means "still looping". -/
def segmentLoop (maxSteps : ℕ) : ℕ → VM → Option (Except VMError VM)
  | 0, _ => none
  | fuel + 1, vm =>
    match vm.execute maxSteps with
    | .error e => some (.error e)
    | .ok (.complete, vm') => some (.ok (vm'.finalizeSegment true))
    | .ok (.ongoing, vm') => segmentLoop maxSteps fuel (vm'.finalizeSegment false)

/-- `run_from_entrypoint` (`crates/runner/src/vm/mod.rs:249-285`). -/
def runFromEntrypoint (fuel maxSteps pcEntry fpOffset : ℕ) (args : List M31) (numRet : ℕ) (vm : VM) :
    Option (Except VMError VM) :=
  match vm.setupEntrypoint pcEntry fpOffset args numRet with
  | .error e => some (.error e)
  | .ok vm' => segmentLoop maxSteps fuel vm'

end VM

end CairoM
