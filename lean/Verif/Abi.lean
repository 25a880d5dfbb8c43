import Verif.Cli
import Verif.VM

/-!
# Calling convention of the runner

Model of `crates/common/src/program.rs:9-125` (ABI types, slot sizes, public address ranges) and
`crates/runner/src/lib.rs:64-621` (sizing, encoding of arguments, decoding of results, `run_cairo_program`).
-/

namespace CairoM

/-- `AbiType` (`crates/common/src/program.rs:11-32`). -/
inductive AbiType where
  | felt
  | bool
  | u32
  | pointer (element : AbiType) (len : Option ℕ)
  | tuple (ts : List AbiType)
  | struct (name : String) (fields : List (String × AbiType))
  | array (element : AbiType) (size : ℕ)
  | unit

/-- `CairoMValue` (`crates/common/src/abi_codec.rs:20-40`). -/
inductive CairoMValue where
  | felt (x : M31)
  | bool (b : Bool)
  | u32 (n : ℕ)
  | pointer (p : M31)
  | tuple (vs : List CairoMValue)
  | struct (fs : List (String × CairoMValue))
  | array (vs : List CairoMValue)
  | unit

namespace Abi

/-- Errors of the runner (`crates/runner/src/lib.rs:22-41`, `AbiCodecError`). `panic` is the failing `assert_eq!`
of the sizing function. -/
inductive RunErr where
  | typeMismatch
  | insufficientData
  | trailingOrInsufficientData
  | argumentCountMismatch
  | vm (e : VMError)
  | panic
deriving DecidableEq, Repr

mutual
/-- `call_slot_size` (`crates/common/src/program.rs:53-65`). -/
def callSlotSize : AbiType → ℕ
  | .felt => 1
  | .bool => 1
  | .u32 => 2
  | .pointer _ _ => 1
  | .tuple ts => callSlotSizes ts
  | .struct _ fs => callSlotSizeFields fs
  | .array _ _ => 1
  | .unit => 0

/-- The sum over a list of types. -/
def callSlotSizes : List AbiType → ℕ
  | [] => 0
  | t :: ts => callSlotSize t + callSlotSizes ts

/-- The sum over fields. -/
def callSlotSizeFields : List (String × AbiType) → ℕ
  | [] => 0
  | (_, t) :: fs => callSlotSize t + callSlotSizeFields fs
end

mutual
/-- `calculate_array_materialization_size` (`crates/runner/src/lib.rs:74-92`). -/
def matSize : AbiType → ℕ
  | .array e n => n * (callSlotSize e + matSize e)
  | .tuple ts => matSizes ts
  | .struct _ fs => matSizeFields fs
  | _ => 0

/-- The sum over a list of types. -/
def matSizes : List AbiType → ℕ
  | [] => 0
  | t :: ts => matSize t + matSizes ts

/-- The sum over fields. -/
def matSizeFields : List (String × AbiType) → ℕ
  | [] => 0
  | (_, t) :: fs => matSize t + matSizeFields fs
end

mutual
/-- `calculate_array_materialization_size_with_value` (`crates/runner/src/lib.rs:97-134`); `none` is the panic of
`assert_eq!` (line 101). -/
def matSizeVal : InputValue → AbiType → Option ℕ
  | .list vs, .array e n => if n = vs.length then some (n * (callSlotSize e + matSize e)) else none
  | .list vs, .pointer e len => some (len.getD vs.length * (callSlotSize e + matSize e))
  | .number _, .pointer e len => some (len.getD 1 * (callSlotSize e + matSize e))
  | .list vs, .tuple ts => matSizeVals vs ts
  | .struct vs, .struct _ fs => matSizeVals vs (fs.map Prod.snd)
  | _, _ => some 0

/-- The sum over `zip`. -/
def matSizeVals : List InputValue → List AbiType → Option ℕ
  | v :: vs, t :: ts =>
    match matSizeVal v t, matSizeVals vs ts with
    | some a, some b => some (a + b)
    | _, _ => none
  | _, _ => some 0
end

/-- The VM memory and the array cursor, threaded through encoding. -/
structure EncState where
  memory : Memory
  cursor : M31

/-- The copy loop of the array arms (`crates/runner/src/lib.rs:520-524`, `597-601`): cell `i` of the buffer goes to
`base + i`. -/
def writeCells (base : M31) : ℕ → List M31 → Memory → Except RunErr Memory
  | _, [], m => .ok m
  | i, w :: ws, m =>
    match Memory.insertNoTrace (base + M31.ofU32 i) (QM31.ofM31 w) m with
    | .error e _ => .error (.vm e)
    | .ok _ m' => writeCells base (i + 1) ws m'

/-- Write a buffer at the cursor, advance the cursor, return the base pointer
(`crates/runner/src/lib.rs:519-527`, `594-606`). -/
def materialize (ws : List M31) (st : EncState) : Except RunErr (List M31 × EncState) :=
  match writeCells st.cursor 0 ws st.memory with
  | .error e => .error e
  | .ok m => .ok ([st.cursor], ⟨m, st.cursor + M31.ofU32 ws.length⟩)

mutual
/-- `encode_value_for_call` (`crates/runner/src/lib.rs:494-621`), returning the words pushed to `dst`. The VM
is dropped by the caller when an error is returned, so errors carry no state. -/
def encode : InputValue → AbiType → EncState → Except RunErr (List M31 × EncState)
  | .number n, .felt, st => .ok ([m31FromI64 n], st)
  | .number n, .bool, st =>
    if n = 0 then .ok ([0], st) else if n = 1 then .ok ([1], st) else .error .typeMismatch
  | .number n, .u32, st =>
    if n < 0 ∨ n > 2 ^ 32 - 1 then .error .typeMismatch
    else .ok ([M31.ofU32 (n.toNat &&& 0xFFFF), M31.ofU32 (n.toNat >>> 16)], st)
  | .bool b, .bool, st => .ok ([if b then 1 else 0], st)
  | .list vs, .pointer e len, st =>
    if len.isSome ∧ len ≠ some vs.length then .error .typeMismatch
    else match encodeAll vs e st with
      | .error e => .error e
      | .ok (ws, st') => materialize ws st'
  | .list vs, .tuple ts, st =>
    if ts.length ≠ vs.length then .error .typeMismatch else encodeZip vs ts st
  | .struct vs, .struct _ fs, st =>
    if fs.length ≠ vs.length then .error .typeMismatch else encodeZip vs (fs.map Prod.snd) st
  | .list vs, .array e n, st =>
    if n ≠ vs.length then .error .typeMismatch
    else match encodeAll vs e st with
      | .error e => .error e
      | .ok (ws, st') => materialize ws st'
  | .unit, .unit, st => .ok ([], st)
  | _, _, _ => .error .typeMismatch

/-- The loop over the elements of an array (`crates/runner/src/lib.rs:515-517`, `590-592`). -/
def encodeAll : List InputValue → AbiType → EncState → Except RunErr (List M31 × EncState)
  | [], _, st => .ok ([], st)
  | v :: vs, e, st =>
    match encode v e st with
    | .error e => .error e
    | .ok (a, st1) =>
      match encodeAll vs e st1 with
      | .error e => .error e
      | .ok (b, st2) => .ok (a ++ b, st2)

/-- The loop over tuple elements, struct fields and parameters (`crates/runner/src/lib.rs:559-561`, `572-574`,
`436-444`): `zip` stops at the shorter list. -/
def encodeZip : List InputValue → List AbiType → EncState → Except RunErr (List M31 × EncState)
  | v :: vs, t :: ts, st =>
    match encode v t st with
    | .error e => .error e
    | .ok (a, st1) =>
      match encodeZip vs ts st1 with
      | .error e => .error e
      | .ok (b, st2) => .ok (a ++ b, st2)
  | _, _, st => .ok ([], st)
end

/-! ### Decoding -/

/-- `m31_to_bool` (`crates/runner/src/lib.rs:144-153`). -/
def m31ToBool (x : M31) : Except RunErr Bool :=
  if x.val ≠ 0 ∧ x.val ≠ 1 then .error .typeMismatch else .ok (x.val == 1)

/-- `reconstruct_u32_from_parts` (`crates/runner/src/lib.rs:164-173`). -/
def reconstructU32 (lo hi : M31) : Except RunErr ℕ :=
  if lo.val > 0xFFFF ∨ hi.val > 0xFFFF then .error .typeMismatch else .ok (lo.val ||| (hi.val <<< 16))

/-- The memory reader of `decode_value_from_memory` (`crates/runner/src/lib.rs:301-305`). `get_data` also appends to
the access log, which nobody reads after the run; it is not modelled here. -/
def memReader (m : Memory) (addr : M31) (off : ℕ) : Except RunErr M31 :=
  match Memory.getDataNoTrace (addr + M31.ofU32 off) m with
  | .error e _ => .error (.vm e)
  | .ok x _ => .ok x

/-- `read_array_from_memory` (`crates/runner/src/lib.rs:185-205`), `f` decodes one element at an address;
the last argument is `memory_offset`. -/
def readArray (f : M31 → Except RunErr (CairoMValue × ℕ)) : ℕ → M31 → ℕ → Except RunErr (List CairoMValue)
  | 0, _, _ => .ok []
  | n + 1, base, off =>
    match f (base + M31.ofU32 off) with
    | .error e => .error e
    | .ok (x, used) =>
      match readArray f n base (off + used) with
      | .error e => .error e
      | .ok xs => .ok (x :: xs)

mutual
/-- `decode_value_with_custom_reader` (`crates/runner/src/lib.rs:219-285`): the value and the number of cells
consumed. -/
def decode (m : Memory) : AbiType → (ℕ → Except RunErr M31) → ℕ → Except RunErr (CairoMValue × ℕ)
  | .felt, read, off =>
    match read off with
    | .error e => .error e
    | .ok x => .ok (.felt x, 1)
  | .pointer e len, read, off =>
    match read off with
    | .error e => .error e
    | .ok p =>
      match len with
      | none => .ok (.pointer p, 1)
      | some n =>
        match readArray (fun a => decode m e (memReader m a) 0) n p 0 with
        | .error e => .error e
        | .ok xs => .ok (.array xs, 1)
  | .bool, read, off =>
    match read off with
    | .error e => .error e
    | .ok x =>
      match m31ToBool x with
      | .error e => .error e
      | .ok b => .ok (.bool b, 1)
  | .u32, read, off =>
    match read off, read (off + 1) with
    | .ok lo, .ok hi =>
      match reconstructU32 lo hi with
      | .error e => .error e
      | .ok n => .ok (.u32 n, 2)
    | .error e, _ => .error e
    | _, .error e => .error e
  | .tuple ts, read, off =>
    match decodeTuple m ts read off with
    | .error e => .error e
    | .ok (xs, n) => .ok (.tuple xs, n)
  | .struct _ fs, read, off =>
    match decodeFields m fs read off with
    | .error e => .error e
    | .ok (xs, n) => .ok (.struct xs, n)
  | .array e n, read, off =>
    match read off with
    | .error e => .error e
    | .ok p =>
      match readArray (fun a => decode m e (memReader m a) 0) n p 0 with
      | .error e => .error e
      | .ok xs => .ok (.array xs, 1)
  | .unit, _, _ => .ok (.unit, 0)

/-- The tuple loop (`crates/runner/src/lib.rs:252-258`), also the loop of `decode_all_return_values` (lines
358-363). -/
def decodeTuple (m : Memory) : List AbiType → (ℕ → Except RunErr M31) → ℕ →
    Except RunErr (List CairoMValue × ℕ)
  | [], _, _ => .ok ([], 0)
  | t :: ts, read, off =>
    match decode m t read off with
    | .error e => .error e
    | .ok (x, n) =>
      match decodeTuple m ts read (off + n) with
      | .error e => .error e
      | .ok (xs, k) => .ok (x :: xs, n + k)

/-- The struct loop (`crates/runner/src/lib.rs:265-271`). -/
def decodeFields (m : Memory) : List (String × AbiType) → (ℕ → Except RunErr M31) → ℕ →
    Except RunErr (List (String × CairoMValue) × ℕ)
  | [], _, _ => .ok ([], 0)
  | (name, t) :: fs, read, off =>
    match decode m t read off with
    | .error e => .error e
    | .ok (x, n) =>
      match decodeFields m fs read (off + n) with
      | .error e => .error e
      | .ok (xs, k) => .ok ((name, x) :: xs, n + k)
end

/-- The reader of `decode_value_from_return_slots` (`crates/runner/src/lib.rs:325-332`). -/
def slotReader (frame : List M31) (i : ℕ) : Except RunErr M31 :=
  match frame[i]? with
  | some x => .ok x
  | none => .error .insufficientData

/-- `decode_all_return_values` (`crates/runner/src/lib.rs:351-372`). -/
def decodeReturns (m : Memory) (ts : List AbiType) (frame : List M31) : Except RunErr (List CairoMValue) :=
  match decodeTuple m ts (slotReader frame) 0 with
  | .error e => .error e
  | .ok (xs, n) => if n ≠ frame.length then .error .trailingOrInsufficientData else .ok xs

/-- `PublicAddressRanges` (`crates/common/src/program.rs:100-123`): half-open ranges. -/
structure PublicAddressRanges where
  program : ℕ × ℕ
  input : ℕ × ℕ
  output : ℕ × ℕ
deriving DecidableEq, Repr

/-- `PublicAddressRanges::new` (`crates/common/src/program.rs:112-122`). The `u32` additions are modelled on `ℕ`
(no overflow below `2^32`). -/
def PublicAddressRanges.new (programLength numArgs numReturns : ℕ) : PublicAddressRanges :=
  ⟨(0, programLength), (programLength, programLength + numArgs),
    (programLength + numArgs, programLength + numArgs + numReturns)⟩

/-- The entry point: program counter, parameter and return types (`crates/common/src/program.rs:86-97`). -/
structure Entry where
  pc : ℕ
  params : List AbiType
  returns : List AbiType

/-- The layout and encoding part of `run_cairo_program` (`crates/runner/src/lib.rs:398-444`): the VM with the
arrays materialised, the frame offset and the argument words. -/
def encodeArgs (vm : VM) (entry : Entry) (args : List InputValue) : Except RunErr (VM × ℕ × List M31) :=
  if entry.params.length ≠ args.length then .error .argumentCountMismatch
  else
    match matSizeVals args entry.params with
    | none => .error .panic
    | some mat =>
      match encodeZip args entry.params ⟨vm.memory, vm.state.fp⟩ with
      | .error e => .error e
      | .ok (ws, st) =>
        .ok ({ vm with memory := st.memory },
          mat + callSlotSizes entry.params + callSlotSizes entry.returns + 2, ws)

/-- `run_cairo_program` up to the first instruction (`crates/runner/src/lib.rs:384-452`). -/
def prepare (prog : List ProgramData) (entry : Entry) (args : List InputValue) : Except RunErr VM :=
  match encodeArgs (VM.load prog) entry args with
  | .error e => .error e
  | .ok (vm, fpOffset, ws) =>
    match vm.setupEntrypoint entry.pc fpOffset ws (callSlotSizes entry.returns) with
    | .error e => .error (.vm e)
    | .ok vm0 => .ok vm0

/-- Reading the raw return frame (`crates/runner/src/lib.rs:455-461`): slot `i` is at `fp - (K + 2 - i)`. -/
def readFrame (m : Memory) (fp : M31) (k : ℕ) : ℕ → Except RunErr (List M31)
  | 0 => .ok []
  | n + 1 =>
    match memReader m (fp - M31.ofU32 (k + 2 - (k - (n + 1)))) 0 with
    | .error e => .error e
    | .ok x =>
      match readFrame m fp k n with
      | .error e => .error e
      | .ok xs => .ok (x :: xs)

/-- The result of a run (`RunnerOutput`, `crates/runner/src/lib.rs:52-62`). -/
structure Output where
  returnValues : List CairoMValue
  vm : VM
  ranges : PublicAddressRanges

/-- `run_cairo_program` (`crates/runner/src/lib.rs:384-481`). `fuel` bounds the segment loop as in
`VM.segmentLoop`. -/
def runCairoProgram (fuel maxSteps : ℕ) (prog : List ProgramData) (entry : Entry) (args : List InputValue) :
    Option (Except RunErr Output) :=
  match encodeArgs (VM.load prog) entry args with
  | .error e => some (.error e)
  | .ok (vm, fpOffset, ws) =>
    let k := callSlotSizes entry.returns
    match vm.runFromEntrypoint fuel maxSteps entry.pc fpOffset ws k with
    | none => none
    | some (.error e) => some (.error (.vm e))
    | some (.ok vm') =>
      match readFrame vm'.memory vm'.state.fp k k with
      | .error e => some (.error e)
      | .ok frame =>
        match decodeReturns vm'.memory entry.returns frame with
        | .error e => some (.error e)
        | .ok xs => some (.ok ⟨xs, vm', PublicAddressRanges.new vm'.programLength.val ws.length k⟩)

end Abi
end CairoM
