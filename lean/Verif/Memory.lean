import Verif.Instruction

/-!
# VM memory

Model of `crates/runner/src/memory/mod.rs`. Operations are in the monad `MemM`, a state-and-exception monad
that keeps the (possibly modified) memory when an error is returned, exactly as `&mut self` methods returning
`Result` do in Rust.
-/

namespace CairoM

/-- `MAX_ADDRESS = (1 << MAX_MEMORY_SIZE_BITS) - 1` (`crates/runner/src/memory/mod.rs:17-19`). -/
def MAX_ADDRESS : ℕ := 2 ^ 28 - 1

/-- `U32_LIMB_MASK` (`crates/runner/src/memory/mod.rs:22-25`). -/
def U32_LIMB_MASK : ℕ := 2 ^ 16 - 1

/-- `MemoryEntry` (`crates/common/src/state.rs`): one log entry. -/
structure MemoryEntry where
  addr : M31
  value : QM31
deriving DecidableEq, Repr

/-- `MemoryError` (`crates/runner/src/memory/mod.rs:28-42`) and the execution errors built on it
(`crates/runner/src/vm/instructions/mod.rs:26-45`, `crates/runner/src/vm/mod.rs:30-50`).
`panic` stands for a Rust panic. -/
inductive VMError where
  | addressOutOfBounds (addr : M31)
  | baseFieldProjectionFailed (addr : M31) (value : QM31)
  | uninitializedMemoryCell (addr : M31)
  | u32LimbOutOfRange (lo hi : ℕ)
  | invalidOpcode (op : M31)
  | sizeMismatch (expected found : ℕ)
  | invalidOperand
  | assertionFailed (left right : M31)
  | panic
deriving DecidableEq, Repr

/-- `struct Memory` (`crates/runner/src/memory/mod.rs:48-63`). The `RefCell` around `trace` is dropped. -/
structure Memory where
  locals : List QM31
  heap : List QM31
  trace : List MemoryEntry
deriving DecidableEq, Repr

/-- Methods of `Memory` returning `Result<_, _>`: the state survives errors. -/
abbrev MemM := EStateM VMError Memory

namespace Memory

/-- `Memory::default()`. -/
def empty : Memory := ⟨[], [], []⟩

instance : Inhabited Memory := ⟨empty⟩

/-- `Vec::resize(n, QM31::zero())` when growing. -/
def resize (l : List QM31) (n : ℕ) : List QM31 := l ++ List.replicate (n - l.length) QM31.zero

/-- `validate_address` (`crates/runner/src/memory/mod.rs:74-80`). -/
def validateAddress (addr : M31) : MemM Unit :=
  if addr.val > MAX_ADDRESS then throw (.addressOutOfBounds addr) else pure ()

/-- `self.trace.borrow_mut().push(MemoryEntry { addr, value })`. -/
def logEntry (addr : M31) (value : QM31) : MemM Unit :=
  modify fun m => { m with trace := m.trace ++ [⟨addr, value⟩] }

/-- The loop fetching additional instruction words (`crates/runner/src/memory/mod.rs:139-152`):
`n` words starting at `addr`. -/
def getMoreWords (addr : M31) : ℕ → MemM (List M31)
  | 0 => pure []
  | n + 1 => do
    let m ← get
    match m.locals[addr.val]? with
    | none => throw (.uninitializedMemoryCell addr)
    | some q => do
      logEntry addr q
      let rest ← getMoreWords (addr + 1) n
      pure (q.limbs ++ rest)

/-- `get_instruction` (`crates/runner/src/memory/mod.rs:94-158`). Reads `locals` only and does not validate
the address, as in Rust. -/
def getInstruction (addr : M31) : MemM (List M31) := do
  let m ← get
  match m.locals[addr.val]? with
  | none => throw (.uninitializedMemoryCell addr)
  | some q => do
    logEntry addr q
    match (Instruction.opcodeSizeTable[q.l0.val]?).join with
    | none => pure q.limbs
    | some size => do
      let rest ← getMoreWords (addr + 1) (Instruction.divCeil4 size - 1)
      pure ((q.limbs ++ rest).take size)

/-- `get_qm31_no_trace` (`crates/runner/src/memory/mod.rs:173-188`). -/
def getQM31NoTrace (addr : M31) : MemM QM31 := do
  validateAddress addr
  let m ← get
  let value := (m.locals[addr.val]?.or m.heap[MAX_ADDRESS - addr.val]?).getD QM31.zero
  if value.isBase then pure value else throw (.baseFieldProjectionFailed addr value)

/-- `get_data` (`crates/runner/src/memory/mod.rs:205-209`). -/
def getData (addr : M31) : MemM M31 := do
  let value ← getQM31NoTrace addr
  logEntry addr value
  pure value.l0

/-- `get_data_no_trace` (`crates/runner/src/memory/mod.rs:224-227`). -/
def getDataNoTrace (addr : M31) : MemM M31 := do
  let value ← getQM31NoTrace addr
  pure value.l0

/-- The body of `insert_no_trace` after validation (`crates/runner/src/memory/mod.rs:258-280`). -/
def store (m : Memory) (addr : M31) (value : QM31) : Memory :=
  let la := addr.val
  let ha := MAX_ADDRESS - addr.val
  if la < m.locals.length then { m with locals := m.locals.set la value }
  else if ha < m.heap.length then { m with heap := m.heap.set ha value }
  else if la - m.locals.length < ha - m.heap.length then
    { m with locals := (resize m.locals (la + 1)).set la value }
  else { m with heap := (resize m.heap (ha + 1)).set ha value }

/-- `insert_no_trace` (`crates/runner/src/memory/mod.rs:256-281`). -/
def insertNoTrace (addr : M31) (value : QM31) : MemM Unit := do
  validateAddress addr
  modify fun m => m.store addr value

/-- `insert` (`crates/runner/src/memory/mod.rs:240-244`). -/
def insert (addr : M31) (value : QM31) : MemM Unit := do
  insertNoTrace addr value
  logEntry addr value

/-- `insert_entrypoint_call` (`crates/runner/src/memory/mod.rs:304-324`).
Writing `locals[fp-2]` when `fp-2 ≥ locals.len()` would panic in Rust (only possible when `fp = 1`, where
`fp - 2` wraps and is rejected by validation first). -/
def insertEntrypointCall (finalPc fp : M31) : MemM Unit := do
  validateAddress (fp - 2)
  validateAddress (fp - 1)
  let m ← get
  let l := if (fp - 1).val ≥ m.locals.length then resize m.locals ((fp - 1).val + 1) else m.locals
  set { m with locals := (l.set (fp - 2).val (QM31.ofM31 fp)).set (fp - 1).val (QM31.ofM31 finalPc) }

/-- `extend` (`crates/runner/src/memory/mod.rs:332-337`). -/
def extend (m : Memory) (ws : List QM31) : Memory := { m with locals := m.locals ++ ws }

/-- The common end of `get_u32`/`get_u32_no_trace`: limb check and recombination. -/
def combineU32 (lo hi : M31) : MemM ℕ :=
  if lo.val > U32_LIMB_MASK ∨ hi.val > U32_LIMB_MASK then throw (.u32LimbOutOfRange lo.val hi.val)
  else pure ((hi.val <<< 16) ||| lo.val)

/-- `get_u32` (`crates/runner/src/memory/mod.rs:370-382`). -/
def getU32 (addr : M31) : MemM ℕ := do
  let lo ← getData addr
  let hi ← getData (addr + 1)
  combineU32 lo hi

/-- `get_u32_no_trace` (`crates/runner/src/memory/mod.rs:387-399`). -/
def getU32NoTrace (addr : M31) : MemM ℕ := do
  let lo ← getDataNoTrace addr
  let hi ← getDataNoTrace (addr + 1)
  combineU32 lo hi

/-- `insert_u32` (`crates/runner/src/memory/mod.rs:402-409`); `value` is a `u32`. -/
def insertU32 (addr : M31) (value : ℕ) : MemM Unit := do
  insert addr (QM31.ofM31 (M31.ofU32 (value &&& U32_LIMB_MASK)))
  insert (addr + 1) (QM31.ofM31 (M31.ofU32 ((value >>> 16) &&& U32_LIMB_MASK)))

/-- `FromIterator<QM31>` (`crates/runner/src/memory/mod.rs:413-421`): used to load programs. -/
def ofWords (ws : List QM31) : Memory := ⟨ws, [], []⟩

end Memory

end CairoM
