import Verif.VM

/-!
# Reference semantics of the instruction set (specification)

Independent of the VM code: memory is a plain map from addresses to words, an instruction either is faulty
in a state or has an effect, which is: the list of cells it reads, the list of cells it writes with the new
values, and the new registers. The meaning of each instruction is the one documented in the comments of
`crates/common/src/instruction.rs:314-577`.
-/

namespace CairoM
namespace Isa

/-- Memory as a map. -/
abbrev Mem := M31 → QM31

/-- The effect of one instruction. All reads happen before all writes; writes happen in list order. -/
structure Effect where
  reads : List M31
  writes : List (M31 × M31)
  pc : M31
  fp : M31
deriving DecidableEq

/-- Address space: `2^28` cells. -/
def InRange (a : M31) : Prop := a.val < 2 ^ 28

instance (a : M31) : Decidable (InRange a) := by unfold InRange; infer_instance

/-- The felt stored at `a`, if `a` is an address and the word there is a base-field element. -/
def felt (mem : Mem) (a : M31) : Option M31 :=
  if InRange a ∧ (mem a).l1 = 0 ∧ (mem a).l2 = 0 ∧ (mem a).l3 = 0 then some (mem a).l0 else none

/-- The number represented by a low and a high 16-bit limb. -/
def ofLimbs (lo hi : M31) : Option ℕ :=
  if lo.val < 2 ^ 16 ∧ hi.val < 2 ^ 16 then some (lo.val + 2 ^ 16 * hi.val) else none

/-- The u32 stored at `a` (low limb) and `a + 1` (high limb). -/
def u32 (mem : Mem) (a : M31) : Option ℕ := do
  let lo ← felt mem a
  let hi ← felt mem (a + 1)
  ofLimbs lo hi

/-- The two cell updates storing the 32-bit number `n` at `a`. -/
def split (a : M31) (n : ℕ) : List (M31 × M31) :=
  [(a, ((n % 2 ^ 16 : ℕ) : M31)), (a + 1, ((n / 2 ^ 16 : ℕ) : M31))]

/-- Complete the effect; a write outside the address space is a fault. -/
def done (reads : List M31) (writes : List (M31 × M31)) (pc fp : M31) : Option Effect :=
  if ∀ w ∈ writes, InRange w.1 then some ⟨reads, writes, pc, fp⟩ else none

/-- A u32 binary operation on two memory operands. -/
def bin32 (pc fp : M31) (mem : Mem) (a b d : M31) (f : ℕ → ℕ → ℕ) : Option Effect := do
  let x ← u32 mem (fp + a)
  let y ← u32 mem (fp + b)
  done [fp + a, fp + a + 1, fp + b, fp + b + 1] (split (fp + d) (f x y)) (pc + 1) fp

/-- A u32 binary operation on a memory operand and an immediate (two-word instruction). -/
def bin32Imm (pc fp : M31) (mem : Mem) (a lo hi d : M31) (f : ℕ → ℕ → ℕ) : Option Effect := do
  let y ← ofLimbs lo hi
  let x ← u32 mem (fp + a)
  done [fp + a, fp + a + 1] (split (fp + d) (f x y)) (pc + 2) fp

/-- Truth value as a felt. -/
def bit (p : Prop) [Decidable p] : M31 := if p then 1 else 0

/-- The meaning of every instruction; `none` is a fault. -/
def sem (i : Instruction) (pc fp : M31) (mem : Mem) : Option Effect :=
  match i with
  -- felt arithmetic
  | .StoreAddFpFp a b d => do
    let x ← felt mem (fp + a); let y ← felt mem (fp + b)
    done [fp + a, fp + b] [(fp + d, x + y)] (pc + 1) fp
  | .StoreSubFpFp a b d => do
    let x ← felt mem (fp + a); let y ← felt mem (fp + b)
    done [fp + a, fp + b] [(fp + d, x - y)] (pc + 1) fp
  | .StoreMulFpFp a b d => do
    let x ← felt mem (fp + a); let y ← felt mem (fp + b)
    done [fp + a, fp + b] [(fp + d, x * y)] (pc + 1) fp
  | .StoreDivFpFp a b d => do
    let x ← felt mem (fp + a); let y ← felt mem (fp + b)
    if y = 0 then none else done [fp + a, fp + b] [(fp + d, x * y⁻¹)] (pc + 1) fp
  | .StoreAddFpImm a imm d => do
    let x ← felt mem (fp + a)
    done [fp + a] [(fp + d, x + imm)] (pc + 1) fp
  | .StoreMulFpImm a imm d => do
    let x ← felt mem (fp + a)
    done [fp + a] [(fp + d, x * imm)] (pc + 1) fp
  | .StoreLeFpImm a imm d => do
    let x ← felt mem (fp + a)
    done [fp + a] [(fp + d, bit (x.val ≤ imm.val))] (pc + 1) fp
  | .AssertEqFpImm a imm => do
    let x ← felt mem (fp + a)
    if x = imm then done [fp + a] [] (pc + 1) fp else none
  -- memory moves
  | .StoreDoubleDerefFp b imm d => do
    let p ← felt mem (fp + b); let x ← felt mem (p + imm)
    done [fp + b, p + imm] [(fp + d, x)] (pc + 1) fp
  | .StoreDoubleDerefFpFp b o d => do
    let p ← felt mem (fp + b); let k ← felt mem (fp + o); let x ← felt mem (p + k)
    done [fp + b, fp + o, p + k] [(fp + d, x)] (pc + 1) fp
  | .StoreToDoubleDerefFpImm b imm s => do
    let p ← felt mem (fp + b); let x ← felt mem (fp + s)
    done [fp + b, fp + s] [(p + imm, x)] (pc + 1) fp
  | .StoreToDoubleDerefFpFp b o s => do
    let p ← felt mem (fp + b); let k ← felt mem (fp + o); let x ← felt mem (fp + s)
    done [fp + b, fp + o, fp + s] [(p + k, x)] (pc + 1) fp
  | .StoreImm imm d => done [] [(fp + d, imm)] (pc + 1) fp
  | .StoreFramePointer imm d => done [] [(fp + d, fp + imm)] (pc + 1) fp
  -- control flow
  | .CallAbsImm f t => done [] [(fp + f, fp), (fp + f + 1, pc + 1)] t (fp + f + 2)
  | .Ret => do
    let pc' ← felt mem (fp - 1); let fp' ← felt mem (fp - 2)
    done [fp - 1, fp - 2] [] pc' fp'
  | .JmpAbsImm t => done [] [] t fp
  | .JmpRelImm o => done [] [] (pc + o) fp
  | .JnzFpImm c o => do
    let x ← felt mem (fp + c)
    done [fp + c] [] (if x = 0 then pc + 1 else pc + o) fp
  -- u32 arithmetic
  | .U32StoreAddFpFp a b d => bin32 pc fp mem a b d fun x y => (x + y) % 2 ^ 32
  | .U32StoreSubFpFp a b d => bin32 pc fp mem a b d fun x y => (x + 2 ^ 32 - y) % 2 ^ 32
  | .U32StoreMulFpFp a b d => bin32 pc fp mem a b d fun x y => (x * y) % 2 ^ 32
  | .U32StoreDivRemFpFp a b d r => do
    let x ← u32 mem (fp + a); let y ← u32 mem (fp + b)
    if y = 0 then none
    else
      done [fp + a, fp + a + 1, fp + b, fp + b + 1]
        (split (fp + d) (x / y) ++ split (fp + r) (x % y)) (pc + 2) fp
  | .U32StoreAddFpImm a lo hi d => bin32Imm pc fp mem a lo hi d fun x y => (x + y) % 2 ^ 32
  | .U32StoreMulFpImm a lo hi d => bin32Imm pc fp mem a lo hi d fun x y => (x * y) % 2 ^ 32
  | .U32StoreDivRemFpImm a lo hi d r => do
    let y ← ofLimbs lo hi; let x ← u32 mem (fp + a)
    if y = 0 then none
    else done [fp + a, fp + a + 1] (split (fp + d) (x / y) ++ split (fp + r) (x % y)) (pc + 2) fp
  | .U32StoreImm lo hi d => do
    let n ← ofLimbs lo hi
    done [] (split (fp + d) n) (pc + 1) fp
  -- u32 comparison
  | .U32StoreEqFpFp a b d => do
    let x ← u32 mem (fp + a); let y ← u32 mem (fp + b)
    done [fp + a, fp + a + 1, fp + b, fp + b + 1] [(fp + d, bit (x = y))] (pc + 1) fp
  | .U32StoreLtFpFp a b d => do
    let x ← u32 mem (fp + a); let y ← u32 mem (fp + b)
    done [fp + a, fp + a + 1, fp + b, fp + b + 1] [(fp + d, bit (x < y))] (pc + 1) fp
  | .U32StoreEqFpImm a lo hi d => do
    let y ← ofLimbs lo hi; let x ← u32 mem (fp + a)
    done [fp + a, fp + a + 1] [(fp + d, bit (x = y))] (pc + 2) fp
  | .U32StoreLtFpImm a lo hi d => do
    let y ← ofLimbs lo hi; let x ← u32 mem (fp + a)
    done [fp + a, fp + a + 1] [(fp + d, bit (x < y))] (pc + 2) fp
  -- u32 bitwise
  | .U32StoreAndFpFp a b d => bin32 pc fp mem a b d Nat.land
  | .U32StoreOrFpFp a b d => bin32 pc fp mem a b d Nat.lor
  | .U32StoreXorFpFp a b d => bin32 pc fp mem a b d Nat.xor
  | .U32StoreAndFpImm a lo hi d => bin32Imm pc fp mem a lo hi d Nat.land
  | .U32StoreOrFpImm a lo hi d => bin32Imm pc fp mem a lo hi d Nat.lor
  | .U32StoreXorFpImm a lo hi d => bin32Imm pc fp mem a lo hi d Nat.xor
  -- debugging
  | .PrintM31 o => do
    let _ ← felt mem (fp + o)
    done [] [] (pc + 1) fp
  | .PrintU32 o => do
    let _ ← u32 mem (fp + o)
    done [] [] (pc + 1) fp

/-- Apply a list of cell updates in order. -/
def write (mem : Mem) : List (M31 × M31) → Mem
  | [] => mem
  | (a, v) :: ws => write (Function.update mem a ⟨v, 0, 0, 0⟩) ws

/-- Memory after an effect. -/
def Effect.memory (e : Effect) (mem : Mem) : Mem := write mem e.writes

/-- The access log an effect must leave: reads with the value read, then writes with the value written. -/
def Effect.log (e : Effect) (mem : Mem) : List MemoryEntry :=
  e.reads.map (fun a => ⟨a, mem a⟩) ++ e.writes.map (fun w => ⟨w.1, ⟨w.2, 0, 0, 0⟩⟩)

end Isa
end CairoM
