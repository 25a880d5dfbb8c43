import Verif.WasmSpec
import Verif.IsaSpec
import Verif.MirSem

/-!
# Specification: linear memory

First the memory of WebAssembly: bytes, four of which form a word, least significant byte first. An access has an
address operand and a constant offset; the address accessed is their sum as natural numbers, and an access that is not
wholly inside the memory traps. Nothing here refers to the compiler.

Then the meaning of the load and store instructions of the mid-level representation for a word: the base value is the
address of a cell; the low half of the word is in that cell and the high half in the next. That the generated machine
code does this is part of C65 (`C65_load`, `C65_store_partial`); see `C86_load_machine` and `C86_store_machine`.
-/

namespace CairoM
namespace Wasm

/-- The contents of a linear memory. -/
abbrev Bytes := ℕ → BitVec 8

/-- The word at an address. -/
def word32 (b : Bytes) (ea : ℕ) : I32 := b (ea + 3) ++ b (ea + 2) ++ b (ea + 1) ++ b ea

/-- The memory after a word was written at an address. -/
def put32 (b : Bytes) (ea : ℕ) (v : I32) : Bytes := fun i =>
  if i = ea then v.extractLsb' 0 8 else if i = ea + 1 then v.extractLsb' 8 8
  else if i = ea + 2 then v.extractLsb' 16 8 else if i = ea + 3 then v.extractLsb' 24 8 else b i

/-- An access: address operand, constant offset, and the value for a store. -/
inductive Access where
  | load (a : I32) (offset : ℕ)
  | store (a : I32) (offset : ℕ) (v : I32)
deriving DecidableEq, Repr

/-- The address operand. -/
def Access.base : Access → I32
  | .load a _ => a
  | .store a _ _ => a

/-- The constant offset. -/
def Access.offset : Access → ℕ
  | .load _ o => o
  | .store _ o _ => o

/-- The address accessed. -/
def Access.ea (x : Access) : ℕ := x.base.toNat + x.offset

/-- What an access does to a memory of `size` bytes: the word loaded, if it is a load, and the memory afterwards; `none`
is a trap. -/
def Access.perform (size : ℕ) (x : Access) (b : Bytes) : Option (List I32 × Bytes) :=
  if x.ea + 4 ≤ size then
    match x with
    | .load .. => some ([word32 b x.ea], b)
    | .store _ _ v => some ([], put32 b x.ea v)
  else none

/-- The words loaded in the course of a sequence of accesses. -/
def history (size : ℕ) : List Access → Bytes → Option (List I32)
  | [], _ => some []
  | x :: xs, b => do
    let (out, b) ← x.perform size b
    let rest ← history size xs b
    some (out ++ rest)

open Mir Lang

/-- Effect of an instruction on the values of the names and on the cells. -/
def evalMem (calls : Lang.Calls) (i : Instr) (s : Lang.Env × Isa.Mem) : Option (Lang.Env × Isa.Mem) :=
  match i with
  | .Load d ⟨base, []⟩ .U32 =>
    match s.1 base with
    | some (.felt c) => (Isa.u32 s.2 c).map fun n => (Function.update s.1 d (some (.u32 n)), s.2)
    | _ => none
  | .Store ⟨base, []⟩ v .U32 =>
    match s.1 base, readAt s.1 .u32 v with
    | some (.felt c), some (.u32 n) =>
      if Isa.InRange c ∧ Isa.InRange (c + 1) then some (s.1, Isa.write s.2 (Isa.split c n)) else none
    | _, _ => none
  | i => (evalInstr calls i s.1).map fun env => (env, s.2)

/-- Several instructions. -/
def evalMems (calls : Lang.Calls) : List Instr → Lang.Env × Isa.Mem → Option (Lang.Env × Isa.Mem)
  | [], s => some s
  | i :: is, s => (evalMem calls i s).bind (evalMems calls is)

end Wasm
end CairoM
