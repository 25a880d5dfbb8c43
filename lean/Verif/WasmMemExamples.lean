import Verif.WasmMemProps

/-!
# C86: cases that meet the hypotheses, and accesses that reach the wrong cells
-/

namespace CairoM
namespace Wasm
namespace Examples

open Mir Lang Codegen

/-! ### Cases that meet the hypotheses -/

/-- Memory filled with zeros. -/
def zeroMem : Isa.Mem := fun _ => ⟨0, 0, 0, 0⟩

/-- Two words are written, one of them twice, and read back by different combinations of operand and offset. -/
def someAccesses : List Access :=
  [.store 8 0 0xdeadbeef, .store 4 8 7, .load 4 4, .store 0 8 0x01020304, .load 12 0, .load 0 8, .load 16 0]

example : ∀ x ∈ someAccesses, x.Aligned := by decide
example : history 65536 someAccesses (fun _ => 0) = some [0xdeadbeef, 7, 0x01020304, 0] := by decide +kernel
example : Repr zeroMem 65536 (fun _ => 0) := repr_zero zeroMem 65536 (by decide) fun _ _ _ => rfl
example : execs noTypes (fun _ _ => none) someAccesses zeroMem = some [0xdeadbeef, 7, 0x01020304, 0] :=
  C86_history_partial noTypes _ _ (by decide) 65536 (by decide) _ _ (repr_zero zeroMem 65536 (by decide) fun _ _ _ => rfl) _
    (by decide +kernel)

/-- A function that stores its third argument at its first one and loads from its second one. -/
def poke (o1 o2 : ℕ) : Func :=
  ⟨"poke".toList, [.i32, .i32, .i32], [.i32],
    [.inputs [.i32, .i32, .i32], .op (.store o1) [⟨0, 0⟩, ⟨0, 2⟩], .op (.load o2) [⟨0, 1⟩], .br (.outer 0) [⟨2, 0⟩]]⟩

/-- The state in which a node with two words as inputs is translated. -/
def twoWords : St :=
  { St.init with next := 2, params := [0, 1], scopes := [[(⟨0, 0⟩, 0), (⟨0, 1⟩, 1)]] }

/-- Result of a translation, if it succeeds. -/
def resultOf : Except Err (St × Option ℕ) → Option (Option ℕ)
  | .ok (_, r) => some r
  | .error _ => none

example : resultOf (twoWords.convert noTypes (.load 4) [⟨0, 0⟩]) = some (some 5) := by decide +kernel
example : resultOf (twoWords.convert noTypes (.store 4) [⟨0, 0⟩, ⟨0, 1⟩]) = some none := by decide +kernel

/-! The code generator on a load and a store: the cell's address is in slot 0, the word to store in slots 1 and 2. -/

/-- A function with a field element and a word. -/
def cellFn : Function := ⟨['f'], [], [], [], 5, types [(3, .Felt), (5, .U32)]⟩

/-- The code generator before the instruction. -/
def cellBuilder : Builder :=
  ⟨[], [], ⟨fun v => if v = 3 then some (.slot 0) else if v = 5 then some (.multi 1 2) else none, 3, 1⟩, 0, 2⟩

/-- The address of the word number 2 in slot 0 and the word `0x00090008` in slots 1 and 2 of the frame at 100. -/
def cellMem : Isa.Mem := fun a => QM31.ofM31 (if a = 100 then cellOf 2 else if a = 101 then 8 else if a = 102 then 9 else 0)

theorem cellMem_repr : Repr cellMem 65536 (fun _ => 0) := by
  refine repr_zero _ _ (by decide) fun c h1 h2 => ?_
  have hne : ∀ k : ℕ, k < 1000 → c ≠ (k : M31) := by
    rintro k hk rfl
    rw [cell_val (by omega)] at h1
    omega
  have n0 := hne 100 (by decide)
  have n1 := hne 101 (by decide)
  have n2 := hne 102 (by decide)
  push_cast at n0 n1 n2
  simp only [cellMem, if_neg n0, if_neg n1, if_neg n2]
  rfl

/-- A builder, or the initial one in case of an error. -/
def orCell : Except Codegen.Err Builder → Builder
  | .ok b => b
  | .error _ => cellBuilder

example : ∃ m' d, straight 100 ((emitted cellBuilder (orCell (genLoad cellFn cellBuilder 4 ⟨3, []⟩ .U32))).map IB.inner) cellMem =
    some m' ∧ Codegen.Holds m' 100 d (.u32 0) := by
  obtain ⟨m', d, h1, _, _, h2, _⟩ := C86_load_machine cellFn cellBuilder (orCell (genLoad cellFn cellBuilder 4 ⟨3, []⟩ .U32)) 4 3 100 0
    cellMem (.slot 0) rfl ⟨by decide +kernel, by decide +kernel⟩ rfl rfl rfl (by decide) (by decide) 65536 (by decide) _ cellMem_repr
    (by unfold FrameBelow; decide +kernel) 2 (by decide) (by unfold Codegen.Holds; decide +kernel)
  exact ⟨m', _, h1, h2⟩

example : ∃ m', straight 100 ((emitted cellBuilder (orCell (genStore cellFn cellBuilder ⟨3, []⟩ (.Operand 5) .U32))).map IB.inner)
    cellMem = some m' ∧ Repr m' 65536 (put32 (fun _ => 0) 8 0x00090008) := by
  obtain ⟨m', h1, _, h2⟩ := C86_store_machine cellFn cellBuilder (orCell (genStore cellFn cellBuilder ⟨3, []⟩ (.Operand 5) .U32)) 3 5 100 0
    cellMem (.slot 0) rfl ⟨by decide +kernel, by decide +kernel⟩ rfl rfl (by decide) (by decide) 65536 (by decide) _ cellMem_repr
    (by unfold FrameBelow; decide +kernel) 2 (by decide) (by unfold Codegen.Holds; decide +kernel) 0x00090008
    ⟨⟨rfl, by unfold U32Range; decide⟩, _, rfl, by decide, by decide, by unfold Codegen.Holds; decide +kernel⟩
  exact ⟨m', h1, h2⟩

/-! ### Accesses that reach the wrong cells

In each case the module is compiled and the machine is run from its initial memory, in which the linear memory is zero. -/

/-- The machine code of `poke`; `c1` and `c2` are the constants of the address computations. -/
def pokeCode (c1 c2 : M31) : List Instruction :=
  [.U32StoreDivRemFpImm 2147483637 2 0 0 10, .StoreLeFpImm 1 32766 12, .JnzFpImm 12 6, .StoreLeFpImm 1 32767 13,
   .StoreSubFpFp 13 12 14, .StoreLeFpImm 0 65534 15, .StoreMulFpFp 14 15 16, .AssertEqFpImm 16 1, .StoreMulFpImm 1 65536 17,
   .StoreAddFpFp 0 17 2, .StoreImm c1 18, .StoreSubFpFp 18 2 3, .StoreToDoubleDerefFpImm 3 0 2147483641,
   .StoreToDoubleDerefFpImm 3 1 2147483642, .U32StoreDivRemFpImm 2147483639 2 0 4 19, .StoreLeFpImm 5 32766 21, .JnzFpImm 21 6,
   .StoreLeFpImm 5 32767 22, .StoreSubFpFp 22 21 23, .StoreLeFpImm 4 65534 24, .StoreMulFpFp 23 24 25, .AssertEqFpImm 25 1,
   .StoreMulFpImm 5 65536 26, .StoreAddFpFp 4 26 6, .StoreImm c2 27, .StoreSubFpFp 27 6 7, .StoreDoubleDerefFp 7 0 8,
   .StoreDoubleDerefFp 7 1 9, .StoreAddFpImm 8 0 2147483643, .StoreAddFpImm 9 0 2147483644, .Ret]

/-- What the compiled `poke` returns. -/
def poked (c1 c2 : M31) (a q v : ℤ) : Option (List ℕ) :=
  returnedWords (pokeCode c1 c2) ⟨0, [.u32, .u32, .u32], [.u32]⟩ [.number a, .number q, .number v]

/-- An access that meets the hypotheses: a word stored at `8 + 4` is loaded from `12 + 0`. -/
example : wasmCode true ⟨[poke 4 0]⟩ = some (pokeCode 268435452 268435454, [("poke".toList, 0)]) ∧
    history 65536 [.store 8 4 123456789, .load 12 0] (fun _ => 0) = some [123456789] ∧
    poked 268435452 268435454 8 12 123456789 = some [123456789] := by
  refine ⟨by decide +kernel, by decide +kernel, by decide +kernel⟩

/-- **C86 (violated)** at addresses that are even but no multiples of four: words are laid out downwards but the halves of a word
upwards, so that the word at 2 shares its high half, not its low half, with the word at 0. -/
theorem C86_violated_halfword :
    wasmCode true ⟨[poke 0 0]⟩ = some (pokeCode 268435454 268435454, [("poke".toList, 0)]) ∧
    history 65536 [.store 0 0 0x11112222, .load 2 0] (fun _ => 0) = some [0x00001111] ∧
    poked 268435454 268435454 0 2 0x11112222 = some [0x22220000] := by
  refine ⟨by decide +kernel, by decide +kernel, by decide +kernel⟩

/-- **C86 (violated)** at odd addresses: the lowest bit of the address is ignored. -/
theorem C86_violated_odd :
    wasmCode true ⟨[poke 0 0]⟩ = some (pokeCode 268435454 268435454, [("poke".toList, 0)]) ∧
    history 65536 [.store 0 0 0x11223344, .load 1 0] (fun _ => 0) = some [0x00112233] ∧
    poked 268435454 268435454 0 1 0x11223344 = some [0x11223344] := by
  refine ⟨by decide +kernel, by decide +kernel, by decide +kernel⟩

/-- **C86 (violated)** when operand and offset are not multiples of four but their sum is: both are halved separately. -/
theorem C86_violated_sum :
    wasmCode true ⟨[poke 0 3]⟩ = some (pokeCode 268435454 268435453, [("poke".toList, 0)]) ∧
    history 65536 [.store 4 0 0x11112222, .load 1 3] (fun _ => 0) = some [0x11112222] ∧
    poked 268435454 268435453 4 1 0x11112222 = some [0x00001111] := by
  refine ⟨by decide +kernel, by decide +kernel, by decide +kernel⟩

/-- **C86 (violated)** outside the memory: an access that should trap for every size of the memory is carried out, and changes a
cell of the word at address 0. -/
theorem C86_violated_trap :
    wasmCode true ⟨[poke 4 2]⟩ = some (pokeCode 268435452 268435453, [("poke".toList, 0)]) ∧
    (∀ size ≤ 2 ^ 32, history size [.store 0xfffffffc 4 0x11112222, .load 0 2] (fun _ => 0) = none) ∧
    poked 268435452 268435453 0xfffffffc 0 0x11112222 = some [0x11112222] := by
  refine ⟨by decide +kernel, fun size hs => ?_, by decide +kernel⟩
  have : ¬ (Access.store 0xfffffffc 4 0x11112222).ea + 4 ≤ size := by
    have : (Access.store 0xfffffffc 4 0x11112222).ea = 4294967296 := by decide
    omega
  simp only [history, Access.perform, if_neg this]
  rfl

end Examples
end Wasm
end CairoM
