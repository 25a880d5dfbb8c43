import Verif.AirWriteFelt
import Verif.AirWriteU32Rows
import Verif.CodegenIsa

/-!
# C39: honest executions satisfy the circuits

The rows that `write_trace` produces for the steps of an honest execution satisfy all constraints and lookups of their
component, and consume and produce exactly the records of the step; padding rows are harmless. Two instructions are
exceptions: equality of `u32`s, against a cell (unless the result goes to offset 0) and against an immediate.
-/

namespace CairoM
namespace Air

open Adapter (Bundle DataAccess)
open Isa

/-- The instructions whose honest executions the trace writers get right: not equality with an immediate, nor equality of
two cells unless the destination offset is 0. -/
def Writable : Instruction → Prop
  | .U32StoreEqFpImm .. => False
  | .U32StoreEqFpFp _ _ d => d = 0
  | _ => True

/-- C39, one row: take any honest execution of an instruction that has a component. The row written for it satisfies every
constraint, passes every range check and table lookup, performs exactly the transition and the accesses of the step, and
the fractions of the interaction trace are those the constraints demand.

Missing from the full property: the two equality instructions on `u32` (`C39_violated_eq_fp_fp`,
`C39_violated_eq_fp_imm`). -/
theorem C39_honest_row_partial (x : Bundle) (mem : Mem) (e : Effect) (c : Comp) (h : Honest x mem e)
    (hc : Comp.ofInstruction x.instruction = some c) (hw : Writable x.instruction) :
    Complete (c.eval (c.write 1 x).row) (c.write 1 x).entries x e := by
  cases hi : x.instruction <;> rw [hi] at hc hw <;> simp only [Comp.ofInstruction, Option.some.injEq, reduceCtorEq] at hc
  case U32StoreEqFpImm => exact hw.elim
  case U32StoreEqFpFp a b d =>
    obtain rfl : d = 0 := hw
    cases hc; exact U32StoreEqFpFp.honest h hi
  case AssertEqFpImm a b => cases hc; exact AssertEqFpImm.honest h hi
  case CallAbsImm a b => cases hc; exact CallAbsImm.honest h hi
  case JmpAbsImm a => cases hc; exact JmpImm.honest_abs h hi
  case JmpRelImm a => cases hc; exact JmpImm.honest_rel h hi
  case JnzFpImm a b => cases hc; exact JnzFpImm.honest h hi
  case Ret => cases hc; exact Ret.honest h hi
  case StoreImm a b => cases hc; exact StoreImm.honest h hi
  case StoreAddFpFp a b d => cases hc; exact StoreFpFp.honest_add h hi
  case StoreSubFpFp a b d => cases hc; exact StoreFpFp.honest_sub h hi
  case StoreMulFpFp a b d => cases hc; exact StoreFpFp.honest_mul h hi
  case StoreDivFpFp a b d => cases hc; exact StoreFpFp.honest_div h hi
  case StoreAddFpImm a b d => cases hc; exact StoreFpImm.honest_add h hi
  case StoreMulFpImm a b d => cases hc; exact StoreFpImm.honest_mul h hi
  case StoreDoubleDerefFp a b d => cases hc; exact DoubleDerefFpImm.honest_load h hi
  case StoreToDoubleDerefFpImm a b d => cases hc; exact DoubleDerefFpImm.honest_store h hi
  case StoreDoubleDerefFpFp a b d => cases hc; exact DoubleDerefFpFp.honest_load h hi
  case StoreToDoubleDerefFpFp a b d => cases hc; exact DoubleDerefFpFp.honest_store h hi
  case StoreFramePointer a b => cases hc; exact StoreFramePointer.honest h hi
  case StoreLeFpImm a b d => cases hc; exact StoreLeFpImm.honest h hi
  case U32StoreImm a b d => cases hc; exact U32StoreImm.honest h hi
  case U32StoreAddFpImm a b b1 d => cases hc; exact U32StoreAddFpImm.honest h hi
  case U32StoreMulFpImm a b b1 d => cases hc; exact U32StoreMulFpImm.honest h hi
  case U32StoreDivRemFpImm a b b1 d r => cases hc; exact U32StoreDivFpImm.honest h hi
  case U32StoreLtFpImm a b b1 d => cases hc; exact U32StoreLtFpImm.honest h hi
  case U32StoreLtFpFp a b d => cases hc; exact U32StoreLtFpFp.honest h hi
  case U32StoreAddFpFp a b d => cases hc; exact U32StoreAddFpFp.honest h hi
  case U32StoreSubFpFp a b d => cases hc; exact U32StoreSubFpFp.honest h hi
  case U32StoreMulFpFp a b d => cases hc; exact U32StoreMulFpFp.honest h hi
  case U32StoreDivRemFpFp a b d r => cases hc; exact U32StoreDivFpFp.honest h hi
  case U32StoreAndFpFp a b d => cases hc; exact U32StoreBitwiseFpFp.honest_and h hi
  case U32StoreOrFpFp a b d => cases hc; exact U32StoreBitwiseFpFp.honest_or h hi
  case U32StoreXorFpFp a b d => cases hc; exact U32StoreBitwiseFpFp.honest_xor h hi
  case U32StoreAndFpImm a b b1 d => cases hc; exact U32StoreBitwiseFpImm.honest_and h hi
  case U32StoreOrFpImm a b b1 d => cases hc; exact U32StoreBitwiseFpImm.honest_or h hi
  case U32StoreXorFpImm a b b1 d => cases hc; exact U32StoreBitwiseFpImm.honest_xor h hi

/-! ### Padding rows and whole traces -/

/-- C39, padding: the rows written after the executed instructions satisfy everything and do nothing, in every
component. -/
theorem C39_padding_row (c : Comp) : Padding (c.eval (c.write 0 padding).row) (c.write 0 padding).entries := by
  cases c <;> refine ⟨satisfied_of_check (by decide +kernel), tablesHold_of_check (by decide +kernel), ?_,
    by decide +kernel⟩
  case assertEqFpImm => exact AssertEqFpImm.inert rfl
  case callAbsImm => exact CallAbsImm.inert rfl
  case jmpImm => exact JmpImm.inert rfl
  case jnzFpImm => exact JnzFpImm.inert rfl
  case ret => exact Ret.inert rfl
  case storeImm => exact StoreImm.inert rfl
  case storeFpFp => exact StoreFpFp.inert rfl
  case storeFpImm => exact StoreFpImm.inert rfl
  case doubleDerefFpImm => exact DoubleDerefFpImm.inert rfl
  case doubleDerefFpFp => exact DoubleDerefFpFp.inert rfl
  case storeFramePointer => exact StoreFramePointer.inert rfl
  case u32StoreImm => exact U32StoreImm.inert rfl
  case u32StoreAddFpImm => exact U32StoreAddFpImm.inert rfl
  case u32StoreMulFpImm => exact U32StoreMulFpImm.inert rfl
  case u32StoreDivFpImm => exact U32StoreDivFpImm.inert rfl
  case u32StoreEqFpFp => exact U32StoreEqFpFp.inert rfl
  case u32StoreEqFpImm => exact U32StoreEqFpImm.inert rfl
  case u32StoreLtFpImm => exact U32StoreLtFpImm.inert rfl
  case u32StoreLtFpFp => exact U32StoreLtFpFp.inert rfl
  case u32StoreAddFpFp => exact U32StoreAddFpFp.inert rfl
  case u32StoreSubFpFp => exact U32StoreSubFpFp.inert rfl
  case u32StoreMulFpFp => exact U32StoreMulFpFp.inert rfl
  case u32StoreDivFpFp => exact U32StoreDivFpFp.inert rfl
  case u32StoreBitwiseFpFp => exact U32StoreBitwiseFpFp.inert rfl
  case u32StoreBitwiseFpImm => exact U32StoreBitwiseFpImm.inert rfl
  case storeLeFpImm => exact StoreLeFpImm.inert rfl

theorem packedAt_eq {n k : ℕ} : packedAt n (k / 16) (k % 16) = if k < n then 1 else 0 := by
  unfold packedAt
  have h := Nat.div_add_mod k 16
  have h' := Nat.mod_lt k (show 0 < 16 by decide)
  split_ifs <;> first | rfl | omega

theorem length_writeTrace (c : Comp) (xs : List Bundle) :
    (c.writeTrace xs).length = xs.length + (paddedLength xs.length - xs.length) := by
  simp [Comp.writeTrace, resized]

theorem writeTrace_get (c : Comp) (xs : List Bundle) {k : ℕ} {x : Bundle} (h : xs[k]? = some x) :
    (c.writeTrace xs)[k]? = some (c.write 1 x) := by
  have hlt : k < xs.length := (List.getElem?_eq_some_iff.1 h).1
  simp only [Comp.writeTrace, resized, List.getElem?_mapIdx, List.getElem?_append_left hlt, h, packedAt_eq, if_pos hlt,
    Option.map_some]

theorem writeTrace_padding (c : Comp) (xs : List Bundle) {k : ℕ} (h : xs.length ≤ k) (hk : k < paddedLength xs.length) :
    (c.writeTrace xs)[k]? = some (c.write 0 padding) := by
  have : (List.replicate (paddedLength xs.length - xs.length) padding)[k - xs.length]? = some padding := by
    rw [List.getElem?_replicate, if_pos (by omega)]
  simp only [Comp.writeTrace, resized, List.getElem?_mapIdx, List.getElem?_append_right h, this, packedAt_eq,
    if_neg (not_lt.2 h), Option.map_some]

theorem le_paddedLength (n : ℕ) : n ≤ paddedLength n :=
  le_trans (Nat.le_pow_clog (by decide) n) (Nat.pow_le_pow_right (by decide) (le_max_right _ _))

/-- C39, a component: its trace has a power of two of rows, at least sixteen, starting with the executed instructions in
order. The row of every honest execution is complete, and every further row is harmless padding. -/
theorem C39_component_trace_partial (c : Comp) (xs : List Bundle) :
    (∃ n, 4 ≤ n ∧ (c.writeTrace xs).length = 2 ^ n ∧ xs.length ≤ 2 ^ n) ∧
    (∀ (k : ℕ) (x : Bundle), xs[k]? = some x → ∃ w, (c.writeTrace xs)[k]? = some w ∧
      ∀ mem e, Honest x mem e → Comp.ofInstruction x.instruction = some c → Writable x.instruction →
        Complete (c.eval w.row) w.entries x e) ∧
    ∀ (k : ℕ) (w : Written c.Row), xs.length ≤ k → (c.writeTrace xs)[k]? = some w →
      Padding (c.eval w.row) w.entries := by
  have hle := le_paddedLength xs.length
  have hlen : (c.writeTrace xs).length = paddedLength xs.length := by rw [length_writeTrace]; omega
  refine ⟨?_, ?_, ?_⟩
  · exact ⟨max 4 (Nat.clog 2 xs.length), le_max_left _ _, hlen, hle⟩
  · intro k x hx
    exact ⟨_, writeTrace_get c xs hx, fun mem e h hc hw => C39_honest_row_partial x mem e c h hc hw⟩
  · intro k w hk hw
    have hlt : k < (c.writeTrace xs).length := (List.getElem?_eq_some_iff.1 hw).1
    rw [writeTrace_padding c xs hk (by rw [← hlen]; exact hlt)] at hw
    injection hw with hw
    subst hw
    exact C39_padding_row c

/-! ### The exceptions -/

/-- C39 is false of equality of two `u32`s: `write_trace` takes the destination offset from the fifth limb of the
instruction instead of the fourth, so the row of an honest execution claims to execute another instruction, unless the
offset is 0. -/
theorem C39_violated_eq_fp_fp (x : Bundle) (e : Effect) (a b d : M31)
    (hi : x.instruction = .U32StoreEqFpFp a b d) (hd : d ≠ 0) (es : List Entry) :
    ¬ Complete (U32StoreEqFpFp.evaluate (U32StoreEqFpFp.write 1 x).row) es x e := by
  rintro ⟨-, -, ⟨accs, hp, hperm⟩, -⟩
  obtain ⟨-, -, -, -, -, rfl⟩ := hp.unique (U32StoreEqFpFp.performs (r := (U32StoreEqFpFp.write 1 x).row) rfl)
  have hm : (⟨x.registers.pc, x.prevClock, ⟨24, a, b, d⟩, ⟨24, a, b, d⟩⟩ : Access) ∈ stepRecords x e := by
    simp [stepRecords, codeCells, hi, Instruction.toQM31s, Instruction.packQM31s, Instruction.encode,
      Instruction.operands, Instruction.opcodeValue, M31.ofU32]
  have := hperm.symm.subset hm
  simp [U32StoreEqFpFp.accs, U32StoreEqFpFp.write, instValue, hi, Instruction.encode, Instruction.operands, hd] at this

/-- C39 is false of equality with an immediate: the interaction trace produces registers at `pc + 1`, while the
constraints demand `pc + 2`, so no row written for this instruction is complete. -/
theorem C39_violated_eq_fp_imm (x : Bundle) (e : Effect) :
    ¬ Complete (U32StoreEqFpImm.evaluate (U32StoreEqFpImm.write 1 x).row) (U32StoreEqFpImm.write 1 x).entries x e := by
  rintro ⟨-, -, -, h⟩
  have := congrArg (fun l => l[1]?) h
  simp [U32StoreEqFpImm.evaluate, U32StoreEqFpImm.write, Entry.padded, Rel.arity] at this

/-! ### Honest executions exist -/

/-- A memory given by a list of cells, other cells 0. -/
def memOf (l : List (M31 × M31)) : Mem := fun a => QM31.ofM31 (((l.find? fun p => p.1 = a).map Prod.snd).getD 0)

/-- `0xdeadbeef * 0xcafef00d` in cells 100 to 105. -/
def mulBundle : Bundle :=
  ⟨⟨10, 100⟩, 50, .U32StoreMulFpFp 0 2 4, 40,
    [⟨100, 41, 0xbeef, 0xbeef⟩, ⟨101, 42, 0xdead, 0xdead⟩, ⟨102, 43, 0xf00d, 0xf00d⟩, ⟨103, 44, 0xcafe, 0xcafe⟩,
      ⟨104, 45, 7, 0xc223⟩, ⟨105, 46, 8, 0x38f4⟩]⟩

theorem mulBundle_honest : Honest mulBundle
    (memOf [(100, 0xbeef), (101, 0xdead), (102, 0xf00d), (103, 0xcafe)])
    ⟨[100, 101, 102, 103], [(104, 0xc223), (105, 0x38f4)], 11, 100⟩ := by
  refine ⟨?_, by decide +kernel, by decide +kernel, by decide +kernel⟩
  refine (Codegen.sem_u32Mul (n := 0xdeadbeef) (k := 0xcafef00d) (pa := 100) (pb := 102) (pd := 104) (by decide)
    (by decide) (by decide) ?_ ?_ (by decide) (by decide)).trans ?_
  · decide +kernel
  · decide +kernel
  · decide +kernel

/-- Non-vacuity of `C39_honest_row_partial` and `C39_component_trace_partial`. -/
example : ∃ w, (Comp.u32StoreMulFpFp.writeTrace [mulBundle, mulBundle])[1]? = some w ∧
    Complete (Comp.u32StoreMulFpFp.eval w.row) w.entries mulBundle
      ⟨[100, 101, 102, 103], [(104, 0xc223), (105, 0x38f4)], 11, 100⟩ := by
  obtain ⟨w, h1, h2⟩ := (C39_component_trace_partial .u32StoreMulFpFp [mulBundle, mulBundle]).2.1 1 mulBundle rfl
  exact ⟨w, h1, h2 _ _ mulBundle_honest rfl trivial⟩

/-- Comparing `0x10002` with itself, result at offset 4. -/
def eqBundle : Bundle :=
  ⟨⟨10, 100⟩, 50, .U32StoreEqFpFp 0 2 4, 40,
    [⟨100, 41, 2, 2⟩, ⟨101, 42, 1, 1⟩, ⟨102, 43, 2, 2⟩, ⟨103, 44, 1, 1⟩, ⟨104, 45, 7, 1⟩]⟩

/-- Non-vacuity of `C39_violated_eq_fp_fp`: an honest execution whose row is not complete. -/
theorem C39_violated_eq_witness : ∃ mem e, Honest eqBundle mem e ∧
    ¬ Complete (Comp.u32StoreEqFpFp.eval (Comp.u32StoreEqFpFp.write 1 eqBundle).row)
      (Comp.u32StoreEqFpFp.write 1 eqBundle).entries eqBundle e := by
  have h : Honest eqBundle (memOf [(100, 2), (101, 1), (102, 2), (103, 1)])
      ⟨[100, 101, 102, 103], [(104, 1)], 11, 100⟩ := by
    refine ⟨?_, by decide +kernel, by decide +kernel, by decide +kernel⟩
    refine (Codegen.sem_u32Eq (n := 0x10002) (k := 0x10002) (pa := 100) (pb := 102) (pd := 104) (by decide)
      (by decide) (by decide) ?_ ?_ (by decide)).trans ?_
    · decide +kernel
    · decide +kernel
    · decide +kernel
  exact ⟨_, _, h, C39_violated_eq_fp_fp eqBundle _ 0 2 4 rfl (by decide) _⟩

end Air
end CairoM
