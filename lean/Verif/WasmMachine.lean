import Verif.WasmPipelineProps
import Verif.WasmExamples

/-!
# C85: a module that meets the hypotheses, and modules that are compiled wrongly
-/

namespace CairoM
namespace Wasm
namespace Examples

open Mir Lang Pipeline
open Codegen hiding Config

/-- Calls both functions of `WasmExamples`. -/
def mainF : Func :=
  ⟨"main".toList, [.i32, .i32], [.i32],
    [.inputs [.i32, .i32], .op (.call 0) [⟨0, 0⟩], .op (.bin .mul) [⟨1, 0⟩, ⟨0, 1⟩], .op (.call 2) [⟨2, 0⟩],
     .br (.outer 0) [⟨3, 0⟩]]⟩

/-- Nested loops, a chain of conditionals and a function that calls both. -/
def prog : Prog := ⟨[nestedLoop, mainF, ifStatement]⟩

theorem prog_check (b : Bool) : prog.check (exConfig b) = true := by cases b <;> decide +kernel

theorem prog_fits (b : Bool) : ((prog.toMir (exConfig b)).map fun md => fitsCheck md 100 2000) = some true := by
  cases b <;> decide +kernel

theorem prog_mean : prog.table 100 3 1 [4, 3] = some [43] := by decide +kernel

/-- The module, compiled with and without optimisation, returns `(0 + 1 + 4 + 9) * 3 + 1` on `4` and `3`. -/
theorem example_compiled (b : Bool) : ∃ md exe pc, prog.toMir (exConfig b) = some md ∧ compileModule md = .ok exe ∧
    exe.entries.lookup "main".toList = some pc ∧ ∀ maxSteps, 1 ≤ maxSteps → ∃ fuel out,
      Abi.runCairoProgram fuel maxSteps exe.program ⟨pc, [.u32, .u32], [.u32]⟩ [.number 4, .number 3] = some (.ok out) ∧
      out.returnValues = [.u32 43] := by
  have hf := prog_fits b
  simp only [Option.map_eq_some_iff] at hf
  obtain ⟨md, hmd, hfits⟩ := hf
  obtain ⟨exe, hexe, h⟩ := C85_wasm_to_machine_partial (exConfig b) (exConfig_ok b) prog (prog_check b) md hmd 100 2000 hfits
  obtain ⟨pc, hpc, hrun⟩ := h 1 mainF rfl 100 3 [4, 3] [43] prog_mean (by decide) (by decide)
  exact ⟨md, exe, pc, hmd, hexe, hpc, hrun⟩

/-! ### Modules that are compiled wrongly -/

/-- Machine code and entry points of a module. -/
def wasmCode (b : Bool) (p : Prog) : Option (List Instruction × List (Name × ℕ)) :=
  (p.toMir (exConfig b)).bind fun md =>
    match compileModule md with
    | .ok ⟨code, [], [], entries⟩ => some (code, entries)
    | _ => none

/-- The integers a program returns. -/
def returnedWords (code : List Instruction) (entry : Abi.Entry) (inputs : List InputValue) : Option (List ℕ) :=
  match Abi.runCairoProgram 1 100 (code.map .instruction) entry inputs with
  | some (.ok out) => out.returnValues.mapM fun
    | .u32 n => some n
    | _ => none
  | _ => none

/-- Fibonacci numbers: the loop carries the limit, the counter, the next number and the number. -/
def fib : Func :=
  ⟨"fib".toList, [.i32], [.i32],
    [.inputs [.i32], .op (.const 0) [], .op (.const 1) [], .loop [⟨0, 0⟩, ⟨1, 0⟩, ⟨2, 0⟩, ⟨1, 0⟩]
      [.inputs [.i32, .i32, .i32, .i32], .op (.bin .ltU) [⟨0, 1⟩, ⟨0, 0⟩], .brIfZero (.label 2) [⟨1, 0⟩],
       .op (.const 1) [], .op (.bin .add) [⟨0, 1⟩, ⟨3, 0⟩], .op (.bin .add) [⟨0, 3⟩, ⟨0, 2⟩],
       .br (.outer 0) [⟨0, 0⟩, ⟨4, 0⟩, ⟨5, 0⟩, ⟨0, 2⟩], .label 2 [], .br (.label 1) [⟨0, 3⟩]],
     .label 1 [.i32], .br (.outer 0) [⟨4, 0⟩]]⟩

private def fibCode : List Instruction :=
  [.U32StoreAddFpImm (-6) 0 0 0, .U32StoreImm 0 0 2, .U32StoreImm 1 0 4, .U32StoreImm 0 0 6, .JmpRelImm 2, .JmpRelImm 19,
   .U32StoreLtFpFp 2 0 8, .JnzFpImm 8 5, .JmpRelImm 1, .U32StoreAddFpImm 6 0 0 9, .JmpRelImm (-6),
   .U32StoreAddFpImm 2 1 0 11, .U32StoreAddFpFp 6 4 13, .U32StoreAddFpImm 0 0 0 0, .U32StoreAddFpImm 11 0 0 2,
   .U32StoreAddFpImm 13 0 0 4, .U32StoreAddFpImm 4 0 0 6, .JmpRelImm (-17), .StoreAddFpImm 9 0 (-4), .StoreAddFpImm 10 0 (-3),
   .Ret]

/-- **C85 (violated)** by a loop with a variable that it does not change: the function is supported and translated correctly,
but the limit is copied to itself at the end of the loop, the ordering of the copies gives up (`C57_violated_self`), and the
number becomes the new next number. The compiled program computes powers of two: `fib(5)` is 5, the program returns 16. -/
theorem C85_violated_fibonacci : fib.supported noTypes = true ∧ fib.run (fun _ _ => none) 20 [5] = some [5] ∧
    wasmCode true ⟨[fib]⟩ = some (fibCode, [("fib".toList, 0)]) ∧
    returnedWords fibCode ⟨0, [.u32], [.u32]⟩ [.number 5] = some [16] := by
  refine ⟨by decide +kernel, by decide +kernel, by decide +kernel, by decide +kernel⟩

/-- `7` if the argument is not zero, else `5`. -/
def nonzero : Func :=
  ⟨"nonzero".toList, [.i32], [.i32],
    [.inputs [.i32], .brIf (.label 1) [⟨0, 0⟩], .op (.const 5) [], .br (.label 2) [⟨2, 0⟩], .label 1 [], .op (.const 7) [],
     .br (.label 2) [⟨5, 0⟩], .label 2 [.i32], .br (.outer 0) [⟨7, 0⟩]]⟩

private def nonzeroCode : List Instruction :=
  [.JnzFpImm (-6) 2, .JmpRelImm 3, .U32StoreImm 7 0 0, .JmpRelImm 3, .U32StoreImm 5 0 0, .JmpRelImm (-2),
   .StoreAddFpImm 0 0 (-4), .StoreAddFpImm 1 0 (-3), .Ret]

/-- **C85 (violated)** by a branch on an integer: only its low half is tested. -/
theorem C85_violated_branch : nonzero.supported noTypes = true ∧ nonzero.run (fun _ _ => none) 20 [65536] = some [7] ∧
    wasmCode true ⟨[nonzero]⟩ = some (nonzeroCode, [("nonzero".toList, 0)]) ∧
    returnedWords nonzeroCode ⟨0, [.u32], [.u32]⟩ [.number 65536] = some [5] := by
  refine ⟨by decide +kernel, by decide +kernel, by decide +kernel, by decide +kernel⟩

/-- A function that uses the stack. -/
def noisy : Func :=
  ⟨"noisy".toList, [.i32], [.i32],
    [.inputs [.i32], .op (.bin .mul) [⟨0, 0⟩, ⟨0, 0⟩], .op (.bin .mul) [⟨1, 0⟩, ⟨0, 0⟩], .op (.bin .mul) [⟨2, 0⟩, ⟨0, 0⟩],
     .op (.bin .add) [⟨3, 0⟩, ⟨2, 0⟩], .op (.bin .add) [⟨4, 0⟩, ⟨1, 0⟩], .br (.outer 0) [⟨5, 0⟩]]⟩

/-- Calls `noisy` on the first argument, then returns whether the arguments are equal. -/
def mainN : Func :=
  ⟨"main".toList, [.i32, .i32], [.i32],
    [.inputs [.i32, .i32], .op (.call 0) [⟨0, 0⟩], .op (.call 1) [⟨0, 0⟩, ⟨0, 1⟩], .br (.outer 0) [⟨2, 0⟩]]⟩

private def noisyCode : List Instruction :=
  [.U32StoreAddFpImm (-6) 0 0 10, .U32StoreMulFpFp 10 (-6) 0, .U32StoreMulFpFp 0 (-6) 2, .U32StoreMulFpFp 2 (-6) 4,
   .U32StoreAddFpFp 4 2 6, .U32StoreAddFpFp 6 0 8, .StoreAddFpImm 8 0 (-4), .StoreAddFpImm 9 0 (-3), .Ret,
   .U32StoreEqFpFp (-8) (-6) 0, .StoreAddFpImm 0 0 (-4), .Ret, .StoreAddFpImm (-8) 0 4, .StoreAddFpImm (-7) 0 5,
   .CallAbsImm 8 0, .StoreAddFpImm (-8) 0 10, .StoreAddFpImm (-7) 0 11, .StoreAddFpImm (-6) 0 12, .StoreAddFpImm (-5) 0 13,
   .CallAbsImm 16 10, .StoreAddFpImm 14 0 (-4), .StoreAddFpImm 15 0 (-3), .Ret]

/-- **C85 (violated)** by a function that returns a comparison: it writes one of the two cells of its result, the other one
keeps what an earlier call left there. On `1000000` twice the module returns 1, the compiled program 2701131777. -/
theorem C85_violated_comparison : (⟨[noisy, equal, mainN]⟩ : Prog).table 20 3 2 [1000000, 1000000] = some [1] ∧
    (∀ b, wasmCode b ⟨[noisy, equal, mainN]⟩ =
      some (noisyCode, [("noisy".toList, 0), ("equal".toList, 10), ("main".toList, 13)])) ∧
    returnedWords noisyCode ⟨13, [.u32, .u32], [.u32]⟩ [.number 1000000, .number 1000000] = some [2701131777] := by
  refine ⟨by decide +kernel, fun b => by cases b <;> decide +kernel, by decide +kernel⟩

end Examples
end Wasm
end CairoM
