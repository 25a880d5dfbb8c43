import Verif.AdapterRun
import Verif.AdapterProps

/-!
# C25: the prover input recovers the execution

`History` (in `AdapterRun`) lists what was executed in terms of the reference semantics; `Recovers` says what the prover
input has to hold about it.
-/

namespace CairoM

open Abi Memory

namespace Adapter

/-- A prover input holds exactly the executed steps. -/
structure Recovers (p : Input) (xs : List StepInfo) (first last : State) : Prop where
  count : p.bundles.length = xs.length
  step : ∀ (k : ℕ) (x : StepInfo), xs[k]? = some x → ∃ b, p.bundles[k]? = some b ∧ b.registers = x.state ∧
    b.clock = M31.ofU32 (k + 1) ∧ b.instruction = x.instr ∧
    b.accesses.map (fun d => (d.address, d.value)) = (x.effect.log x.mem).map fun e => (e.addr, e.value.l0)
  first : p.initialRegisters = first
  last : p.finalRegisters = last

/-- What `import_internal` returns for the log of a history. -/
theorem import_history {w w' : VM} (hf : Fresh w) (hm : w.memory.WF) {xs : List StepInfo} (h : History w xs w')
    (hp : ∀ x ∈ xs, ¬ x.instr.IsPrint) {m0 : CellMap} (h0 : RunnerMap m0) (ranges : PublicAddressRanges) :
    ∃ (m : PMemory) (ass : List (List MemoryArg)),
      (PMemory.new m0).pushAll (accessesFrom 1 xs) = some (m, ass.flatten) ∧ ass.length = xs.length ∧
      (∀ (k : ℕ) (x : StepInfo) (as : List MemoryArg), xs[k]? = some x → ass[k]? = some as →
        as.map (fun y => (y.address, y.value, y.clock)) =
          x.log.map fun e => (e.addr, e.value, M31.ofU32 (1 + k))) ∧
      importInternal (w'.trace ++ [w'.state]) w'.memory.trace m0 ranges =
        .ok ⟨m.updateMultiplicities ranges, w.state, w'.state, bundlesOf 1 xs ass⟩ := by
  obtain ⟨-, r2, r3, -, -⟩ := h.record hm
  rw [hf.trace, List.nil_append] at r2
  rw [hf.log, List.nil_append] at r3
  obtain ⟨m, args, h1, -, -⟩ := pushAll_from h0 (accessesFrom 1 xs) [] _ (Tracks.start h0)
  obtain ⟨ass, b1, b2, b3, b4⟩ := bundles_ok h hp w'.state [] _ _ _ _ h1
  rw [List.append_nil] at b4
  refine ⟨m, ass, by rw [h1, b1], b2, b3, ?_⟩
  rw [r2, r3]
  have hfirst : ∃ tr, xs.map StepInfo.state ++ [w'.state] = w.state :: tr := by
    cases h with
    | nil => exact ⟨_, rfl⟩
    | cons hpc hs hst hmem hin hef h => exact ⟨_, by rw [List.map_cons, hst]; rfl⟩
  obtain ⟨tr, htr⟩ := hfirst
  rw [htr] at b4 ⊢
  unfold importInternal Iter.start
  simp only [bind, Except.bind, b4]
  rfl

theorem recovers_history {w w' : VM} (hf : Fresh w) (hm : w.memory.WF) {xs : List StepInfo} (h : History w xs w')
    (hp : ∀ x ∈ xs, ¬ x.instr.IsPrint) {m0 : CellMap} (h0 : RunnerMap m0) (ranges : PublicAddressRanges) :
    ∃ p, importInternal (w'.trace ++ [w'.state]) w'.memory.trace m0 ranges = .ok p ∧
      Recovers p xs w.state w'.state := by
  obtain ⟨m, ass, -, hl, hv, hi⟩ := import_history hf hm h hp h0 ranges
  refine ⟨_, hi, ?_⟩
  obtain ⟨l1, l2⟩ := length_bundlesOf xs 1 ass hl
  refine ⟨l1, ?_, rfl, rfl⟩
  intro k x hk
  have hlt : k < ass.length := by rw [hl]; exact (List.getElem?_eq_some_iff.1 hk).1
  have hk' : ass[k]? = some ass[k] := List.getElem?_eq_getElem hlt
  refine ⟨_, l2 k x _ hk hk', rfl, by rw [Nat.add_comm k 1]; rfl, rfl, ?_⟩
  have hvk := hv k x _ hk hk'
  have hd := congrArg (List.drop (Isa.codeCells x.state.pc x.instr).length) hvk
  rw [← List.map_drop, ← List.map_drop] at hd
  have hlog : x.log.drop (Isa.codeCells x.state.pc x.instr).length = x.effect.log x.mem := by
    unfold StepInfo.log Isa.fetchLog
    rw [List.drop_append_of_le_length (by rw [List.length_map]), ← List.length_map (as := Isa.codeCells x.state.pc x.instr)
      (f := fun a => (⟨a, x.mem a⟩ : MemoryEntry)), List.drop_length, List.nil_append]
  rw [hlog] at hd
  have := congrArg (List.map fun t : M31 × QM31 × M31 => (t.1, t.2.1.l0)) hd
  simp only [List.map_map] at this
  unfold bundleOf
  simp only [List.map_map]
  exact this

/-- C25: importing any segment of a finished run. The segment was recorded by executing some steps `xs` on a VM `w` in its
initial memory and registers (the segments together make up the run: `C15_segments_chain`); unless one of them is a print
instruction, the import succeeds and holds exactly these steps: in order, each with its registers, clock, instruction and
data accesses (address and value), and the registers at both ends. -/
theorem C25_recovers_execution (vm : VM) (hidle : Idle vm) (hprog : vm.finalPc ≠ 0)
    (pcEntry fpOffset numRet : ℕ) (args : List M31) (k : ℕ) (fuel : ℕ) (vm' vm0 : VM)
    (hs : vm.setupEntrypoint pcEntry fpOffset args numRet = .ok vm0) (hwf : vm0.memory.WF)
    (h : vm.runFromEntrypoint fuel k pcEntry fpOffset args numRet = some (.ok vm')) (ranges : PublicAddressRanges) :
    ∀ s ∈ vm'.segments, ∃ w w' xs, IsRecordOf s w w' xs ∧ xs.length ≤ k ∧ s.trace.length = xs.length + 1 ∧
      ((∀ x ∈ xs, ¬ x.instr.IsPrint) → ∃ p, importSegment s ranges = .ok p ∧ Recovers p xs w.state w'.state) := by
  intro s hsm
  unfold VM.runFromEntrypoint at h
  rw [hs] at h
  dsimp only at h
  obtain ⟨hf, hseg, hfp⟩ := setup_fresh hidle hs
  rcases segmentLoop_records fuel vm0 vm' hf hwf (by rw [hfp]; exact hprog) h s hsm with h' | ⟨w, w', xs, hr, hle⟩
  · rw [hseg] at h'; cases h'
  · refine ⟨w, w', xs, hr, hle, ?_, ?_⟩
    · obtain ⟨-, r2, -⟩ := hr.history.record hr.wf
      rw [hr.trace, r2, hr.fresh.trace]
      simp
    · intro hp
      unfold importSegment
      rw [hr.log, hr.trace]
      exact recovers_history hr.fresh hr.wf hr.history hp (runner_segmentMap s) ranges

/-- The run of a program from an entry point at 0, imported. -/
def importFirst (words : List ProgramData) : Option (Except ImportError Input) :=
  match (VM.load words).runFromEntrypoint 50 20 0 2 [] 0 with
  | some (.ok v) => v.segments.head?.map fun s => importSegment s ⟨(0, 0), (0, 0), (0, 0)⟩
  | _ => none

/-- C25 is false of programs with a print instruction: `PrintM31` makes no traced access although the adapter counts one, so
the log is out of step from there on. Here a run of two steps is rejected. -/
theorem C25_violated_print : importFirst [.instruction (.PrintM31 0), .instruction .Ret] ≠ none ∧
    ∀ p, importFirst [.instruction (.PrintM31 0), .instruction .Ret] ≠ some (.ok p) := by
  constructor
  · decide +kernel
  · have : (match importFirst [.instruction (.PrintM31 0), .instruction .Ret] with
      | some (.ok _) => false
      | _ => true) = true := by decide +kernel
    intro p hp
    rw [hp] at this
    cases this

/-- C27 is false of a step that accesses a cell twice: the second access has clock difference 0. Adding a cell to itself
is enough. -/
theorem C27_violated_same_step : ∃ p, importFirst [.instruction (.StoreAddFpFp 0 0 1), .instruction .Ret] =
    some (.ok p) ∧ ∃ b ∈ p.bundles, ∃ d ∈ b.accesses, d.prevClock = b.clock := by
  have : (match importFirst [.instruction (.StoreAddFpFp 0 0 1), .instruction .Ret] with
      | some (.ok p) => p.bundles.any fun b => b.accesses.any fun d => d.prevClock == b.clock
      | _ => false) = true := by decide +kernel
  split at this
  · next p hp =>
    refine ⟨p, hp, ?_⟩
    simpa only [List.any_eq_true, beq_iff_eq] using this
  · cases this

/-- The steps of the imported segments of a run. -/
def importedSteps (words : List ProgramData) (k : ℕ) : List (List (State × M31 × Instruction × List M31 × List M31)) :=
  match (VM.load words).runFromEntrypoint 50 k 0 2 [] 0 with
  | some (.ok v) => v.segments.map fun s => match importSegment s ⟨(0, 4), (0, 0), (0, 0)⟩ with
    | .ok p => p.bundles.map fun b => (b.registers, b.clock, b.instruction, b.accesses.map DataAccess.address,
        b.accesses.map DataAccess.value)
    | .error _ => []
  | _ => []

set_option synthInstance.maxSize 4000 in
/-- A run of two segments whose import holds the steps. -/
example : importedSteps [.instruction (.StoreImm 7 0), .instruction (.CallAbsImm 1 3), .instruction .Ret,
      .instruction .Ret] 2 =
    [[(⟨0, 6⟩, 1, .StoreImm 7 0, [6], [7]), (⟨1, 6⟩, 2, .CallAbsImm 1 3, [7, 8], [6, 2])],
      [(⟨3, 9⟩, 1, .Ret, [8, 7], [2, 6]), (⟨2, 6⟩, 2, .Ret, [5, 4], [4, 6])]] := by
  unfold importedSteps; decide +kernel

end Adapter
end CairoM
