import Verif.AirWriteRun

/-!
# C39 for whole runs

From the run of a program to the traces of the opcode components: the segments of a run of the VM, imported by the adapter,
give traces that satisfy every constraint and every table lookup.
-/

namespace CairoM
namespace Air

open Abi Memory Adapter

/-- What C39 needs of a step: it is not a print, not one of the equality instructions the trace writer gets wrong, and the
cells it touches (instruction words, operands, results) are distinct. -/
structure Provable (x : StepInfo) : Prop where
  notPrint : ¬ x.instr.IsPrint
  writable : Writable x.instr
  distinct : (x.log.map MemoryEntry.addr).Nodup

/-- The traces of the opcode components prove the steps `xs`: every step has a row, in the component of its instruction,
that is complete; and every row of every component satisfies all constraints and table lookups. -/
structure TracesProve (p : Input) (xs : List StepInfo) : Prop where
  step : ∀ (k : ℕ) (x : StepInfo), xs[k]? = some x → ∃ b, p.bundles[k]? = some b ∧ b.registers = x.state ∧
    b.clock = M31.ofU32 (k + 1) ∧ b.instruction = x.instr ∧ ∃ (c : Comp) (j : ℕ) (w : Written c.Row),
      (c.writeTrace (c.inputs p))[j]? = some w ∧ Complete (c.eval w.row) w.entries b x.effect
  satisfied : ∀ (c : Comp), ∀ w ∈ c.writeTrace (c.inputs p), (c.eval w.row).Satisfied ∧ (c.eval w.row).TablesHold

theorem tracesProve_history {w w' : VM} (hf : Fresh w) (hm : w.memory.WF) {xs : List StepInfo} (h : History w xs w')
    (hlen : xs.length < 2 ^ 20) (hp : ∀ x ∈ xs, Provable x) {m0 : CellMap} (h0 : RunnerMap m0)
    (ranges : PublicAddressRanges) :
    ∃ p, importInternal (w'.trace ++ [w'.state]) w'.memory.trace m0 ranges = .ok p ∧
      p.bundles.length = xs.length ∧ TracesProve p xs := by
  obtain ⟨m, ass, hpush, hl, hv, hi⟩ := import_history hf hm h (fun x hx => (hp x hx).notPrint) h0 ranges
  obtain ⟨l1, l2⟩ := length_bundlesOf xs 1 ass hl
  have hsem : ∀ x ∈ xs, Isa.sem x.instr x.state.pc x.state.fp x.mem = some x.effect := by
    clear hpush hl hv hi l1 l2 hlen hp hf
    induction h with
    | nil => intro x hx; cases hx
    | cons hpc hs hst hmem hin hef h ih =>
      intro x hx
      rcases List.mem_cons.1 hx with rfl | hx
      · exact hef
      · exact ih (WF_step hm hs) x hx
  have hgood : ∀ (k : ℕ) (x : StepInfo) (as : List MemoryArg), xs[k]? = some x → ass[k]? = some as →
      Honest (bundleOf (1 + k) x as) x.mem x.effect := fun k x as hx has =>
    honest_bundle (hsem x (List.mem_of_getElem? hx)) (hv k x as hx has)
      (history_recent h0 hlen (fun x hx => (hp x hx).distinct) hpush hl hv hx has)
  have hall : ∀ (c : Comp), ∀ b ∈ c.inputs ⟨m.updateMultiplicities ranges, w.state, w'.state, bundlesOf 1 xs ass⟩,
      Comp.ofInstruction b.instruction = some c ∧ Writable b.instruction ∧ ∃ mem e, Honest b mem e := by
    intro c b hb
    obtain ⟨hb, hc⟩ := (mem_inputs c _ b).1 hb
    obtain ⟨k, hk⟩ := List.mem_iff_getElem?.1 hb
    have hkl : k < xs.length := by rw [← l1]; exact (List.getElem?_eq_some_iff.1 hk).1
    have hx : xs[k]? = some xs[k] := List.getElem?_eq_getElem hkl
    have has : ass[k]? = some ass[k] := List.getElem?_eq_getElem (by rw [hl]; exact hkl)
    have e := l2 k _ _ hx has
    have e' : bundleOf (1 + k) xs[k] ass[k] = b := by
      have hk : (bundlesOf 1 xs ass)[k]? = some b := hk
      rw [e] at hk; exact Option.some.inj hk
    subst e'
    exact ⟨hc, (hp _ (List.mem_of_getElem? hx)).writable, _, _, hgood k _ _ hx has⟩
  refine ⟨_, hi, l1, ?_, ?_⟩
  · intro k x hx
    have hkl : k < xs.length := (List.getElem?_eq_some_iff.1 hx).1
    have has : ass[k]? = some ass[k] := List.getElem?_eq_getElem (by rw [hl]; exact hkl)
    have hb := l2 k x _ hx has
    obtain ⟨c, hc⟩ := comp_of_not_print (hp x (List.mem_of_getElem? hx)).notPrint
    refine ⟨_, hb, rfl, by rw [Nat.add_comm k 1]; rfl, rfl, c, ?_⟩
    have hmem := (mem_inputs c ⟨m.updateMultiplicities ranges, w.state, w'.state, bundlesOf 1 xs ass⟩ _).2
      ⟨List.mem_of_getElem? hb, hc⟩
    obtain ⟨j, hj⟩ := List.mem_iff_getElem?.1 hmem
    obtain ⟨r, h1, h2⟩ := (C39_component_trace_partial c _).2.1 j _ hj
    exact ⟨j, r, h1, h2 _ _ (hgood k x _ hx has) hc (hp x (List.mem_of_getElem? hx)).writable⟩
  · intro c r hr
    obtain ⟨j, hj⟩ := List.mem_iff_getElem?.1 hr
    obtain ⟨-, g2, g3⟩ := C39_component_trace_partial c
      (c.inputs ⟨m.updateMultiplicities ranges, w.state, w'.state, bundlesOf 1 xs ass⟩)
    rcases Nat.lt_or_ge j (c.inputs ⟨m.updateMultiplicities ranges, w.state, w'.state, bundlesOf 1 xs ass⟩).length with
      hlt | hge
    · obtain ⟨r', h1, h2⟩ := g2 j _ (List.getElem?_eq_getElem hlt)
      obtain ⟨hc, hw, mem, e, hh⟩ := hall c _ (List.getElem_mem hlt)
      rw [hj] at h1
      injection h1 with h1
      subst h1
      have := h2 mem e hh hc hw
      exact ⟨this.satisfied, this.tables⟩
    · have := g3 j r hge hj
      exact ⟨this.satisfied, this.tables⟩

/-- C39, runs: take any run of a program from an entry point, in segments of at most `2^20 − 1` steps (the default limit).
Every segment was recorded by executing some steps `xs`; if each of them is provable, importing the segment succeeds,
every step has a complete row in the trace of its component, and every row of every opcode component, padding included,
satisfies all constraints and table lookups.

Missing from the full property: prints have no circuit; the two `u32` equality instructions (`C39_violated_eq_fp_fp`,
`C39_violated_eq_fp_imm`); steps that touch a cell twice (`C39_violated_same_cell`); longer segments
(`C27_violated_multiple`). -/
theorem C39_run_partial (vm : VM) (hidle : Idle vm) (hprog : vm.finalPc ≠ 0)
    (pcEntry fpOffset numRet : ℕ) (args : List M31) (k : ℕ) (hk : k ≤ 2 ^ 20 - 1) (fuel : ℕ) (vm' vm0 : VM)
    (hs : vm.setupEntrypoint pcEntry fpOffset args numRet = .ok vm0) (hwf : vm0.memory.WF)
    (h : vm.runFromEntrypoint fuel k pcEntry fpOffset args numRet = some (.ok vm')) (ranges : PublicAddressRanges) :
    ∀ s ∈ vm'.segments, ∃ w w' xs, IsRecordOf s w w' xs ∧ xs.length ≤ k ∧
      ((∀ x ∈ xs, Provable x) → ∃ p, importSegment s ranges = .ok p ∧ p.bundles.length = xs.length ∧
        TracesProve p xs) := by
  intro s hsm
  obtain ⟨w, w', xs, hr, hle, -, -⟩ := C25_recovers_execution vm hidle hprog pcEntry fpOffset numRet args k fuel vm' vm0
    hs hwf h ranges s hsm
  refine ⟨w, w', xs, hr, hle, fun hp => ?_⟩
  unfold importSegment
  rw [hr.log, hr.trace]
  exact tracesProve_history hr.fresh hr.wf hr.history (by omega) hp (runner_segmentMap s) ranges

/-! ### Provable runs exist, and steps that touch a cell twice are not provable -/

/-- A VM about to execute `[fp] = 7; [fp + 1] = [fp] * 5`. -/
def sample : VM :=
  let words := (Instruction.StoreImm 7 0).toQM31s ++ (Instruction.StoreMulFpImm 0 5 1).toQM31s
  ⟨2, words, [], ⟨words, [], []⟩, ⟨0, 10⟩, 2, [], []⟩

/-- The VM after a step. -/
def after (vm : VM) : VM := match vm.step with | .ok v => v | .error _ => vm

/-- The two steps. -/
def sampleSteps : List StepInfo :=
  [⟨⟨0, 10⟩, sample.memory.view, .StoreImm 7 0, ⟨[], [(10, 7)], 1, 10⟩⟩,
    ⟨⟨1, 10⟩, (after sample).memory.view, .StoreMulFpImm 0 5 1, ⟨[10], [(11, 35)], 2, 10⟩⟩]

theorem sample_history : History sample sampleSteps (after (after sample)) := by
  refine .cons (v1 := after sample) (by decide) (by decide +kernel) rfl rfl (by decide +kernel) ?_
    (.cons (v1 := after (after sample)) (by decide +kernel) (by decide +kernel) (by decide +kernel) rfl
      (by decide +kernel) ?_ (.nil _))
  · exact Codegen.sem_imm (by decide) (by decide)
  · refine (Codegen.sem_mulImm (pa := 10) (pd := 11) (x := 7) (by decide) (by decide) (by decide +kernel)
      (by decide)).trans (by decide)

theorem sample_provable : ∀ x ∈ sampleSteps, Provable x := by
  intro x hx
  simp only [sampleSteps, List.mem_cons, List.not_mem_nil, or_false] at hx
  rcases hx with rfl | rfl
  · exact ⟨(by rintro (⟨o, h⟩ | ⟨o, h⟩) <;> cases h), trivial, by decide +kernel⟩
  · exact ⟨(by rintro (⟨o, h⟩ | ⟨o, h⟩) <;> cases h), trivial, by decide +kernel⟩

/-- Non-vacuity of `C39_run_partial`: a run of two provable steps. -/
example : ∃ p, importInternal ((after (after sample)).trace ++ [(after (after sample)).state])
    (after (after sample)).memory.trace [] ⟨(0, 2), (0, 0), (0, 0)⟩ = .ok p ∧ p.bundles.length = 2 ∧
      TracesProve p sampleSteps :=
  tracesProve_history ⟨rfl, rfl, rfl, rfl⟩ (by unfold WF; decide) sample_history (by decide) sample_provable
    (m0 := []) ⟨List.nodup_nil, by simp⟩ _

/-- A row of `store_fp_fp` whose second operand was last accessed in the same step fails a range check. -/
theorem same_cell {x : Bundle} (h : accClock x 1 = x.clock) :
    ¬ (StoreFpFp.evaluate (StoreFpFp.write 1 x).row).TablesHold := by
  intro ht
  have := ht ⟨.rc20, -1, [x.clock - accClock x 1 - 1]⟩ (by simp [StoreFpFp.evaluate, StoreFpFp.write])
  rw [h, sub_self] at this
  exact absurd (this (by decide) (0 - 1) (by simp)) (by decide)

/-- C39 is false of a step that touches a cell twice: in the run of `[fp + 1] = [fp] + [fp]; ret` the row written for the
addition fails a range check, because the second access is as old as the step. -/
theorem C39_violated_same_cell : ∃ p, importFirst [.instruction (.StoreAddFpFp 0 0 1), .instruction .Ret] =
    some (.ok p) ∧ ∃ w ∈ Comp.storeFpFp.writeTrace (Comp.storeFpFp.inputs p),
      ¬ (Comp.storeFpFp.eval w.row).TablesHold := by
  have : (match importFirst [.instruction (.StoreAddFpFp 0 0 1), .instruction .Ret] with
      | some (.ok p) => p.bundles.any fun b => b.instruction == .StoreAddFpFp 0 0 1 && accClock b 1 == b.clock
      | _ => false) = true := by decide +kernel
  split at this
  · next p hp =>
    refine ⟨p, hp, ?_⟩
    simp only [List.any_eq_true, Bool.and_eq_true, beq_iff_eq] at this
    obtain ⟨b, hb, hi, hc⟩ := this
    obtain ⟨j, hj⟩ := List.mem_iff_getElem?.1 ((mem_inputs .storeFpFp p b).2 ⟨hb, by rw [hi]; rfl⟩)
    exact ⟨_, List.mem_of_getElem? (writeTrace_get .storeFpFp _ hj), same_cell hc⟩
  · cases this

end Air
end CairoM
