import Verif.Segments

/-!
# Properties C14, C15, C16: segmented runs
-/

namespace CairoM

open Memory

theorem writeArgs_trace (newFp : M31) (total i : ℕ) (args : List M31) (m m' : Memory)
    (h : VM.writeArgs newFp total i args m = .ok () m') : m'.trace = m.trace := by
  induction args generalizing i m with
  | nil => injection h with _ h; rw [h]
  | cons a as ih =>
    unfold VM.writeArgs at h
    have he := insertNoTrace_eq (newFp - M31.ofU32 (total + 2 - i)) (QM31.ofM31 a) m
    by_cases hr : (newFp - M31.ofU32 (total + 2 - i)).val ≤ MAX_ADDRESS
    · rw [if_pos hr] at he
      rw [bind_ok he] at h
      rw [ih _ _ h, trace_store]
    · rw [if_neg hr] at he
      rw [bind_error he] at h
      cases h

theorem insertEntrypointCall_trace (finalPc fp : M31) (m m' : Memory)
    (h : insertEntrypointCall finalPc fp m = .ok () m') : m'.trace = m.trace := by
  unfold insertEntrypointCall at h
  by_cases h2 : (fp - 2).val ≤ MAX_ADDRESS
  · rw [bind_ok (validateAddress_ok h2)] at h
    by_cases h1 : (fp - 1).val ≤ MAX_ADDRESS
    · rw [bind_ok (validateAddress_ok h1)] at h
      injection h with _ h
      rw [← h]
    · rw [bind_error (validateAddress_err h1)] at h; cases h
  · rw [bind_error (validateAddress_err h2)] at h; cases h

/-- A VM that has not run yet: nothing traced, nothing logged, no segment recorded. -/
structure Idle (vm : VM) : Prop where
  trace : vm.trace = []
  log : vm.memory.trace = []
  segments : vm.segments = []

theorem idle_load (prog : List ProgramData) : Idle (VM.load prog) := ⟨rfl, rfl, rfl⟩

theorem setup_fresh {vm : VM} (hidle : Idle vm) {pcEntry fpOffset numRet : ℕ} {args : List M31} {vm0 : VM}
    (h : vm.setupEntrypoint pcEntry fpOffset args numRet = .ok vm0) :
    Fresh vm0 ∧ vm0.segments = [] ∧ vm0.finalPc = vm.finalPc := by
  unfold VM.setupEntrypoint at h
  dsimp only at h
  set newFp := vm.state.fp + M31.ofU32 fpOffset with hfp
  cases hw : VM.writeArgs newFp (args.length + numRet) 0 args vm.memory with
  | error e m =>
    rw [bind_error hw] at h; cases h
  | ok u m =>
    rw [bind_ok hw] at h
    have ht := writeArgs_trace _ _ _ _ _ _ hw
    cases hi : insertEntrypointCall vm.finalPc newFp m with
    | error e m2 => rw [hi] at h; cases h
    | ok u2 m2 =>
      rw [hi] at h
      have ht2 := insertEntrypointCall_trace _ _ _ _ hi
      injection h with h
      subst h
      exact ⟨⟨hidle.trace, ht2.trans (ht.trans hidle.log), rfl, rfl⟩, hidle.segments, rfl⟩

/-- Two outcomes are the same run, however it was cut into segments: the same error, or the same final
registers, memory, joined execution trace and joined access log. -/
def SameRun : Except VMError VM → Except VMError VM → Prop
  | .error e1, .error e2 => e1 = e2
  | .ok a, .ok b => a.state = b.state ∧ a.memory.locals = b.memory.locals ∧ a.memory.heap = b.memory.heap ∧
      joinTraces a.segments = joinTraces b.segments ∧ joinLogs a.segments = joinLogs b.segments
  | _, _ => False

/-- An empty program completes at once, whatever the limit. -/
theorem segmentLoop_empty {k fuel : ℕ} {vm : VM} (h0 : vm.finalPc = 0) :
    VM.segmentLoop k (fuel + 1) vm = some (.ok (vm.finalizeSegment true)) := by
  unfold VM.segmentLoop VM.execute
  rw [if_pos h0]

/-- C14: if a run with some step limit finishes (or fails), a run with any other step limit finishes (fails)
too and is the same run. -/
theorem C14_limits_agree (vm : VM) (hidle : Idle vm) (pcEntry fpOffset numRet : ℕ) (args : List M31)
    (k1 k2 : ℕ) (hk1 : 1 ≤ k1) (hk2 : 1 ≤ k2) (fuel1 : ℕ) (r1 : Except VMError VM)
    (h1 : vm.runFromEntrypoint fuel1 k1 pcEntry fpOffset args numRet = some r1) :
    ∃ fuel2 r2, vm.runFromEntrypoint fuel2 k2 pcEntry fpOffset args numRet = some r2 ∧
      SameRun r1 r2 := by
  unfold VM.runFromEntrypoint at h1 ⊢
  cases hs : vm.setupEntrypoint pcEntry fpOffset args numRet with
  | error e =>
    rw [hs] at h1
    injection h1 with h1
    exact ⟨0, .error e, rfl, by rw [← h1]; rfl⟩
  | ok vm0 =>
    rw [hs] at h1
    dsimp only at h1 ⊢
    obtain ⟨hf, hseg, _⟩ := setup_fresh hidle hs
    by_cases h0 : vm0.finalPc = 0
    · have := segmentLoop_det h1 (segmentLoop_empty (fuel := 0) h0)
      rw [this]
      exact ⟨1, _, segmentLoop_empty h0, rfl, rfl, rfl, rfl, rfl⟩
    · have hinv := segmentLoop_inv fuel1 vm0 r1 hf h0 h1
      cases r1 with
      | error e =>
        obtain ⟨n, v, a1, a2, a3⟩ := hinv
        obtain ⟨fuel, hr⟩ := segmentLoop_of_fails hk2 e n vm0 v hf h0 a1 a2 a3
        exact ⟨fuel, _, hr, rfl⟩
      | ok v1 =>
        obtain ⟨vf, n, hn, hfin⟩ := hinv
        obtain ⟨f1, w1, s1, a1, a2, a3, a4, a5, a6⟩ := segmentLoop_of_steps hk1 n vm0 vf hf h0 hn hfin
        obtain ⟨f2, w2, s2, b1, b2, b3, b4, b5, b6⟩ := segmentLoop_of_steps hk2 n vm0 vf hf h0 hn hfin
        have e1 := segmentLoop_det h1 a1
        injection e1 with e1
        subst e1
        refine ⟨f2, _, b1, a2.trans b2.symm, a3.trans b3.symm, a4.trans b4.symm, ?_, ?_⟩
        · rw [a5, b5, hseg, List.nil_append, List.nil_append, a6.traces, b6.traces]
        · rw [a5, b5, hseg, List.nil_append, List.nil_append, a6.logs, b6.logs]

/-- C14: the common value is the unsegmented execution. -/
theorem C14_is_unsegmented (vm0 : VM) (hf : Fresh vm0) (h0 : vm0.finalPc ≠ 0) (k : ℕ) (hk : 1 ≤ k) :
    (∀ vf, Halts vm0 vf → ∃ fuel vm' segs, VM.segmentLoop k fuel vm0 = some (.ok vm') ∧
      vm'.state = vf.state ∧ vm'.memory.locals = vf.memory.locals ∧ vm'.memory.heap = vf.memory.heap ∧
      vm'.segments = vm0.segments ++ segs ∧ joinTraces segs = vf.trace ++ [vf.state] ∧
      joinLogs segs = vf.memory.trace) ∧
    (∀ e, Fails vm0 e → ∃ fuel, VM.segmentLoop k fuel vm0 = some (.error e)) ∧
    ((¬ ∃ vf, Halts vm0 vf) → (¬ ∃ e, Fails vm0 e) → ∀ fuel, VM.segmentLoop k fuel vm0 = none) := by
  refine ⟨?_, ?_, ?_⟩
  · rintro vf ⟨n, hn, hfin⟩
    obtain ⟨f, w, s, a1, a2, a3, a4, a5, a6⟩ := segmentLoop_of_steps hk n vm0 vf hf h0 hn hfin
    exact ⟨f, w, s, a1, a2, a3, a4, a5, a6.traces, a6.logs⟩
  · rintro e ⟨n, v, a1, a2, a3⟩
    exact segmentLoop_of_fails hk e n vm0 v hf h0 a1 a2 a3
  · intro hh hfl fuel
    cases hr : VM.segmentLoop k fuel vm0 with
    | none => rfl
    | some r =>
      have := segmentLoop_inv fuel vm0 r hf h0 hr
      cases r with
      | ok v => exact absurd this hh
      | error e => exact absurd ⟨e, this⟩ hfl

/-- C15: the segments recorded by a finished run. Every segment made at most `k` steps (its trace has one
more entry than it made steps), all but the last exactly `k`; the first starts at the entry point on the
initial memory; each next one starts in the registers in which the previous ended, and on the memory obtained
by replaying the previous segment's log on its initial memory; the last ends in the final registers. -/
theorem C15_segments_chain (vm : VM) (hidle : Idle vm) (hprog : vm.finalPc ≠ 0)
    (pcEntry fpOffset numRet : ℕ) (args : List M31) (k : ℕ) (hk : 1 ≤ k) (fuel : ℕ) (vm' vm0 : VM)
    (hs : vm.setupEntrypoint pcEntry fpOffset args numRet = .ok vm0) (hwf : vm0.memory.WF)
    (h : vm.runFromEntrypoint fuel k pcEntry fpOffset args numRet = some (.ok vm')) :
    (∀ s ∈ vm'.segments, 1 ≤ s.trace.length ∧ s.trace.length ≤ k + 1) ∧
    (∀ s ∈ vm'.segments.dropLast, s.trace.length = k + 1) ∧
    (∃ s rest, vm'.segments = s :: rest ∧ s.trace.head? = some vm0.state ∧
      ∀ a, (segmentInitialMemory s a).getD QM31.zero = vm0.memory.view a) ∧
    (∃ s, vm'.segments.getLast? = some s ∧ s.trace.getLast? = some vm'.state ∧
      ∀ a, vm'.memory.view a = replay (fun b => (segmentInitialMemory s b).getD QM31.zero) s.memoryTrace a) ∧
    vm'.segments.IsChain Follows ∧
    vm'.memory.view = replay vm0.memory.view (joinLogs vm'.segments) := by
  unfold VM.runFromEntrypoint at h
  rw [hs] at h
  dsimp only at h
  obtain ⟨hf, hseg, hfp⟩ := setup_fresh hidle hs
  have h0 : vm0.finalPc ≠ 0 := by rw [hfp]; exact hprog
  obtain ⟨vf, n, hn, hfin⟩ := segmentLoop_inv fuel vm0 _ hf h0 h
  obtain ⟨f1, w1, s1, a1, a2, a3, a4, a5, a6⟩ := segmentLoop_of_steps hk n vm0 vf hf h0 hn hfin
  have e1 := segmentLoop_det h a1
  injection e1 with e1
  subst e1
  rw [hseg, List.nil_append] at a5
  rw [a5]
  have hview : vm'.memory.view = vf.memory.view := by unfold view; rw [a3, a4]
  obtain ⟨hvwf, es, t1, t2⟩ := hn.replay hwf
  rw [hf.log, List.nil_append] at t1
  have hall : vm'.memory.view = replay vm0.memory.view (joinLogs s1) := by rw [hview, t2, a6.logs, t1]
  obtain ⟨s, rest, f1, f2, f3, f4⟩ := a6.first
  have hinit : ∀ a, (segmentInitialMemory s a).getD QM31.zero = vm0.memory.view a :=
    fun a => segmentInitialMemory_eq hwf f3 f4 a
  have hch := a6.chain hwf
  refine ⟨a6.short, a6.full, ⟨s, rest, f1, f2, hinit⟩, ?_, hch, hall⟩
  obtain ⟨l, l1, l2⟩ := a6.last
  refine ⟨l, l1, by rw [l2, a2], ?_⟩
  -- the last segment's memory: follow the chain
  have key : ∀ (segs : List Segment) (s : Segment) (rest), segs = s :: rest → segs.IsChain Follows →
      ∀ l, segs.getLast? = some l →
      replay (fun b => (segmentInitialMemory s b).getD QM31.zero) (joinLogs segs) =
        replay (fun b => (segmentInitialMemory l b).getD QM31.zero) l.memoryTrace := by
    intro segs
    induction segs with
    | nil => intro s rest h; cases h
    | cons x xs ih =>
      intro s rest h hc l hl
      injection h with h1 h2
      subst h1 h2
      cases xs with
      | nil =>
        simp only [List.getLast?_singleton, Option.some.injEq] at hl
        subst hl
        simp [joinLogs]
      | cons y ys =>
        rw [List.getLast?_cons_cons] at hl
        rw [List.isChain_cons_cons] at hc
        have := ih y ys rfl hc.2 l hl
        rw [← this]
        show replay _ (x.memoryTrace ++ joinLogs (y :: ys)) = _
        rw [replay_append]
        congr 1
        funext b
        exact (hc.1.2 b).symm
  intro a
  rw [hall]
  have hk := key s1 s rest f1 hch l l1
  rw [← hk]
  congr 1
  have : (fun b => (segmentInitialMemory s b).getD QM31.zero) = vm0.memory.view := funext hinit
  rw [this]

/-- C16, proved part: with a step limit of at least one, a run that halts (or fails) unsegmented ends. -/
theorem C16_terminates_partial (vm0 : VM) (hf : Fresh vm0) (h0 : vm0.finalPc ≠ 0) (k : ℕ) (hk : 1 ≤ k)
    (hh : (∃ vf, Halts vm0 vf) ∨ ∃ e, Fails vm0 e) :
    ∃ fuel r, VM.segmentLoop k fuel vm0 = some r := by
  rcases hh with ⟨vf, n, hn, hfin⟩ | ⟨e, n, v, a1, a2, a3⟩
  · obtain ⟨f, w, s, a1, _⟩ := segmentLoop_of_steps hk n vm0 vf hf h0 hn hfin
    exact ⟨f, _, a1⟩
  · obtain ⟨f, hr⟩ := segmentLoop_of_fails hk e n vm0 v hf h0 a1 a2 a3
    exact ⟨f, _, hr⟩

/-- C16, violated for the limit 0: the segment loop never ends, for any program with a step to make. -/
theorem C16_zero_diverges (vm0 : VM) (h0 : vm0.finalPc ≠ 0) (hpc : vm0.state.pc ≠ vm0.finalPc) (fuel : ℕ) :
    VM.segmentLoop 0 fuel vm0 = none := by
  induction fuel generalizing vm0 with
  | zero => rfl
  | succ fuel ih =>
    have hloop : VM.executeLoop (0 - vm0.trace.length) vm0 = .ok vm0 := by
      rw [Nat.zero_sub]; rfl
    unfold VM.segmentLoop VM.execute
    rw [if_neg h0, hloop]
    simp only [if_neg hpc]
    exact ih _ h0 hpc

/-- The program with the single instruction `ret`. -/
def retProgram : List ProgramData := [.instruction .Ret]

/-- C16: a program that halts after one step with the limit 1 and never ends with the limit 0. -/
theorem C16_violated :
    (∃ vm', (VM.load retProgram).runFromEntrypoint 5 1 0 2 [] 0 = some (.ok vm')) ∧
    ∀ fuel, (VM.load retProgram).runFromEntrypoint fuel 0 0 2 [] 0 = none := by
  constructor
  · refine ⟨_, rfl⟩
  · intro fuel
    unfold VM.runFromEntrypoint
    have hs : (VM.load retProgram).setupEntrypoint 0 2 [] 0 =
        .ok ⟨1, [⟨11, 0, 0, 0⟩, ⟨3, 0, 0, 0⟩, ⟨1, 0, 0, 0⟩], [],
          ⟨[⟨11, 0, 0, 0⟩, ⟨3, 0, 0, 0⟩, ⟨1, 0, 0, 0⟩], [], []⟩, ⟨0, 3⟩, 1, [], []⟩ := by decide
    rw [hs]
    exact C16_zero_diverges _ (by decide) (by decide) fuel

/-- Two nested activations: `main` calls `f`, which returns; `main` returns. Three steps, run with limit 2:
two segments. -/
example : ((VM.load [.instruction (.CallAbsImm 0 2), .instruction .Ret, .instruction .Ret]).runFromEntrypoint
      5 2 0 2 [] 0).map (fun r => match r with | .ok v => v.segments.map (·.trace) | .error _ => []) =
    some [[⟨0, 5⟩, ⟨2, 7⟩, ⟨1, 5⟩], [⟨1, 5⟩, ⟨3, 5⟩]] := by decide +kernel

end CairoM
