import Verif.PrefixLemmas

/-!
# Segmented execution: specification and helper lemmas

Specification side: `Steps`, `Halts`, `Fails` (unsegmented execution), `joinTraces`, `joinLogs`, `replay`.
-/

namespace CairoM

open Memory

/-! ### Specification -/

/-- Unsegmented execution of `n` steps, none of them from the final program counter. -/
inductive Steps : ℕ → VM → VM → Prop
  | refl (vm) : Steps 0 vm vm
  | cons {n vm v1 v2} (hpc : vm.state.pc ≠ vm.finalPc) (hs : vm.step = .ok v1) (h : Steps n v1 v2) :
      Steps (n + 1) vm v2

/-- The unsegmented execution from `vm` stops in `vf`. -/
def Halts (vm vf : VM) : Prop := ∃ n, Steps n vm vf ∧ vf.state.pc = vf.finalPc

/-- The unsegmented execution from `vm` fails with `e`. -/
def Fails (vm : VM) (e : VMError) : Prop :=
  ∃ n v, Steps n vm v ∧ v.state.pc ≠ v.finalPc ∧ v.step = .error e

/-- Concatenation of segment traces: consecutive segments share one state. -/
def joinTraces : List Segment → List State
  | [] => []
  | [s] => s.trace
  | s :: t :: rest => s.trace.dropLast ++ joinTraces (t :: rest)

/-- Concatenation of the access logs. -/
def joinLogs (segs : List Segment) : List MemoryEntry := segs.flatMap Segment.memoryTrace

/-- What a memory becomes if the logged values are written into it in order. -/
def replay (mem : Isa.Mem) : List MemoryEntry → Isa.Mem
  | [] => mem
  | e :: es => replay (Function.update mem e.addr e.value) es

/-- The `initial_memory` map of a segment (`crates/runner/src/vm/mod.rs:206-220`): `None` for absent keys; the
heap entries are inserted after the locals and so take precedence. -/
def segmentInitialMemory (s : Segment) (a : M31) : Option QM31 :=
  if a.val ≤ MAX_ADDRESS then (s.initialHeap[MAX_ADDRESS - a.val]?).or s.initialLocals[a.val]?
  else s.initialLocals[a.val]?

/-- A VM at the start of a segment: nothing logged yet and the memory snapshot taken. -/
structure Fresh (vm : VM) : Prop where
  trace : vm.trace = []
  log : vm.memory.trace = []
  locals : vm.initialLocals = vm.memory.locals
  heap : vm.initialHeap = vm.memory.heap

/-! ### Lemmas -/

namespace Steps

theorem finalPc {n vm v} (h : Steps n vm v) : v.finalPc = vm.finalPc := by
  induction h with
  | refl => rfl
  | @cons n vm v1 v2 _ hs _ ih =>
    rw [ih]
    unfold VM.step at hs
    cases hg : Memory.getInstruction vm.state.pc vm.memory with
    | error e m => rw [hg] at hs; cases hs
    | ok ws m =>
      rw [hg] at hs
      dsimp only at hs
      cases hd : Instruction.decode ws with
      | error e => rw [hd] at hs; cases hs
      | ok i =>
        rw [hd] at hs
        dsimp only at hs
        cases hx : execInstr i vm.state m with
        | error e m => rw [hx] at hs; cases hs
        | ok s' m' =>
          rw [hx] at hs
          injection hs with hs
          rw [← hs]

theorem split {a b vm v} (h : Steps (a + b) vm v) : ∃ w, Steps a vm w ∧ Steps b w v := by
  induction a generalizing vm with
  | zero => rw [Nat.zero_add] at h; exact ⟨vm, .refl _, h⟩
  | succ a ih =>
    rw [Nat.succ_add] at h
    cases h with
    | cons hpc hs h =>
      obtain ⟨w, h1, h2⟩ := ih h
      exact ⟨w, .cons hpc hs h1, h2⟩

theorem trans {a b vm w v} (h1 : Steps a vm w) (h2 : Steps b w v) : Steps (a + b) vm v := by
  induction h1 with
  | refl => rw [Nat.zero_add]; exact h2
  | cons hpc hs _ ih => rw [Nat.succ_add]; exact .cons hpc hs (ih h2)

theorem executeLoop {j vm v} (h : Steps j vm v) (r : ℕ) :
    VM.executeLoop (j + r) vm = VM.executeLoop r v := by
  induction h with
  | refl => rw [Nat.zero_add]
  | cons hpc hs _ ih =>
    rw [Nat.succ_add, VM.executeLoop, if_neg hpc, hs]
    exact ih

/-- From a final state nothing more happens. -/
theorem final {n vm v} (h : Steps n vm v) (hpc : vm.state.pc = vm.finalPc) : n = 0 ∧ v = vm := by
  cases h with
  | refl => exact ⟨rfl, rfl⟩
  | cons hne => exact absurd hpc hne

theorem rebase {n vm v} (h : Steps n vm v) (t tr segs il ih) :
    Steps n (vm.rebase t tr segs il ih) (v.rebase t tr segs il ih) := by
  induction h with
  | refl => exact .refl _
  | cons hpc hs _ ih' =>
    refine .cons hpc ?_ ih'
    rw [VM.step_rebase, hs]; rfl

theorem of_rebase {n vm y} {t tr segs il ih} (h : Steps n (VM.rebase t tr segs il ih vm) y) :
    ∃ v, Steps n vm v ∧ y = v.rebase t tr segs il ih := by
  generalize hx : VM.rebase t tr segs il ih vm = x at h
  induction h generalizing vm with
  | refl => exact ⟨vm, .refl _, hx.symm⟩
  | cons hpc hs _ ih' =>
    subst hx
    rw [VM.step_rebase] at hs
    cases hv : vm.step with
    | error e => rw [hv] at hs; cases hs
    | ok v1 =>
      rw [hv] at hs
      injection hs with hs
      obtain ⟨v, h1, h2⟩ := ih' hs
      exact ⟨v, .cons hpc hv h1, h2⟩

end Steps

theorem step_trace {vm v : VM} (h : vm.step = .ok v) : v.trace = vm.trace ++ [vm.state] ∧
    v.segments = vm.segments ∧ v.initialLocals = vm.initialLocals ∧ v.initialHeap = vm.initialHeap ∧
    v.finalPc = vm.finalPc := by
  unfold VM.step at h
  cases hg : Memory.getInstruction vm.state.pc vm.memory with
  | error e m => rw [hg] at h; cases h
  | ok ws m =>
    rw [hg] at h
    dsimp only at h
    cases hd : Instruction.decode ws with
    | error e => rw [hd] at h; cases h
    | ok i =>
      rw [hd] at h
      dsimp only at h
      cases hx : execInstr i vm.state m with
      | error e m => rw [hx] at h; cases h
      | ok s' m' =>
        rw [hx] at h
        injection h with h
        rw [← h]
        exact ⟨rfl, rfl, rfl, rfl, rfl⟩

theorem Steps.bookkeeping {n vm v} (h : Steps n vm v) : v.trace.length = vm.trace.length + n ∧
    (vm.trace ++ [vm.state]) <+: (v.trace ++ [v.state]) ∧
    v.segments = vm.segments ∧ v.initialLocals = vm.initialLocals ∧ v.initialHeap = vm.initialHeap := by
  induction h with
  | refl => exact ⟨rfl, List.prefix_refl _, rfl, rfl, rfl⟩
  | cons hpc hs _ ih =>
    obtain ⟨t1, t2, t3, t4, _⟩ := step_trace hs
    obtain ⟨i1, i2, i3, i4, i5⟩ := ih
    refine ⟨?_, ?_, i3.trans t2, i4.trans t3, i5.trans t4⟩
    · rw [i1, t1]; simp; omega
    · refine List.IsPrefix.trans ?_ i2
      rw [t1]; exact List.prefix_append _ _

/-- `executeLoop` in terms of the unsegmented execution. -/
theorem executeLoop_inv (k : ℕ) (vm : VM) :
    match VM.executeLoop k vm with
    | .ok v => ∃ j ≤ k, Steps j vm v ∧ (v.state.pc = v.finalPc ∨ j = k)
    | .error e => Fails vm e := by
  induction k generalizing vm with
  | zero => exact ⟨0, le_rfl, .refl _, Or.inr rfl⟩
  | succ k ih =>
    unfold VM.executeLoop
    by_cases hpc : vm.state.pc = vm.finalPc
    · rw [if_pos hpc]; exact ⟨0, Nat.zero_le _, .refl _, Or.inl hpc⟩
    · rw [if_neg hpc]
      cases hs : vm.step with
      | error e => exact ⟨0, vm, .refl _, hpc, hs⟩
      | ok v1 =>
        dsimp only
        have := ih v1
        cases he : VM.executeLoop k v1 with
        | error e =>
          rw [he] at this
          obtain ⟨n, v, h1, h2, h3⟩ := this
          exact ⟨n + 1, v, .cons hpc hs h1, h2, h3⟩
        | ok v =>
          rw [he] at this
          obtain ⟨j, hj, h1, h2⟩ := this
          exact ⟨j + 1, by omega, .cons hpc hs h1, h2.imp id fun h => by omega⟩

/-- The `while` loop of the code, as a loop: `executeLoop (maxSteps - trace.len())` unfolds exactly as
`while pc != final_pc && trace.len() < max_steps { step()? }`. -/
theorem VM.executeLoop_while (maxSteps : ℕ) (vm : VM) :
    VM.executeLoop (maxSteps - vm.trace.length) vm =
      if vm.state.pc ≠ vm.finalPc ∧ vm.trace.length < maxSteps then
        match vm.step with
        | .error e => .error e
        | .ok vm' => VM.executeLoop (maxSteps - vm'.trace.length) vm'
      else .ok vm := by
  by_cases hlt : vm.trace.length < maxSteps
  · obtain ⟨d, hd⟩ : ∃ d, maxSteps - vm.trace.length = d + 1 := ⟨maxSteps - vm.trace.length - 1, by omega⟩
    rw [hd, VM.executeLoop]
    by_cases hpc : vm.state.pc = vm.finalPc
    · rw [if_pos hpc, if_neg (by tauto)]
    · rw [if_neg hpc, if_pos ⟨hpc, hlt⟩]
      cases hs : vm.step with
      | error e => rfl
      | ok v =>
        have := (step_trace hs).1
        dsimp only
        rw [this]
        congr 1
        simp; omega
  · rw [if_neg (by tauto), show maxSteps - vm.trace.length = 0 by omega]; rfl

theorem replay_append (mem : Isa.Mem) (a b : List MemoryEntry) :
    replay mem (a ++ b) = replay (replay mem a) b := by
  induction a generalizing mem with
  | nil => rfl
  | cons e a ih => exact ih _

theorem replay_reads (mem : Isa.Mem) (as : List M31) :
    replay mem (as.map fun a => ⟨a, mem a⟩) = mem := by
  induction as with
  | nil => rfl
  | cons a as ih =>
    show replay (Function.update mem a (mem a)) _ = mem
    rw [Function.update_eq_self]; exact ih

theorem replay_writes (mem : Isa.Mem) (ws : List (M31 × M31)) :
    replay mem (ws.map fun w => ⟨w.1, ⟨w.2, 0, 0, 0⟩⟩) = Isa.write mem ws := by
  induction ws generalizing mem with
  | nil => rfl
  | cons w ws ih => exact ih _

theorem step_replay {vm v : VM} (hm : vm.memory.WF) (h : vm.step = .ok v) :
    ∃ es, v.memory.trace = vm.memory.trace ++ es ∧ v.memory.view = replay vm.memory.view es := by
  obtain ⟨i, e, hs, hlow, he⟩ := step_inv hm h
  obtain ⟨h1, h2⟩ := step_some hm hs hlow he
  rw [h1] at h
  injection h with h
  subst h
  refine ⟨Isa.fetchLog vm.memory.view vm.state.pc i ++ e.log vm.memory.view, by simp, ?_⟩
  rw [view_log, view_storeAll _ _ h2, replay_append]
  unfold Isa.fetchLog Isa.Effect.log
  rw [replay_reads, replay_append, replay_reads, replay_writes]

theorem Steps.replay {n vm v} (hm : vm.memory.WF) (h : Steps n vm v) :
    v.memory.WF ∧ ∃ es, v.memory.trace = vm.memory.trace ++ es ∧
      v.memory.view = CairoM.replay vm.memory.view es := by
  induction h with
  | refl => exact ⟨hm, [], by simp, rfl⟩
  | cons hpc hs _ ih =>
    obtain ⟨es, h1, h2⟩ := step_replay hm hs
    obtain ⟨h3, fs, h4, h5⟩ := ih (WF_step hm hs)
    refine ⟨h3, es ++ fs, by rw [h4, h1, List.append_assoc], ?_⟩
    rw [h5, h2, replay_append]

theorem segmentInitialMemory_eq {s : Segment} {m : Memory} (hm : m.WF) (hl : s.initialLocals = m.locals)
    (hh : s.initialHeap = m.heap) (a : M31) : (segmentInitialMemory s a).getD QM31.zero = m.view a := by
  unfold segmentInitialMemory view
  unfold WF at hm
  rw [hl, hh]
  by_cases ha : a.val ≤ MAX_ADDRESS
  · rw [if_pos ha, if_pos ha]
    by_cases hlt : a.val < m.locals.length
    · have : m.heap[MAX_ADDRESS - a.val]? = none := by simp; omega
      rw [this]; simp [List.getElem?_eq_getElem hlt]
    · have : m.locals[a.val]? = none := by simp; omega
      rw [this]; simp
  · rw [if_neg ha, if_neg ha]
    have : m.locals[a.val]? = none := by simp; omega
    rw [this]; rfl

/-- Consecutive segments: the next one starts in the registers and the memory in which the previous ended. -/
def Follows (s t : Segment) : Prop :=
  s.trace.getLast? = t.trace.head? ∧
    ∀ a, (segmentInitialMemory t a).getD QM31.zero =
      replay (fun b => (segmentInitialMemory s b).getD QM31.zero) s.memoryTrace a

/-- What a complete segmented run records. `vm` is the fresh start and `vf` the end of the unsegmented run. -/
structure Recorded (k : ℕ) (vm vf : VM) (segs : List Segment) : Prop where
  traces : joinTraces segs = vf.trace ++ [vf.state]
  logs : joinLogs segs = vf.memory.trace
  short : ∀ s ∈ segs, 1 ≤ s.trace.length ∧ s.trace.length ≤ k + 1
  full : ∀ s ∈ segs.dropLast, s.trace.length = k + 1
  first : ∃ s rest, segs = s :: rest ∧ s.trace.head? = some vm.state ∧ s.initialLocals = vm.memory.locals ∧
    s.initialHeap = vm.memory.heap
  last : ∃ s, segs.getLast? = some s ∧ s.trace.getLast? = some vf.state
  chain : vm.memory.WF → segs.IsChain Follows

theorem execute_fresh {k : ℕ} {vm : VM} (hf : Fresh vm) (h0 : vm.finalPc ≠ 0) :
    vm.execute k = match VM.executeLoop k vm with
      | .error e => .error e
      | .ok v => .ok (if v.state.pc = v.finalPc then .complete else .ongoing,
          { v with trace := v.trace ++ [v.state] }) := by
  unfold VM.execute
  rw [if_neg h0, hf.trace, List.length_nil, Nat.sub_zero]
  cases VM.executeLoop k vm <;> rfl

theorem head_of_prefix {l : List State} {s : State} (h : (([] : List State) ++ [s]) <+: l) :
    l.head? = some s := by
  obtain ⟨t, ht⟩ := h
  rw [← ht]; rfl

/-- Main lemma: a halting unsegmented run is reproduced by the segmented one. -/
theorem segmentLoop_of_steps {k : ℕ} (hk : 1 ≤ k) (n : ℕ) : ∀ (vm vf : VM), Fresh vm → vm.finalPc ≠ 0 →
    Steps n vm vf → vf.state.pc = vf.finalPc →
    ∃ fuel vm' segs, VM.segmentLoop k fuel vm = some (.ok vm') ∧ vm'.state = vf.state ∧
      vm'.memory.locals = vf.memory.locals ∧ vm'.memory.heap = vf.memory.heap ∧
      vm'.segments = vm.segments ++ segs ∧ Recorded k vm vf segs := by
  induction n using Nat.strong_induction_on with
  | _ n ih =>
    intro vm vf hf h0 hsteps hfin
    by_cases hnk : n ≤ k
    · -- the last segment
      have hloop : VM.executeLoop k vm = .ok vf := by
        have := hsteps.executeLoop (k - n)
        rw [Nat.add_sub_cancel' hnk] at this
        rw [this]
        cases k - n with
        | zero => rfl
        | succ r => rw [VM.executeLoop, if_pos hfin]
      obtain ⟨b1, b2, b3, b4, b5⟩ := hsteps.bookkeeping
      rw [hf.trace] at b1 b2
      let seg : Segment := ⟨vf.initialLocals, vf.initialHeap, vf.memory.trace, vf.trace ++ [vf.state]⟩
      refine ⟨1, VM.finalizeSegment true { vf with trace := vf.trace ++ [vf.state] }, [seg], ?_, rfl, rfl, rfl,
        ?_, ?_⟩
      · unfold VM.segmentLoop
        rw [execute_fresh hf h0, hloop]
        simp only [hfin, if_true]
      · simp [VM.finalizeSegment, b3, seg]
      · constructor
        · rfl
        · simp [joinLogs, seg]
        · intro s hs
          rw [List.mem_singleton.1 hs]
          simp [seg, b1]; omega
        · intro s hs; simp at hs
        · exact ⟨seg, [], rfl, head_of_prefix b2, b4.trans hf.locals, b5.trans hf.heap⟩
        · exact ⟨seg, rfl, by simp [seg]⟩
        · intro _; exact List.isChain_singleton _
    · -- a full segment, then the rest
      obtain ⟨w, hw1, hw2⟩ : ∃ w, Steps k vm w ∧ Steps (n - k) w vf := by
        apply Steps.split; rw [show k + (n - k) = n by omega]; exact hsteps
      have hwpc : w.state.pc ≠ w.finalPc := by
        intro h; have := (hw2.final h).1; omega
      have hloop : VM.executeLoop k vm = .ok w := by
        have := hw1.executeLoop 0
        rw [Nat.add_zero] at this
        rw [this]; rfl
      obtain ⟨b1, b2, b3, b4, b5⟩ := hw1.bookkeeping
      rw [hf.trace] at b1 b2
      let seg : Segment := ⟨w.initialLocals, w.initialHeap, w.memory.trace, w.trace ++ [w.state]⟩
      let w' : VM := VM.finalizeSegment false { w with trace := w.trace ++ [w.state] }
      have hw'f : Fresh w' := ⟨rfl, rfl, rfl, rfl⟩
      have hreb : w = w'.rebase w.memory.trace w.trace w.segments w.initialLocals w.initialHeap := by
        simp [w', VM.rebase, VM.finalizeSegment, Memory.pre]
      have hw2' := hw2
      rw [hreb] at hw2'
      obtain ⟨v, hv1, hv2⟩ := Steps.of_rebase hw2'
      have hvfin : v.state.pc = v.finalPc := by rw [hv2] at hfin; exact hfin
      have hw0 : w'.finalPc ≠ 0 := by
        show w.finalPc ≠ 0
        rw [hw1.finalPc]; exact h0
      obtain ⟨fuel, vm', segs, r1, r2, r3, r4, r5, r6⟩ := ih (n - k) (by omega) w' v hw'f hw0 hv1 hvfin
      obtain ⟨s1, rest, hsegs, hs1, hs2, hs3⟩ := r6.first
      refine ⟨fuel + 1, vm', seg :: segs, ?_, ?_, ?_, ?_, ?_, ?_⟩
      · unfold VM.segmentLoop
        rw [execute_fresh hf h0, hloop]
        simp only [if_neg hwpc]
        exact r1
      · rw [r2, hv2]; rfl
      · rw [r3, hv2]; rfl
      · rw [r4, hv2]; rfl
      · rw [r5]; simp [w', VM.finalizeSegment, b3, seg]
      · constructor
        · rw [hsegs, joinTraces, ← hsegs, r6.traces, hv2]
          simp [seg, VM.rebase]
        · have := r6.logs
          unfold joinLogs at this ⊢
          rw [List.flatMap_cons, this, hv2]
          simp [seg, VM.rebase, Memory.pre]
        · intro s hs
          rcases List.mem_cons.1 hs with rfl | hs
          · simp [seg, b1]
          · exact r6.short s hs
        · intro s hs
          rw [hsegs, List.dropLast_cons_cons, ← hsegs] at hs
          rcases List.mem_cons.1 hs with rfl | hs
          · simp [seg, b1]
          · exact r6.full s hs
        · exact ⟨seg, segs, rfl, head_of_prefix b2, b4.trans hf.locals, b5.trans hf.heap⟩
        · obtain ⟨s, hl, he⟩ := r6.last
          refine ⟨s, ?_, ?_⟩
          · rw [hsegs] at hl ⊢
            rw [List.getLast?_cons_cons]; exact hl
          · rw [he, hv2]; rfl
        · intro hwf
          obtain ⟨hwwf, es, he1, he2⟩ := hw1.replay hwf
          rw [hf.log, List.nil_append] at he1
          have hch := r6.chain (show w'.memory.WF from hwwf)
          rw [hsegs] at hch ⊢
          refine List.IsChain.cons_cons ⟨?_, ?_⟩ hch
          · rw [hs1]; simp [seg, w', VM.finalizeSegment]
          · intro a
            rw [segmentInitialMemory_eq (m := w'.memory) hwwf hs2 hs3]
            have : (fun b => (segmentInitialMemory seg b).getD QM31.zero) = vm.memory.view := by
              funext b
              exact segmentInitialMemory_eq hwf (b4.trans hf.locals) (b5.trans hf.heap) b
            rw [this]
            show w.memory.view a = _
            rw [he2]
            show _ = CairoM.replay _ w.memory.trace a
            rw [he1]

theorem segmentLoop_of_fails {k : ℕ} (hk : 1 ≤ k) (e : VMError) (n : ℕ) : ∀ (vm v : VM), Fresh vm →
    vm.finalPc ≠ 0 → Steps n vm v → v.state.pc ≠ v.finalPc → v.step = .error e →
    ∃ fuel, VM.segmentLoop k fuel vm = some (.error e) := by
  induction n using Nat.strong_induction_on with
  | _ n ih =>
    intro vm v hf h0 hsteps hpc herr
    by_cases hnk : n < k
    · have hloop : VM.executeLoop k vm = .error e := by
        have := hsteps.executeLoop (k - n)
        rw [Nat.add_sub_cancel' (by omega)] at this
        rw [this, show k - n = (k - n - 1) + 1 by omega, VM.executeLoop, if_neg hpc, herr]
      refine ⟨1, ?_⟩
      unfold VM.segmentLoop
      rw [execute_fresh hf h0, hloop]
    · obtain ⟨w, hw1, hw2⟩ : ∃ w, Steps k vm w ∧ Steps (n - k) w v := by
        apply Steps.split; rw [show k + (n - k) = n by omega]; exact hsteps
      have hwpc : w.state.pc ≠ w.finalPc := by
        intro h
        have := hw2.final h
        rw [this.2] at hpc
        exact hpc h
      have hloop : VM.executeLoop k vm = .ok w := by
        have := hw1.executeLoop 0
        rw [Nat.add_zero] at this
        rw [this]; rfl
      let w' : VM := VM.finalizeSegment false { w with trace := w.trace ++ [w.state] }
      have hreb : w = w'.rebase w.memory.trace w.trace w.segments w.initialLocals w.initialHeap := by
        simp [w', VM.rebase, VM.finalizeSegment, Memory.pre]
      have hw2' := hw2
      rw [hreb] at hw2'
      obtain ⟨v', hv1, hv2⟩ := Steps.of_rebase hw2'
      have hv3 : v'.step = .error e := by
        rw [hv2, VM.step_rebase] at herr
        cases hs : v'.step with
        | error e' => rw [hs] at herr; injection herr with h; rw [h]
        | ok x => rw [hs] at herr; cases herr
      have hw0 : w'.finalPc ≠ 0 := by
        show w.finalPc ≠ 0
        rw [hw1.finalPc]; exact h0
      obtain ⟨fuel, hr⟩ := ih (n - k) (by omega) w' v' ⟨rfl, rfl, rfl, rfl⟩ hw0 hv1
        (by rw [hv2] at hpc; exact hpc) hv3
      refine ⟨fuel + 1, ?_⟩
      unfold VM.segmentLoop
      rw [execute_fresh hf h0, hloop]
      simp only [if_neg hwpc]
      exact hr

/-- More fuel changes nothing. -/
theorem segmentLoop_mono {k : ℕ} {fuel : ℕ} {vm : VM} {r} (h : VM.segmentLoop k fuel vm = some r) (d : ℕ) :
    VM.segmentLoop k (fuel + d) vm = some r := by
  induction fuel generalizing vm with
  | zero => cases h
  | succ fuel ih =>
    rw [Nat.succ_add]
    unfold VM.segmentLoop at h ⊢
    cases he : VM.execute k vm with
    | error e => rw [he] at h; exact h
    | ok x =>
      obtain ⟨st, v⟩ := x
      rw [he] at h
      cases st with
      | complete => exact h
      | ongoing => exact ih h

theorem segmentLoop_det {k f1 f2 : ℕ} {vm : VM} {r1 r2} (h1 : VM.segmentLoop k f1 vm = some r1)
    (h2 : VM.segmentLoop k f2 vm = some r2) : r1 = r2 := by
  have a := segmentLoop_mono h1 f2
  have b := segmentLoop_mono h2 f1
  rw [Nat.add_comm] at b
  rw [a] at b
  exact Option.some.inj b

/-- A finished segmented run comes from a finished unsegmented one. -/
theorem segmentLoop_inv {k : ℕ} (fuel : ℕ) : ∀ (vm : VM) (r), Fresh vm → vm.finalPc ≠ 0 →
    VM.segmentLoop k fuel vm = some r →
    match r with
    | .ok _ => ∃ vf, Halts vm vf
    | .error e => Fails vm e := by
  induction fuel with
  | zero => intro vm r _ _ h; cases h
  | succ fuel ih =>
    intro vm r hf h0 h
    unfold VM.segmentLoop at h
    rw [execute_fresh hf h0] at h
    have hinv := executeLoop_inv k vm
    cases hl : VM.executeLoop k vm with
    | error e =>
      rw [hl] at h hinv
      injection h with h
      rw [← h]
      exact hinv
    | ok w =>
      rw [hl] at h hinv
      obtain ⟨j, hj, hw, hor⟩ := hinv
      by_cases hpc : w.state.pc = w.finalPc
      · simp only [if_pos hpc] at h
        injection h with h
        rw [← h]
        exact ⟨w, j, hw, hpc⟩
      · simp only [if_neg hpc] at h
        let w' : VM := VM.finalizeSegment false { w with trace := w.trace ++ [w.state] }
        have hreb : w = w'.rebase w.memory.trace w.trace w.segments w.initialLocals w.initialHeap := by
          simp [w', VM.rebase, VM.finalizeSegment, Memory.pre]
        have hw0 : w'.finalPc ≠ 0 := by
          show w.finalPc ≠ 0
          rw [hw.finalPc]; exact h0
        have := ih w' r ⟨rfl, rfl, rfl, rfl⟩ hw0 h
        cases r with
        | ok v =>
          obtain ⟨vf, n, hn, hfin⟩ := this
          have := hn.rebase w.memory.trace w.trace w.segments w.initialLocals w.initialHeap
          rw [← hreb] at this
          exact ⟨_, j + n, hw.trans this, hfin⟩
        | error e =>
          obtain ⟨n, v, hn, hne, herr⟩ := this
          have := hn.rebase w.memory.trace w.trace w.segments w.initialLocals w.initialHeap
          rw [← hreb] at this
          refine ⟨j + n, _, hw.trans this, hne, ?_⟩
          rw [VM.step_rebase, herr]; rfl

end CairoM
