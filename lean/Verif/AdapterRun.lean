import Verif.AdapterPublic
import Verif.SegmentProps

/-!
# The adapter on the log of a run

Specification: `StepInfo`, `History` (what was executed), `stepLog`.
-/

namespace CairoM

open Abi Memory

/-- What happened at a step: registers and memory before, instruction, effect. -/
structure StepInfo where
  state : State
  mem : Isa.Mem
  instr : Instruction
  effect : Isa.Effect

/-- The steps the VM executed from one state to another, in terms of the reference semantics. -/
inductive History : VM → List StepInfo → VM → Prop
  | nil (vm : VM) : History vm [] vm
  | cons {vm v1 v2 : VM} {x : StepInfo} {xs : List StepInfo} (hpc : vm.state.pc ≠ vm.finalPc) (hs : vm.step = .ok v1)
      (hst : x.state = vm.state) (hmem : x.mem = vm.memory.view) (hin : Isa.Stored x.mem x.state.pc x.instr)
      (hef : Isa.sem x.instr x.state.pc x.state.fp x.mem = some x.effect) (h : History v1 xs v2) :
      History vm (x :: xs) v2

/-- The accesses of a step: fetching the instruction, reading operands, writing results. -/
def StepInfo.log (x : StepInfo) : List MemoryEntry := Isa.fetchLog x.mem x.state.pc x.instr ++ x.effect.log x.mem

/-- Print instructions. -/
def Instruction.IsPrint (i : Instruction) : Prop := (∃ o, i = .PrintM31 o) ∨ ∃ o, i = .PrintU32 o

theorem Steps.history {n : ℕ} {vm v : VM} (hm : vm.memory.WF) (h : Steps n vm v) :
    ∃ xs, History vm xs v ∧ xs.length = n := by
  induction h with
  | refl => exact ⟨[], .nil _, rfl⟩
  | @cons n vm v1 v2 hpc hs h ih =>
    obtain ⟨i, e, h1, h2, h3⟩ := step_inv hm hs
    obtain ⟨xs, hxs, hl⟩ := ih (WF_step hm hs)
    exact ⟨⟨vm.state, vm.memory.view, i, e⟩ :: xs, .cons hpc hs rfl rfl h1 h3 hxs, by rw [List.length_cons, hl]⟩

theorem stored_inj {mem : Isa.Mem} {pc : M31} {i j : Instruction} (hi : Isa.Stored mem pc i)
    (hj : Isa.Stored mem pc j) : i = j := by
  have h1 := sizeTable_of_stored hi
  have h2 := sizeTable_of_stored hj
  rw [h1] at h2
  injection h2 with h2
  unfold Isa.Stored at hi hj
  rw [h2, hj] at hi
  have := Instruction.decode_encode j
  rw [hi, Instruction.decode_encode] at this
  injection this

theorem History.record {vm v : VM} {xs : List StepInfo} (hm : vm.memory.WF) (h : History vm xs v) :
    v.memory.WF ∧ v.trace = vm.trace ++ xs.map StepInfo.state ∧
      v.memory.trace = vm.memory.trace ++ xs.flatMap StepInfo.log ∧
      v.memory.view = replay vm.memory.view (xs.flatMap StepInfo.log) ∧ Steps xs.length vm v := by
  induction h with
  | nil => exact ⟨hm, by simp, by simp, rfl, .refl _⟩
  | @cons vm v1 v2 x xs hpc hs hst hmem hin hef h ih =>
    obtain ⟨i1, i2, i3, i4, i5⟩ := ih (WF_step hm hs)
    obtain ⟨i, e, h1, h2, h3⟩ := step_inv hm hs
    have hi : i = x.instr := stored_inj h1 (by rw [← hmem, ← hst]; exact hin)
    subst hi
    have he : e = x.effect := by
      rw [hmem, hst] at hef
      rw [hef] at h3
      injection h3 with h3; exact h3.symm
    subst he
    obtain ⟨h4, h5⟩ := step_some hm h1 h2 h3
    rw [hs] at h4
    injection h4 with h4
    have hlog : x.log = Isa.fetchLog vm.memory.view vm.state.pc x.instr ++ x.effect.log vm.memory.view := by
      unfold StepInfo.log; rw [hmem, hst]
    refine ⟨i1, ?_, ?_, ?_, .cons hpc hs i5⟩
    · rw [i2, h4, List.map_cons, hst]; simp
    · rw [i3, h4, List.flatMap_cons, hlog]; simp
    · rw [i4, List.flatMap_cons, replay_append, hlog]
      congr 1
      rw [h4]
      show ((vm.memory.storeAll x.effect.writes).log _).view = _
      rw [view_log, view_storeAll _ _ h5, replay_append]
      unfold Isa.fetchLog Isa.Effect.log
      rw [replay_reads, replay_append, replay_reads, replay_writes]

namespace Adapter

/-! ### The iterator, computed -/

/-- An access of the log with a clock. -/
def toAccess (clock : ℕ) (e : MemoryEntry) : Access := ⟨e.addr, e.value, M31.ofU32 clock⟩

/-- The data access made of a record. -/
def MemoryArg.data (x : MemoryArg) : DataAccess := ⟨x.address, x.prevClock, x.prevVal.l0, x.value.l0⟩

theorem pushAll_append (m : PMemory) (a b : List Access) :
    m.pushAll (a ++ b) = (m.pushAll a).bind fun p => (p.1.pushAll b).map fun q => (q.1, p.2 ++ q.2) := by
  induction a generalizing m with
  | nil =>
    show m.pushAll b = (m.pushAll b).map fun q => (q.1, [] ++ q.2)
    cases m.pushAll b with
    | none => rfl
    | some q => obtain ⟨q1, q2⟩ := q; rfl
  | cons e a ih =>
    simp only [List.cons_append, PMemory.pushAll, Option.bind_eq_bind]
    cases m.push e with
    | none => rfl
    | some p =>
      obtain ⟨m1, x⟩ := p
      simp only [Option.bind_some]
      rw [ih]
      cases m1.pushAll a with
      | none => rfl
      | some p =>
        simp only [Option.bind_some]
        show _ = ((p.1.pushAll b).map fun q => (q.1, (x :: p.2) ++ q.2))
        cases p.1.pushAll b with
        | none => rfl
        | some q => rfl

theorem take_ok {e : MemoryEntry} {rest : List MemoryEntry} {m m' : PMemory} {c : ℕ} {arg : MemoryArg}
    {err : ImportError} (h : m.push (toAccess c e) = some (m', arg)) :
    Iter.take ⟨e :: rest, m, c⟩ err = .ok (⟨rest, m', c⟩, arg) := by
  unfold Iter.take
  simp only
  have h : m.push ⟨e.addr, e.value, M31.ofU32 c⟩ = some (m', arg) := h
  rw [h]

theorem operands_ok (l rest : List MemoryEntry) : ∀ (m m' : PMemory) (c : ℕ) (args : List MemoryArg),
    m.pushAll (l.map (toAccess c)) = some (m', args) →
    Iter.operands ⟨l ++ rest, m, c⟩ l.length = .ok (⟨rest, m', c⟩, args.map MemoryArg.data) := by
  induction l with
  | nil =>
    intro m m' c args h
    injection h with h
    injection h with h1 h2
    subst h1 h2
    rfl
  | cons e l ih =>
    intro m m' c args h
    simp only [List.map_cons, PMemory.pushAll, Option.bind_eq_bind] at h
    obtain ⟨⟨m1, x⟩, h1, h⟩ := Option.bind_eq_some_iff.1 h
    obtain ⟨⟨m2, xs⟩, h2, h⟩ := Option.bind_eq_some_iff.1 h
    injection h with h
    injection h with h3 h4
    subst h3 h4
    have e1 := take_ok (rest := l ++ rest) (err := .unexpectedEndOfTrace) h1
    have e2 := ih _ _ _ _ h2
    simp only [List.length_cons, Iter.operands, List.cons_append, e1, bind, Except.bind, e2]
    rfl

theorem length_pushAll {m m' : PMemory} {es : List Access} {args : List MemoryArg}
    (h : m.pushAll es = some (m', args)) : args.length = es.length := by
  induction es generalizing m args with
  | nil =>
    injection h with h
    injection h with h1 h2
    rw [← h2]; rfl
  | cons e es ih =>
    simp only [PMemory.pushAll, Option.bind_eq_bind] at h
    obtain ⟨⟨m1, x⟩, h1, h⟩ := Option.bind_eq_some_iff.1 h
    obtain ⟨⟨m2, xs⟩, h2, h⟩ := Option.bind_eq_some_iff.1 h
    injection h with h
    injection h with h3 h4
    rw [← h4, List.length_cons, ih (h2.trans (by rw [← h3])), List.length_cons]

theorem push_value {m m' : PMemory} {e : Access} {arg : MemoryArg} (h : m.push e = some (m', arg)) :
    arg.address = e.address ∧ arg.value = e.value ∧ arg.clock = e.clock := by
  unfold PMemory.push at h
  simp only at h
  split_ifs at h
  · injection h with h
    injection h with h1 h2
    rw [← h2]; exact ⟨rfl, rfl, rfl⟩
  · split at h
    · cases h
    · injection h with h
      injection h with h1 h2
      rw [← h2]; exact ⟨rfl, rfl, rfl⟩

theorem pushAll_values {m m' : PMemory} {es : List Access} {args : List MemoryArg}
    (h : m.pushAll es = some (m', args)) :
    args.map (fun x => (x.address, x.value, x.clock)) = es.map fun e => (e.address, e.value, e.clock) := by
  induction es generalizing m args with
  | nil =>
    injection h with h
    injection h with h1 h2
    rw [← h2]; rfl
  | cons e es ih =>
    simp only [PMemory.pushAll, Option.bind_eq_bind] at h
    obtain ⟨⟨m1, x⟩, h1, h⟩ := Option.bind_eq_some_iff.1 h
    obtain ⟨⟨m2, xs⟩, h2, h⟩ := Option.bind_eq_some_iff.1 h
    injection h with h
    injection h with h3 h4
    rw [← h4, List.map_cons, ih (h2.trans (by rw [← h3])), List.map_cons]
    obtain ⟨p1, p2, p3⟩ := push_value h1
    rw [p1, p2, p3]

/-- The bundle of a step, given the records of its accesses. -/
def bundleOf (clock : ℕ) (x : StepInfo) (args : List MemoryArg) : Bundle :=
  ⟨x.state, M31.ofU32 clock, x.instr, (args.head?.map MemoryArg.prevClock).getD 0,
    (args.drop (Isa.codeCells x.state.pc x.instr).length).map MemoryArg.data⟩

theorem accesses_length {x : StepInfo} (hef : Isa.sem x.instr x.state.pc x.state.fp x.mem = some x.effect)
    (hp : ¬ x.instr.IsPrint) : (x.effect.log x.mem).length = x.instr.memoryAccesses := by
  unfold Isa.Effect.log
  rw [List.length_append, List.length_map, List.length_map]
  exact (sem_shape hef).2 (fun o h => hp (.inl ⟨o, h⟩)) (fun o h => hp (.inr ⟨o, h⟩))

theorem size_of_stored {mem : Isa.Mem} {pc : M31} {i : Instruction} (h : Isa.Stored mem pc i) :
    Instruction.sizeInM31sForOpcode (mem pc).l0.val = some i.encode.length := by
  rw [stored_opcode h, Instruction.val_ofU32_opcode, (Instruction.C05_size_table i).1]

theorem bundle_ok (x : StepInfo) (hin : Isa.Stored x.mem x.state.pc x.instr)
    (hef : Isa.sem x.instr x.state.pc x.state.fp x.mem = some x.effect) (hp : ¬ x.instr.IsPrint)
    (rest : List MemoryEntry) (m m' : PMemory) (c : ℕ) (args : List MemoryArg)
    (h : m.pushAll (x.log.map (toAccess c)) = some (m', args)) :
    Iter.bundle ⟨x.log ++ rest, m, c⟩ x.state = .ok (⟨rest, m', c + 1⟩, bundleOf c x args) := by
  have hsz := size_of_stored hin
  have hlen := accesses_length hef hp
  have hmax : x.instr.encode.length ≤ 6 := Instruction.C05_max_size.1 x.instr
  have hdec : Instruction.decode (((x.mem x.state.pc).limbs ++ (x.mem (x.state.pc + 1)).limbs).take
      x.instr.encode.length) = .ok x.instr := by
    have := hin
    unfold Isa.Stored at this
    rw [this]; exact Instruction.decode_encode _
  by_cases h4 : x.instr.encode.length ≤ 4
  · have hcells : Isa.codeCells x.state.pc x.instr = [x.state.pc] := by unfold Isa.codeCells; rw [if_pos h4]
    have hlog : x.log = ⟨x.state.pc, x.mem x.state.pc⟩ :: x.effect.log x.mem := by
      unfold StepInfo.log Isa.fetchLog; rw [hcells]; rfl
    rw [hlog] at h ⊢
    simp only [List.map_cons, PMemory.pushAll, Option.bind_eq_bind] at h
    obtain ⟨⟨m1, y⟩, h1, h⟩ := Option.bind_eq_some_iff.1 h
    obtain ⟨⟨m2, ys⟩, h2, h⟩ := Option.bind_eq_some_iff.1 h
    injection h with h
    injection h with h3 h4'
    subst h3 h4'
    obtain ⟨-, hv, -⟩ := push_value h1
    have hv : y.value = x.mem x.state.pc := hv
    have e1 := take_ok (rest := x.effect.log x.mem ++ rest) (err := .emptyTrace) h1
    have e2 := operands_ok _ rest _ _ _ _ h2
    rw [hlen] at e2
    have e3 : Iter.secondWord ⟨x.effect.log x.mem ++ rest, m1, c⟩ x.instr.encode.length =
        .ok (⟨x.effect.log x.mem ++ rest, m1, c⟩, []) := by
      unfold Iter.secondWord Instruction.divCeil4
      rw [if_neg (by omega)]
    rw [List.take_append_of_le_length (by rw [limbs_length]; exact h4)] at hdec
    unfold Iter.bundle
    simp only [List.cons_append, e1, bind, Except.bind, hv, hsz, e3, List.append_nil, hdec, e2]
    unfold bundleOf
    rw [hcells]
    rfl
  · have hcells : Isa.codeCells x.state.pc x.instr = [x.state.pc, x.state.pc + 1] := by
      unfold Isa.codeCells; rw [if_neg h4]
    have hlog : x.log = ⟨x.state.pc, x.mem x.state.pc⟩ :: ⟨x.state.pc + 1, x.mem (x.state.pc + 1)⟩ ::
        x.effect.log x.mem := by
      unfold StepInfo.log Isa.fetchLog; rw [hcells]; rfl
    rw [hlog] at h ⊢
    simp only [List.map_cons, PMemory.pushAll, Option.bind_eq_bind] at h
    obtain ⟨⟨m1, y⟩, h1, h⟩ := Option.bind_eq_some_iff.1 h
    obtain ⟨⟨m2, ys⟩, h2, h⟩ := Option.bind_eq_some_iff.1 h
    injection h with h
    injection h with h3 h4'
    subst h3 h4'
    obtain ⟨⟨m3, z⟩, h2a, h2⟩ := Option.bind_eq_some_iff.1 h2
    obtain ⟨⟨m4, zs⟩, h2b, h2⟩ := Option.bind_eq_some_iff.1 h2
    injection h2 with h2
    injection h2 with h5 h6
    subst h5 h6
    obtain ⟨-, hv, -⟩ := push_value h1
    have hv : y.value = x.mem x.state.pc := hv
    obtain ⟨-, hv2, -⟩ := push_value h2a
    have hv2 : z.value = x.mem (x.state.pc + 1) := hv2
    have e1 := take_ok (rest := ⟨x.state.pc + 1, x.mem (x.state.pc + 1)⟩ :: (x.effect.log x.mem ++ rest))
      (err := .emptyTrace) h1
    have e2 := operands_ok _ rest _ _ _ _ h2b
    rw [hlen] at e2
    have e1' := take_ok (rest := x.effect.log x.mem ++ rest) (err := .unexpectedEndOfTrace) h2a
    have e3 : Iter.secondWord ⟨⟨x.state.pc + 1, x.mem (x.state.pc + 1)⟩ :: (x.effect.log x.mem ++ rest), m1, c⟩
        x.instr.encode.length = .ok (⟨x.effect.log x.mem ++ rest, m3, c⟩, [(x.mem (x.state.pc + 1)).l0] ++
          if x.instr.encode.length > 5 then [(x.mem (x.state.pc + 1)).l1] else []) := by
      unfold Iter.secondWord Instruction.divCeil4
      rw [if_pos (by omega)]
      simp only [e1', bind, Except.bind, hv2, if_pos (show x.instr.encode.length > 4 by omega)]
      rfl
    have hws : (x.mem x.state.pc).limbs.take x.instr.encode.length ++ ([(x.mem (x.state.pc + 1)).l0] ++
          if x.instr.encode.length > 5 then [(x.mem (x.state.pc + 1)).l1] else []) =
        ((x.mem x.state.pc).limbs ++ (x.mem (x.state.pc + 1)).limbs).take x.instr.encode.length := by
      obtain h5 | h5 : x.instr.encode.length = 5 ∨ x.instr.encode.length = 6 := by omega
      · rw [h5]; rfl
      · rw [h5]; rfl
    rw [← hws] at hdec
    simp only [List.cons_append] at hdec
    unfold Iter.bundle
    simp only [List.cons_append, e1, bind, Except.bind, hv, hsz, e3, hdec, e2]
    unfold bundleOf
    rw [hcells]
    rfl

/-- The accesses of a history with their clocks, from a given clock on. -/
def accessesFrom : ℕ → List StepInfo → List Access
  | _, [] => []
  | c, x :: xs => x.log.map (toAccess c) ++ accessesFrom (c + 1) xs

/-- The bundles of a history, given the records of the accesses of every step. -/
def bundlesOf : ℕ → List StepInfo → List (List MemoryArg) → List Bundle
  | c, x :: xs, as :: ass => bundleOf c x as :: bundlesOf (c + 1) xs ass
  | _, _, _ => []

theorem bundles_ok {vm v : VM} {xs : List StepInfo} (h : History vm xs v) (hp : ∀ x ∈ xs, ¬ x.instr.IsPrint)
    (fin : State) (rest : List MemoryEntry) : ∀ (m m' : PMemory) (c : ℕ) (args : List MemoryArg),
    m.pushAll (accessesFrom c xs) = some (m', args) →
    ∃ ass : List (List MemoryArg), ass.flatten = args ∧ ass.length = xs.length ∧
      (∀ (k : ℕ) (x : StepInfo) (as : List MemoryArg), xs[k]? = some x → ass[k]? = some as →
        as.map (fun y => (y.address, y.value, y.clock)) =
          x.log.map fun e => (e.addr, e.value, M31.ofU32 (c + k))) ∧
      Iter.bundles ⟨xs.flatMap StepInfo.log ++ rest, m, c⟩ (xs.map StepInfo.state ++ [fin]) =
        .ok (⟨rest, m', c + xs.length⟩, bundlesOf c xs ass, some fin) := by
  induction h with
  | nil vm =>
    intro m m' c args h
    injection h with h
    injection h with h1 h2
    subst h1 h2
    exact ⟨[], rfl, rfl, by simp, rfl⟩
  | @cons vm v1 v2 x xs hpc hs hst hmem hin hef h ih =>
    intro m m' c args ha
    unfold accessesFrom at ha
    rw [pushAll_append] at ha
    obtain ⟨⟨m1, a1⟩, h1, ha⟩ := Option.bind_eq_some_iff.1 ha
    obtain ⟨⟨m2, a2⟩, h2, ha⟩ := Option.map_eq_some_iff.1 ha
    injection ha with h3 h4
    subst h3 h4
    obtain ⟨ass, i1, i2, i3, i4⟩ := ih (fun y hy => hp y (List.mem_cons_of_mem _ hy)) _ _ _ _ h2
    have hb := bundle_ok x hin hef (hp x List.mem_cons_self) (xs.flatMap StepInfo.log ++ rest) _ _ _ _ h1
    refine ⟨a1 :: ass, by rw [List.flatten_cons, i1], by rw [List.length_cons, List.length_cons, i2], ?_, ?_⟩
    · intro k y as hk hk'
      cases k with
      | zero =>
        simp only [List.getElem?_cons_zero, Option.some.injEq] at hk hk'
        subst hk hk'
        rw [pushAll_values h1, List.map_map]
        rfl
      | succ k =>
        rw [List.getElem?_cons_succ] at hk hk'
        have := i3 k y as hk hk'
        rw [this, show c + 1 + k = c + (k + 1) by omega]
    · rw [List.flatMap_cons, List.append_assoc, List.map_cons, List.cons_append]
      obtain ⟨s, tr, htr⟩ : ∃ s tr, xs.map StepInfo.state ++ [fin] = s :: tr := by
        cases xs with
        | nil => exact ⟨_, _, rfl⟩
        | cons y ys => exact ⟨_, _, rfl⟩
      rw [htr] at i4 ⊢
      unfold Iter.bundles
      simp only [bind, Except.bind, hb, i4]
      rw [List.length_cons, show c + 1 + xs.length = c + (xs.length + 1) by omega]
      rfl

theorem length_bundlesOf (xs : List StepInfo) : ∀ (c : ℕ) (ass : List (List MemoryArg)), ass.length = xs.length →
    (bundlesOf c xs ass).length = xs.length ∧
      ∀ (k : ℕ) (x : StepInfo) (as : List MemoryArg), xs[k]? = some x → ass[k]? = some as → (bundlesOf c xs ass)[k]? = some (bundleOf (c + k) x as) := by
  induction xs with
  | nil => intro c ass _; exact ⟨rfl, by simp⟩
  | cons x xs ih =>
    intro c ass h
    cases ass with
    | nil => simp at h
    | cons as ass =>
      rw [List.length_cons, List.length_cons] at h
      obtain ⟨h1, h2⟩ := ih (c + 1) ass (by omega)
      refine ⟨by unfold bundlesOf; rw [List.length_cons, h1, List.length_cons], ?_⟩
      intro k y bs hk hk'
      unfold bundlesOf
      cases k with
      | zero =>
        simp only [List.getElem?_cons_zero, Option.some.injEq] at hk hk' ⊢
        rw [hk, hk']; rfl
      | succ k =>
        rw [List.getElem?_cons_succ] at hk hk' ⊢
        rw [h2 k y bs hk hk', show c + 1 + k = c + (k + 1) by omega]

/-! ### Segments -/

/-- A recorded segment is the record of a history from a fresh VM. -/
structure IsRecordOf (s : Segment) (w w' : VM) (xs : List StepInfo) : Prop where
  fresh : Fresh w
  wf : w.memory.WF
  history : History w xs w'
  locals : s.initialLocals = w.memory.locals
  heap : s.initialHeap = w.memory.heap
  log : s.memoryTrace = w'.memory.trace
  trace : s.trace = w'.trace ++ [w'.state]

theorem segmentLoop_records {k : ℕ} (fuel : ℕ) : ∀ (vm vm' : VM), Fresh vm → vm.memory.WF → vm.finalPc ≠ 0 →
    VM.segmentLoop k fuel vm = some (.ok vm') →
    ∀ s ∈ vm'.segments, s ∈ vm.segments ∨ ∃ w w' xs, IsRecordOf s w w' xs ∧ xs.length ≤ k := by
  induction fuel with
  | zero => intro vm vm' _ _ _ h; cases h
  | succ fuel ih =>
    intro vm vm' hf hwf h0 h s hs
    unfold VM.segmentLoop at h
    rw [execute_fresh hf h0] at h
    have hinv := executeLoop_inv k vm
    cases hl : VM.executeLoop k vm with
    | error e => rw [hl] at h; injection h with h; cases h
    | ok w =>
      rw [hl] at h hinv
      obtain ⟨j, hj, hw, -⟩ := hinv
      obtain ⟨xs, hxs, hlen⟩ := hw.history hwf
      obtain ⟨-, -, b3, b4, b5⟩ := hw.bookkeeping
      obtain ⟨hwwf, -⟩ := hw.replay hwf
      have hseg : ∀ s, s = (⟨w.initialLocals, w.initialHeap, w.memory.trace, w.trace ++ [w.state]⟩ : Segment) →
          IsRecordOf s vm w xs := by
        rintro s rfl
        exact ⟨hf, hwf, hxs, b4.trans hf.locals, b5.trans hf.heap, rfl, rfl⟩
      by_cases hpc : w.state.pc = w.finalPc
      · simp only [if_pos hpc] at h
        injection h with h
        injection h with h
        rw [← h] at hs
        simp only [VM.finalizeSegment, List.mem_append, List.mem_singleton] at hs
        rcases hs with hs | hs
        · left; rw [← b3]; exact hs
        · right; exact ⟨vm, w, xs, hseg s hs, by omega⟩
      · simp only [if_neg hpc] at h
        rcases ih (VM.finalizeSegment false { w with trace := w.trace ++ [w.state] }) vm' ⟨rfl, rfl, rfl, rfl⟩ hwwf
          (by show w.finalPc ≠ 0; rw [hw.finalPc]; exact h0) h s hs with h' | h'
        · simp only [VM.finalizeSegment, List.mem_append, List.mem_singleton] at h'
          rcases h' with h' | h'
          · left; rw [← b3]; exact h'
          · right; exact ⟨vm, w, xs, hseg s h', by omega⟩
        · exact .inr h'

/-! ### The initial memory of a segment -/

theorem get_foldl_insert (l : List (M31 × Cell)) : ∀ (m : CellMap) (a : M31),
    (l.foldl (fun m p => m.insert p.1 p.2) m).get a =
      match l.reverse.find? (fun p => p.1 = a) with
      | some p => some p.2
      | none => m.get a := by
  induction l with
  | nil => intro m a; rfl
  | cons p l ih =>
    intro m a
    rw [List.foldl_cons, ih, List.reverse_cons, List.find?_append, get_insert]
    cases l.reverse.find? (fun p => decide (p.1 = a)) with
    | some q => rfl
    | none =>
      simp only [Option.none_or, List.find?_cons, List.find?_nil]
      by_cases h : a = p.1
      · simp [h]
      · have : ¬ p.1 = a := fun h' => h h'.symm
        simp [h, this]

theorem runner_foldl (l : List (M31 × Cell)) (hl : ∀ p ∈ l, p.2.clock = 0 ∧ p.2.mult = 0) :
    ∀ m, RunnerMap m → RunnerMap (l.foldl (fun m p => m.insert p.1 p.2) m) := by
  induction l with
  | nil => exact fun _ h => h
  | cons p l ih =>
    intro m h
    refine ih (fun q hq => hl q (List.mem_cons_of_mem _ hq)) _ ⟨nodup_insert h.nodup _ _, ?_⟩
    intro q hq
    unfold CellMap.insert at hq
    rcases List.mem_cons.1 hq with rfl | hq
    · exact hl _ List.mem_cons_self
    · exact h.fresh q (List.mem_filter.1 hq).1

theorem runner_segmentMap (s : Segment) : RunnerMap (segmentMap s) := by
  unfold segmentMap
  refine runner_foldl _ ?_ [] ⟨List.nodup_nil, by simp⟩
  intro p hp
  rw [List.mem_append, List.mem_map, List.mem_map] at hp
  rcases hp with ⟨q, -, rfl⟩ | ⟨q, -, rfl⟩ <;> exact ⟨rfl, rfl⟩

end Adapter
end CairoM
