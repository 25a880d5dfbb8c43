import Verif.VMExec
import Verif.StepSpec
import Verif.InstructionProps

/-! Helper lemmas: instruction fetch and `VM.step` against the reference semantics. -/

namespace CairoM

open Memory

theorem val_add_one {a : M31} {n : ℕ} (h : a.val + 1 < n) (hn : n ≤ 2 ^ 28) : (a + 1).val = a.val + 1 := by
  have hlt : a.val + 1 < P := by unfold P; omega
  rw [ZMod.val_add_of_lt] <;> · rw [ZMod.val_one'' (by decide)]; try exact hlt

theorem view_of_lt {m : Memory} (hm : m.WF) {a : M31} (h : a.val < m.locals.length) :
    m.view a = m.locals[a.val] := by
  have : a.val ≤ MAX_ADDRESS := by unfold WF at hm; omega
  simp [view, this, List.getElem?_eq_getElem h]

theorem limbs_length (q : QM31) : q.limbs.length = 4 := rfl

theorem getElem?_locals {m : Memory} (hm : m.WF) {a : M31} (h : a.val < m.locals.length) :
    m.locals[a.val]? = some (m.view a) := by
  rw [view_of_lt hm h, List.getElem?_eq_getElem h]

theorem encode_head (i : Instruction) : i.encode = M31.ofU32 i.opcodeValue :: i.operands := rfl

theorem stored_opcode {mem : Isa.Mem} {pc : M31} {i : Instruction} (h : Isa.Stored mem pc i) :
    (mem pc).l0 = M31.ofU32 i.opcodeValue := by
  unfold Isa.Stored at h
  rw [encode_head, List.length_cons] at h
  simp only [QM31.limbs, List.cons_append, List.take_succ_cons, List.cons.injEq] at h
  exact h.1

theorem sizeTable_of_stored {mem : Isa.Mem} {pc : M31} {i : Instruction} (h : Isa.Stored mem pc i) :
    (Instruction.opcodeSizeTable[(mem pc).l0.val]?).join = some i.encode.length := by
  rw [stored_opcode h, Instruction.val_ofU32_opcode, (Instruction.C05_size_table i).2.1]; rfl

theorem getInstruction_stored {m : Memory} (hm : m.WF) {pc : M31} {i : Instruction}
    (hs : Isa.Stored m.view pc i) (hlow : pc.val + i.sizeInQM31s ≤ m.locals.length) :
    getInstruction pc m = .ok i.encode (m.log (Isa.fetchLog m.view pc i)) := by
  have hsz := sizeInQM31s_eq i
  have hlen := Instruction.length_encode i
  have hmax : i.encode.length ≤ 6 := Instruction.C05_max_size.1 i
  have h0 : pc.val < m.locals.length := by split_ifs at hsz <;> omega
  have hfirst := getElem?_locals hm h0
  unfold getInstruction
  show (match m.locals[pc.val]? with | none => _ | some q => _ : MemM _) m = _
  rw [hfirst]
  show (logEntry pc (m.view pc) >>= _) m = _
  rw [bind_ok (logEntry_eq _ _ _)]
  show (match (Instruction.opcodeSizeTable[(m.view pc).l0.val]?).join with | none => _ | some size => _ : MemM _) _ = _
  rw [sizeTable_of_stored hs]
  show (getMoreWords (pc + 1) (Instruction.divCeil4 i.encode.length - 1) >>= _) _ = _
  by_cases h4 : i.encode.length ≤ 4
  · have e1 : Instruction.divCeil4 i.encode.length - 1 = 0 := by unfold Instruction.divCeil4; omega
    have hz : getMoreWords (pc + 1) 0 (m.log [⟨pc, m.view pc⟩]) = .ok [] (m.log [⟨pc, m.view pc⟩]) := rfl
    rw [e1, bind_ok hz, pure_eq]
    have h := hs
    unfold Isa.Stored at h
    rw [List.take_append_of_le_length (by rw [limbs_length]; exact h4)] at h
    rw [List.append_nil, h]
    simp [Isa.fetchLog, Isa.codeCells, h4]
  · have e1 : Instruction.divCeil4 i.encode.length - 1 = 1 := by unfold Instruction.divCeil4; omega
    have h2 : pc.val + 1 < m.locals.length := by
      rw [if_neg (by omega)] at hsz; omega
    have hwf : m.locals.length ≤ 2 ^ 28 := by unfold WF MAX_ADDRESS at hm; omega
    have hv : (pc + 1).val = pc.val + 1 := val_add_one h2 hwf
    have hsecond : m.locals[(pc + 1).val]? = some (m.view (pc + 1)) := getElem?_locals hm (by omega)
    have hmore : getMoreWords (pc + 1) 1 (m.log [⟨pc, m.view pc⟩]) =
        .ok ((m.view (pc + 1)).limbs ++ []) ((m.log [⟨pc, m.view pc⟩]).log [⟨pc + 1, m.view (pc + 1)⟩]) := by
      unfold getMoreWords
      show (match m.locals[(pc + 1).val]? with | none => _ | some q => _ : MemM _) _ = _
      rw [hsecond]
      show (logEntry (pc + 1) (m.view (pc + 1)) >>= _) _ = _
      rw [bind_ok (logEntry_eq _ _ _)]
      rfl
    rw [e1, bind_ok hmore, pure_eq, List.append_nil]
    have h := hs
    unfold Isa.Stored at h
    rw [h, log_log]
    simp [Isa.fetchLog, Isa.codeCells, h4]

/-- Converse: a successful fetch-and-decode found a stored instruction in the low region. -/
theorem stored_of_getInstruction {m m' : Memory} (hm : m.WF) {pc : M31} {i : Instruction} {ws : List M31}
    (hg : getInstruction pc m = .ok ws m') (hd : Instruction.decode ws = .ok i) :
    Isa.Stored m.view pc i ∧ pc.val + i.sizeInQM31s ≤ m.locals.length := by
  have hws := Instruction.encode_of_decode hd
  have hsz := sizeInQM31s_eq i
  have hlen := Instruction.length_encode i
  have hmax : i.encode.length ≤ 6 := Instruction.C05_max_size.1 i
  unfold getInstruction at hg
  change (match m.locals[pc.val]? with | none => _ | some q => _ : MemM _) m = _ at hg
  by_cases h0 : pc.val < m.locals.length
  swap
  · rw [List.getElem?_eq_none (by omega)] at hg
    cases hg
  have hfirst := getElem?_locals hm h0
  rw [hfirst] at hg
  change (logEntry pc (m.view pc) >>= _) m = _ at hg
  rw [bind_ok (logEntry_eq _ _ _)] at hg
  change (match (Instruction.opcodeSizeTable[(m.view pc).l0.val]?).join with
    | none => _ | some size => _ : MemM _) _ = _ at hg
  have head_of : ∀ l : List M31, (m.view pc).limbs ++ l = (m.view pc).l0 :: [(m.view pc).l1, (m.view pc).l2,
    (m.view pc).l3] ++ l := fun _ => rfl
  cases ht : (Instruction.opcodeSizeTable[(m.view pc).l0.val]?).join with
  | none =>
    rw [ht] at hg
    have : ws = (m.view pc).limbs := by
      change EStateM.Result.ok _ _ = _ at hg
      injection hg with h1 _; exact h1.symm
    rw [this] at hws
    have hop : (m.view pc).l0 = M31.ofU32 i.opcodeValue := by
      rw [encode_head, QM31.limbs] at hws; injection hws
    rw [hop, Instruction.val_ofU32_opcode, (Instruction.C05_size_table i).2.1] at ht
    cases ht
  | some size =>
    rw [ht] at hg
    change (getMoreWords (pc + 1) (Instruction.divCeil4 size - 1) >>= _) _ = _ at hg
    have hsize : ∀ rest, ws = ((m.view pc).limbs ++ rest).take size → size = i.encode.length := by
      intro rest hr
      rw [hws] at hr
      have hpos : size ≠ 0 := by rintro rfl; rw [encode_head] at hr; simp at hr
      obtain ⟨k, rfl⟩ := Nat.exists_eq_succ_of_ne_zero hpos
      rw [head_of, encode_head, List.cons_append, List.take_succ_cons] at hr
      injection hr with h1 _
      rw [← h1, Instruction.val_ofU32_opcode, (Instruction.C05_size_table i).2.1] at ht
      simpa using ht.symm
    cases hmw : getMoreWords (pc + 1) (Instruction.divCeil4 size - 1) (m.log [⟨pc, m.view pc⟩]) with
    | error e m2 => rw [bind_error hmw] at hg; cases hg
    | ok rest m2 =>
      rw [bind_ok hmw, pure_eq] at hg
      have hw : ws = ((m.view pc).limbs ++ rest).take size := by injection hg with h1 _; exact h1.symm
      have hse := hsize rest hw
      subst hse
      by_cases h4 : i.encode.length ≤ 4
      · refine ⟨?_, by rw [hsz, if_pos (by omega)]; omega⟩
        unfold Isa.Stored
        rw [List.take_append_of_le_length (by rw [limbs_length]; exact h4)]
        rw [hws, List.take_append_of_le_length (by rw [limbs_length]; exact h4)] at hw
        exact hw.symm
      · have e1 : Instruction.divCeil4 i.encode.length - 1 = 1 := by unfold Instruction.divCeil4; omega
        rw [e1] at hmw
        unfold getMoreWords at hmw
        change (match m.locals[(pc + 1).val]? with | none => _ | some q => _ : MemM _) _ = _ at hmw
        by_cases h1 : (pc + 1).val < m.locals.length
        swap
        · rw [List.getElem?_eq_none (by omega)] at hmw; cases hmw
        rw [getElem?_locals hm h1] at hmw
        change (logEntry (pc + 1) (m.view (pc + 1)) >>= _) _ = _ at hmw
        rw [bind_ok (logEntry_eq _ _ _)] at hmw
        change EStateM.Result.ok _ _ = _ at hmw
        have hrest : rest = (m.view (pc + 1)).limbs ++ [] := by injection hmw with h1 _; exact h1.symm
        rw [List.append_nil] at hrest
        have hwf : m.locals.length ≤ 2 ^ 28 := by unfold WF MAX_ADDRESS at hm; omega
        have hpc : (pc + 1).val = pc.val + 1 := by
          have hlt : pc.val + 1 < P := by unfold P; omega
          rw [ZMod.val_add_of_lt] <;> · rw [ZMod.val_one'' (by decide)]; try exact hlt
        refine ⟨?_, by rw [hsz, if_neg (by omega)]; omega⟩
        unfold Isa.Stored
        rw [hws, hrest] at hw
        exact hw.symm

theorem agrees_none {r : EStateM.Result VMError Memory State} {m : Memory} {o : Option Isa.Effect}
    (h : Agrees r m o) (ho : o = none) : IsErr r := by
  cases h with
  | fault h => exact h
  | ok e _ _ => cases ho

theorem agrees_some {r : EStateM.Result VMError Memory State} {m : Memory} {o : Option Isa.Effect}
    {e : Isa.Effect} (h : Agrees r m o) (ho : o = some e) :
    r = .ok ⟨e.pc, e.fp⟩ ((m.storeAll e.writes).log (e.log m.view)) ∧ ∀ w ∈ e.writes, Isa.InRange w.1 := by
  cases h with
  | fault h => cases ho
  | ok e' h1 h2 => cases ho; exact ⟨h1, h2⟩

/-- Successful step, computed. -/
theorem step_some {vm : VM} (hm : vm.memory.WF) {i : Instruction} {e : Isa.Effect}
    (hs : Isa.Stored vm.memory.view vm.state.pc i)
    (hlow : vm.state.pc.val + i.sizeInQM31s ≤ vm.memory.locals.length)
    (he : Isa.sem i vm.state.pc vm.state.fp vm.memory.view = some e) :
    vm.step = .ok { vm with
      memory := (vm.memory.storeAll e.writes).log
        (Isa.fetchLog vm.memory.view vm.state.pc i ++ e.log vm.memory.view)
      state := ⟨e.pc, e.fp⟩, trace := vm.trace ++ [vm.state] } ∧ ∀ w ∈ e.writes, Isa.InRange w.1 := by
  have hx := agrees_some (exec_agrees i vm.state
    (vm.memory.log (Isa.fetchLog vm.memory.view vm.state.pc i))) he
  refine ⟨?_, hx.2⟩
  unfold VM.step
  rw [getInstruction_stored hm hs hlow]
  show (match Instruction.decode i.encode with | .error e => _ | .ok i => _ : Except VMError VM) = _
  rw [Instruction.decode_encode]
  show (match execInstr i vm.state _ with | .error e _ => _ | .ok s' mem' => _ : Except VMError VM) = _
  rw [hx.1, storeAll_log, log_log]
  rfl

theorem step_none {vm : VM} (hm : vm.memory.WF) {i : Instruction}
    (hs : Isa.Stored vm.memory.view vm.state.pc i)
    (hlow : vm.state.pc.val + i.sizeInQM31s ≤ vm.memory.locals.length)
    (he : Isa.sem i vm.state.pc vm.state.fp vm.memory.view = none) : ∃ err, vm.step = .error err := by
  obtain ⟨err, m', hx⟩ := agrees_none (exec_agrees i vm.state
    (vm.memory.log (Isa.fetchLog vm.memory.view vm.state.pc i))) he
  refine ⟨err, ?_⟩
  unfold VM.step
  rw [getInstruction_stored hm hs hlow]
  show (match Instruction.decode i.encode with | .error e => _ | .ok i => _ : Except VMError VM) = _
  rw [Instruction.decode_encode]
  show (match execInstr i vm.state _ with | .error e _ => _ | .ok s' mem' => _ : Except VMError VM) = _
  rw [hx]

/-- Converse: every successful step executed a stored instruction. -/
theorem step_inv {vm vm' : VM} (hm : vm.memory.WF) (h : vm.step = .ok vm') :
    ∃ i e, Isa.Stored vm.memory.view vm.state.pc i ∧
      vm.state.pc.val + i.sizeInQM31s ≤ vm.memory.locals.length ∧
      Isa.sem i vm.state.pc vm.state.fp vm.memory.view = some e := by
  unfold VM.step at h
  cases hg : getInstruction vm.state.pc vm.memory with
  | error e m => rw [hg] at h; cases h
  | ok ws m =>
    rw [hg] at h
    cases hd : Instruction.decode ws with
    | error e => simp only [hd] at h; cases h
    | ok i =>
      obtain ⟨hs, hlow⟩ := stored_of_getInstruction hm hg hd
      cases he : Isa.sem i vm.state.pc vm.state.fp vm.memory.view with
      | none =>
        obtain ⟨err, h'⟩ := step_none hm hs hlow he
        have : vm.step = .ok vm' := by unfold VM.step; rw [hg]; exact h
        rw [h'] at this; cases this
      | some e => exact ⟨i, e, hs, hlow, he⟩

end CairoM
