import Verif.StepLemmas

/-!
# Properties C03, C05 (access counts), C10, C12, C13, C17, C18: one VM step
-/

namespace CairoM

open Memory

/-! ### C03: fetch -/

theorem stored_of_layout (i : Instruction) (rest : List QM31) (q0 q1 : QM31)
    (h0 : (i.toQM31s ++ rest)[0]? = some q0)
    (h1 : i.encode.length ≤ 4 ∨ (i.toQM31s ++ rest)[1]? = some q1) :
    (q0.limbs ++ q1.limbs).take i.encode.length = i.encode := by
  cases i <;>
    simp [Instruction.toQM31s, Instruction.packQM31s, Instruction.encode, Instruction.operands] at h0 h1 ⊢ <;>
    subst h0 <;> first | rfl | (subst h1; rfl)

/-- C03: an instruction laid out anywhere in the code region is fetched exactly, the words it occupies are
logged, and no cell changes. `pre` and `post` are the words before and after it. -/
theorem C03_fetch (pre post heap : List QM31) (log : List MemoryEntry) (i : Instruction)
    (hsize : (pre ++ i.toQM31s ++ post).length + heap.length ≤ 2 ^ 28) :
    getInstruction (pre.length : M31) ⟨pre ++ i.toQM31s ++ post, heap, log⟩ =
      .ok i.encode ⟨pre ++ i.toQM31s ++ post, heap,
        log ++ i.toQM31s.zipIdx.map fun (q, k) => ⟨((pre.length + k : ℕ) : M31), q⟩⟩ := by
  set m : Memory := ⟨pre ++ i.toQM31s ++ post, heap, log⟩ with hmdef
  have hwf : m.WF := by simp only [WF, hmdef, MAX_ADDRESS]; omega
  have hlen : i.toQM31s.length = i.sizeInQM31s := (Instruction.C05_words i).2.1
  have hsz := sizeInQM31s_eq i
  have hle := Instruction.length_encode i
  simp only [List.length_append] at hsize
  have hP : ∀ k, k < 2 ^ 28 → ((k : ℕ) : M31).val = k := fun k hk => ZMod.val_natCast_of_lt (by unfold P; omega)
  have hpos : 1 ≤ i.sizeInQM31s := by split_ifs at hsz <;> omega
  have hv0 : ((pre.length : ℕ) : M31).val = pre.length := hP _ (by omega)
  have hlow : ((pre.length : ℕ) : M31).val + i.sizeInQM31s ≤ m.locals.length := by
    simp only [hmdef, List.length_append, hv0]; omega
  have view_at : ∀ k q, (i.toQM31s ++ post)[k]? = some q → k < i.sizeInQM31s →
      m.view ((pre.length + k : ℕ) : M31) = q := by
    intro k q hq hk
    have hv : ((pre.length + k : ℕ) : M31).val = pre.length + k := hP _ (by omega)
    have hlt : ((pre.length + k : ℕ) : M31).val < m.locals.length := by
      simp only [hmdef, List.length_append, hv]; omega
    have := getElem?_locals hwf hlt
    rw [hv] at this
    simp only [hmdef, List.append_assoc] at this
    rw [List.getElem?_append_right (by omega), Nat.add_sub_cancel_left, hq] at this
    simpa [hmdef] using this.symm
  have hget : ∀ k (hk : k < i.sizeInQM31s), (i.toQM31s ++ post)[k]? = some (i.toQM31s[k]'(by omega)) := by
    intro k hk
    rw [List.getElem?_append_left (by omega), List.getElem?_eq_getElem]
  have hstored : Isa.Stored m.view (pre.length : M31) i := by
    apply stored_of_layout i post
    · rw [hget 0 (by omega)]; congr 1
      have := view_at 0 _ (hget 0 (by omega)) (by omega)
      simpa using this.symm
    · by_cases h4 : i.encode.length ≤ 4
      · exact Or.inl h4
      · right
        have h2 : 1 < i.sizeInQM31s := by rw [hsz, if_neg (by omega)]; omega
        rw [hget 1 h2]; congr 1
        have := view_at 1 _ (hget 1 h2) h2
        push_cast at this
        exact this.symm
  rw [getInstruction_stored hwf hstored hlow]
  have hz : Isa.fetchLog m.view (pre.length : M31) i =
      i.toQM31s.zipIdx.map fun (q, k) => ⟨((pre.length + k : ℕ) : M31), q⟩ := by
    unfold Isa.fetchLog Isa.codeCells
    by_cases h4 : i.encode.length ≤ 4
    · have h1 : i.toQM31s.length = 1 := by rw [hlen, hsz, if_pos (by omega)]
      obtain ⟨q, hq⟩ := List.length_eq_one_iff.1 h1
      have := view_at 0 q (by rw [hq]; rfl) (by omega)
      rw [if_pos h4, hq]
      simpa using this
    · have h1 : i.toQM31s.length = 2 := by rw [hlen, hsz, if_neg (by omega)]
      obtain ⟨q, q', hq⟩ := List.length_eq_two.1 h1
      have e0 := view_at 0 q (by rw [hq]; rfl) (by omega)
      have e1 := view_at 1 q' (by rw [hq]; rfl) (by omega)
      rw [if_neg h4, hq]
      push_cast at e1
      simp at e0
      simp [e0, e1]
  rw [hz]
  rfl

/-- C03 for a loaded program: instruction number `A.length` of `A ++ [i] ++ B` is found at the address that
counts the words of `A`. -/
theorem C03_fetch_loaded (A B : List ProgramData) (i : Instruction)
    (hsize : ((A ++ [ProgramData.instruction i] ++ B).flatMap ProgramData.words).length ≤ 2 ^ 28) :
    ∃ m', getInstruction ((A.flatMap ProgramData.words).length : M31)
        (VM.load (A ++ [.instruction i] ++ B)).memory = .ok i.encode m' ∧
      m'.locals = (VM.load (A ++ [.instruction i] ++ B)).memory.locals ∧ m'.heap = [] := by
  have hw : (A ++ [ProgramData.instruction i] ++ B).flatMap ProgramData.words =
      A.flatMap ProgramData.words ++ i.toQM31s ++ B.flatMap ProgramData.words := by
    simp [ProgramData.words]
  have hmem : (VM.load (A ++ [.instruction i] ++ B)).memory =
      ⟨A.flatMap ProgramData.words ++ i.toQM31s ++ B.flatMap ProgramData.words, [], []⟩ := by
    unfold VM.load ofWords
    simp only [hw]
  rw [hmem]
  rw [hw] at hsize
  exact ⟨_, C03_fetch _ _ [] [] i (by simpa using hsize), rfl, rfl⟩

example : getInstruction 1 ⟨[⟨9, 1, 2, 0⟩, ⟨18, 7, 8, 9⟩, ⟨10, 0, 0, 0⟩, ⟨11, 0, 0, 0⟩], [], []⟩ =
    .ok [18, 7, 8, 9, 10] ⟨[⟨9, 1, 2, 0⟩, ⟨18, 7, 8, 9⟩, ⟨10, 0, 0, 0⟩, ⟨11, 0, 0, 0⟩], [],
      [⟨1, ⟨18, 7, 8, 9⟩⟩, ⟨2, ⟨10, 0, 0, 0⟩⟩]⟩ := by decide

/-! ### C10: one step implements the reference semantics -/

/-- C10 (handlers): executing any instruction in any state on any memory either has exactly the effect given
by the reference semantics (registers, every cell, log) or, if the reference semantics has a fault, errors. -/
theorem C10_instruction (i : Instruction) (s : State) (m : Memory) :
    match Isa.sem i s.pc s.fp m.view with
    | none => ∃ err m', execInstr i s m = .error err m'
    | some e => ∃ m', execInstr i s m = .ok ⟨e.pc, e.fp⟩ m' ∧ m'.view = e.memory m.view ∧
        m'.trace = m.trace ++ e.log m.view := by
  have h := exec_agrees i s m
  cases he : Isa.sem i s.pc s.fp m.view with
  | none => exact agrees_none h he
  | some e =>
    obtain ⟨h1, h2⟩ := agrees_some h he
    exact ⟨_, h1, by rw [view_log, view_storeAll _ _ h2]; rfl, by simp⟩

/-- C10 (whole step): if `i` is the instruction stored at `pc` in the code region, one VM step has exactly the
reference effect, or errors if the reference semantics faults. -/
theorem C10_step (vm : VM) (hm : vm.memory.WF) (i : Instruction)
    (hs : Isa.Stored vm.memory.view vm.state.pc i)
    (hlow : vm.state.pc.val + i.sizeInQM31s ≤ vm.memory.locals.length) :
    match Isa.sem i vm.state.pc vm.state.fp vm.memory.view with
    | none => ∃ err, vm.step = .error err
    | some e => ∃ vm', vm.step = .ok vm' ∧ vm'.state = ⟨e.pc, e.fp⟩ ∧
        vm'.memory.view = e.memory vm.memory.view ∧ vm'.trace = vm.trace ++ [vm.state] ∧
        vm'.finalPc = vm.finalPc ∧ vm'.segments = vm.segments := by
  cases he : Isa.sem i vm.state.pc vm.state.fp vm.memory.view with
  | none => exact step_none hm hs hlow he
  | some e =>
    obtain ⟨h1, h2⟩ := step_some hm hs hlow he
    exact ⟨_, h1, rfl, by rw [view_log, view_storeAll _ _ h2]; rfl, rfl, rfl, rfl⟩

/-- C10 (converse): a VM step succeeds only by executing an instruction stored at `pc`, with the reference
effect. -/
theorem C10_step_only (vm vm' : VM) (hm : vm.memory.WF) (h : vm.step = .ok vm') :
    ∃ st : Isa.Step vm.state.pc vm.state.fp vm.memory.view vm'.state.pc vm'.state.fp vm'.memory.view,
      vm.state.pc.val + st.instr.sizeInQM31s ≤ vm.memory.locals.length := by
  obtain ⟨i, e, hs, hlow, he⟩ := step_inv hm h
  obtain ⟨h1, h2⟩ := step_some hm hs hlow he
  rw [h1] at h
  injection h with h
  subst h
  exact ⟨⟨i, hs, e, he, rfl, rfl, by rw [view_log, view_storeAll _ _ h2]; rfl⟩, hlow⟩

/-- The region invariant is kept by every step, so the hypothesis `WF` of C10 holds along every run. -/
theorem WF_step {vm vm' : VM} (hm : vm.memory.WF) (h : vm.step = .ok vm') : vm'.memory.WF := by
  obtain ⟨i, e, hs, hlow, he⟩ := step_inv hm h
  obtain ⟨h1, h2⟩ := step_some hm hs hlow he
  rw [h1] at h
  injection h with h
  subst h
  exact WF_log (WF_storeAll hm _ h2) _

theorem WF_load (prog : List ProgramData) (h : (prog.flatMap ProgramData.words).length ≤ 2 ^ 28) :
    (VM.load prog).memory.WF := by
  simp only [VM.load, ofWords, WF, MAX_ADDRESS, List.length_nil]
  omega

/-- A concrete step: `[fp+2] = [fp+0] + [fp+1]` at pc 0 with fp 1. -/
example : ∃ vm', (VM.mk 9 [] [] ⟨[⟨0, 0, 1, 2⟩, ⟨3, 0, 0, 0⟩, ⟨4, 0, 0, 0⟩], [], []⟩ ⟨0, 1⟩ 1 [] []).step = .ok vm' ∧
    vm'.memory.locals = [⟨0, 0, 1, 2⟩, ⟨3, 0, 0, 0⟩, ⟨4, 0, 0, 0⟩, ⟨7, 0, 0, 0⟩] ∧ vm'.state = ⟨1, 1⟩ :=
  ⟨VM.mk 9 [] [] ⟨[⟨0, 0, 1, 2⟩, ⟨3, 0, 0, 0⟩, ⟨4, 0, 0, 0⟩, ⟨7, 0, 0, 0⟩], [],
    [⟨0, ⟨0, 0, 1, 2⟩⟩, ⟨1, ⟨3, 0, 0, 0⟩⟩, ⟨2, ⟨4, 0, 0, 0⟩⟩, ⟨3, ⟨7, 0, 0, 0⟩⟩]⟩ ⟨1, 1⟩ 1 [⟨0, 1⟩] [],
    by decide, rfl, rfl⟩

/-! ### C12: faults -/

/-- Words that are not base-field elements are rejected when used as felts. -/
theorem C12_wide_word (m : Memory) (a : M31) (ha : a.val < 2 ^ 28) (h : ¬ (m.view a).isBase) :
    getData a m = .error (.baseFieldProjectionFailed a (m.view a)) m := by
  rw [getData_eq, if_pos (by unfold MAX_ADDRESS; omega), if_neg h]

/-- A failed assertion is reported with both values. -/
theorem C12_assert_fails (m : Memory) (s : State) (a imm x : M31)
    (hx : Isa.felt m.view (s.fp + a) = some x) (hne : x ≠ imm) :
    ∃ m', execInstr (.AssertEqFpImm a imm) s m = .error (.assertionFailed x imm) m' := by
  dsimp only [execInstr]
  unfold assertEqFpImm
  rw [bind_ok (getData_some hx), if_pos hne]
  exact ⟨_, rfl⟩

/-- u32 division by a zero memory operand is an invalid-operand error. -/
theorem C12_div_zero (m : Memory) (s : State) (a b d r : M31) (x : ℕ)
    (hx : Isa.u32 m.view (s.fp + a) = some x) (hy : Isa.u32 m.view (s.fp + b) = some 0) :
    ∃ m', execInstr (.U32StoreDivRemFpFp a b d r) s m = .error .invalidOperand m' := by
  dsimp only [execInstr]
  unfold u32DivRemFpFp
  rw [bind_ok (getU32_some hx), bind_ok (getU32_some (m := m.log _) hy), if_pos rfl]
  exact ⟨_, rfl⟩

/-- u32 division by the zero immediate is an invalid-operand error, whatever the dividend. -/
theorem C12_div_zero_imm (m : Memory) (s : State) (a d r : M31) :
    execInstr (.U32StoreDivRemFpImm a 0 0 d r) s m = .error .invalidOperand m := by
  dsimp only [execInstr]
  unfold u32DivRemFpImm
  rw [bind_ok (checkImm_some (n := 0) (by decide) m).1, if_pos (by decide)]; rfl

/-- The u32 instructions with an immediate given as two limbs. -/
def immInstr (a lo hi d r : M31) : List Instruction :=
  [.U32StoreAddFpImm a lo hi d, .U32StoreMulFpImm a lo hi d, .U32StoreDivRemFpImm a lo hi d r,
    .U32StoreImm lo hi d, .U32StoreEqFpImm a lo hi d, .U32StoreLtFpImm a lo hi d, .U32StoreAndFpImm a lo hi d,
    .U32StoreOrFpImm a lo hi d, .U32StoreXorFpImm a lo hi d]

/-- An immediate limb of more than 16 bits is reported before anything is read or written. -/
theorem C12_bad_immediate (m : Memory) (s : State) (a lo hi d r : M31)
    (hbad : 2 ^ 16 ≤ lo.val ∨ 2 ^ 16 ≤ hi.val) (i : Instruction) (hi' : i ∈ immInstr a lo hi d r) :
    execInstr i s m = .error (.u32LimbOutOfRange lo.val hi.val) m := by
  have hc : checkImm lo hi m = .error (.u32LimbOutOfRange lo.val hi.val) m := by
    unfold checkImm; rw [if_pos (by unfold U32_LIMB_MASK; omega)]; rfl
  simp only [immInstr, List.mem_cons, List.not_mem_nil, or_false] at hi'
  rcases hi' with rfl | rfl | rfl | rfl | rfl | rfl | rfl | rfl | rfl <;>
    dsimp only [execInstr, u32BinFpImm, u32DivRemFpImm, u32StoreImm, u32CmpFpImm] <;>
    rw [bind_error hc]

/-- The u32 instructions reading a u32 first operand at `fp + a`. -/
def u32Readers (a b lo hi d r : M31) : List Instruction :=
  [.U32StoreAddFpFp a b d, .U32StoreSubFpFp a b d, .U32StoreMulFpFp a b d, .U32StoreDivRemFpFp a b d r,
    .U32StoreEqFpFp a b d, .U32StoreLtFpFp a b d, .U32StoreAndFpFp a b d, .U32StoreOrFpFp a b d,
    .U32StoreXorFpFp a b d, .U32StoreAddFpImm a lo hi d, .U32StoreMulFpImm a lo hi d,
    .U32StoreDivRemFpImm a lo hi d r, .U32StoreEqFpImm a lo hi d, .U32StoreLtFpImm a lo hi d,
    .U32StoreAndFpImm a lo hi d, .U32StoreOrFpImm a lo hi d, .U32StoreXorFpImm a lo hi d, .PrintU32 a]

/-- A u32 operand that is not two 16-bit limbs (limb too large, wide word, out of range) makes every u32
instruction fail. -/
theorem C12_bad_operand (m : Memory) (s : State) (a b lo hi d r : M31)
    (hbad : Isa.u32 m.view (s.fp + a) = none) (i : Instruction) (hi' : i ∈ u32Readers a b lo hi d r) :
    ∃ err m', execInstr i s m = .error err m' := by
  apply agrees_none (exec_agrees i s m)
  simp only [u32Readers, List.mem_cons, List.not_mem_nil, or_false] at hi'
  rcases hi' with rfl | rfl | rfl | rfl | rfl | rfl | rfl | rfl | rfl | rfl | rfl | rfl | rfl | rfl | rfl | rfl |
    rfl | rfl
  all_goals dsimp only [Isa.sem, Isa.bin32, Isa.bin32Imm]
  all_goals first
    | rw [hbad, Option.bind_eq_bind, Option.bind_none]
    | (cases Isa.ofLimbs lo hi with
       | none => rw [Option.bind_eq_bind, Option.bind_none]
       | some y =>
         rw [Option.bind_eq_bind, Option.bind_some, hbad]
         rw [Option.bind_none])

/-- Felt division by zero is a fault (a Rust panic, not a `VmError`). -/
theorem C12_felt_div_zero (m : Memory) (s : State) (a b d x : M31)
    (hx : Isa.felt m.view (s.fp + a) = some x) (hy : Isa.felt m.view (s.fp + b) = some 0) :
    ∃ m', execInstr (.StoreDivFpFp a b d) s m = .error .panic m' := by
  dsimp only [execInstr]
  unfold storeBinFpFp
  rw [bind_ok (getData_some hx), bind_ok (getData_some (m := m.log _) hy)]
  exact ⟨_, rfl⟩

example : ¬ ((Memory.ofWords [⟨1, 1, 0, 0⟩]).view 0).isBase := by decide

/-! ### C17: frame condition -/

/-- The cells each instruction's operands designate for writing, in a state with frame pointer `fp` and
memory `mem`. -/
def designated (i : Instruction) (fp : M31) (mem : Isa.Mem) : List M31 :=
  match i with
  | .StoreAddFpFp _ _ d | .StoreSubFpFp _ _ d | .StoreMulFpFp _ _ d | .StoreDivFpFp _ _ d => [fp + d]
  | .StoreAddFpImm _ _ d | .StoreMulFpImm _ _ d | .StoreLeFpImm _ _ d => [fp + d]
  | .StoreDoubleDerefFp _ _ d | .StoreDoubleDerefFpFp _ _ d => [fp + d]
  | .StoreImm _ d | .StoreFramePointer _ d => [fp + d]
  | .StoreToDoubleDerefFpImm b imm _ => [(mem (fp + b)).l0 + imm]
  | .StoreToDoubleDerefFpFp b o _ => [(mem (fp + b)).l0 + (mem (fp + o)).l0]
  | .CallAbsImm f _ => [fp + f, fp + f + 1]
  | .U32StoreAddFpFp _ _ d | .U32StoreSubFpFp _ _ d | .U32StoreMulFpFp _ _ d => [fp + d, fp + d + 1]
  | .U32StoreAndFpFp _ _ d | .U32StoreOrFpFp _ _ d | .U32StoreXorFpFp _ _ d => [fp + d, fp + d + 1]
  | .U32StoreAddFpImm _ _ _ d | .U32StoreMulFpImm _ _ _ d => [fp + d, fp + d + 1]
  | .U32StoreAndFpImm _ _ _ d | .U32StoreOrFpImm _ _ _ d | .U32StoreXorFpImm _ _ _ d => [fp + d, fp + d + 1]
  | .U32StoreImm _ _ d => [fp + d, fp + d + 1]
  | .U32StoreDivRemFpFp _ _ d r => [fp + d, fp + d + 1, fp + r, fp + r + 1]
  | .U32StoreDivRemFpImm _ _ _ d r => [fp + d, fp + d + 1, fp + r, fp + r + 1]
  | .U32StoreEqFpFp _ _ d | .U32StoreLtFpFp _ _ d => [fp + d]
  | .U32StoreEqFpImm _ _ _ d | .U32StoreLtFpImm _ _ _ d => [fp + d]
  | .AssertEqFpImm .. | .Ret | .JmpAbsImm .. | .JmpRelImm .. | .JnzFpImm .. | .PrintM31 .. | .PrintU32 .. => []

theorem done_some {r : List M31} {w : List (M31 × M31)} {pc fp : M31} {e : Isa.Effect}
    (h : Isa.done r w pc fp = some e) : e = ⟨r, w, pc, fp⟩ := by
  unfold Isa.done at h
  split_ifs at h
  exact (Option.some.inj h).symm

theorem felt_some {mem : Isa.Mem} {a x : M31} (h : Isa.felt mem a = some x) : (mem a).l0 = x := by
  unfold Isa.felt at h
  split_ifs at h
  exact Option.some.inj h

theorem bind_some_inv {α β : Type} {o : Option α} {f : α → Option β} {b : β} (h : (o >>= f) = some b) :
    ∃ a, o = some a ∧ f a = some b := by
  cases o with
  | none => cases h
  | some a => exact ⟨a, rfl, h⟩

theorem ite_none_inv {α : Type} {c : Prop} [Decidable c] {o : Option α} {b : α}
    (h : (if c then none else o) = some b) : ¬ c ∧ o = some b := by
  by_cases hc : c
  · rw [if_pos hc] at h; cases h
  · rw [if_neg hc] at h; exact ⟨hc, h⟩

theorem ite_some_inv {α : Type} {c : Prop} [Decidable c] {o : Option α} {b : α}
    (h : (if c then o else none) = some b) : c ∧ o = some b := by
  by_cases hc : c
  · rw [if_pos hc] at h; exact ⟨hc, h⟩
  · rw [if_neg hc] at h; cases h

attribute [local irreducible] Isa.done

/-- Undo the reads and checks of a successful instruction in `h`. -/
macro "sem_inv" h:ident : tactic =>
  `(tactic| repeat' (first
      | (with_reducible have hb := bind_some_inv $h:ident; clear $h; obtain ⟨x, hx, $h⟩ := hb)
      | (with_reducible have hb := ite_none_inv $h:ident; clear $h; obtain ⟨hx, $h⟩ := hb)
      | (with_reducible have hb := ite_some_inv $h:ident; clear $h; obtain ⟨hx, $h⟩ := hb)))

/-- The shape of every effect: which cells are read and written, and where control goes. -/
theorem sem_shape {i : Instruction} {pc fp : M31} {mem : Isa.Mem} {e : Isa.Effect}
    (h : Isa.sem i pc fp mem = some e) :
    e.writes.map Prod.fst = designated i fp mem ∧
      ((∀ o, i ≠ .PrintM31 o) → (∀ o, i ≠ .PrintU32 o) →
        e.reads.length + e.writes.length = i.memoryAccesses) := by
  cases i <;> dsimp only [Isa.sem, Isa.bin32, Isa.bin32Imm] at h <;> sem_inv h
  case StoreToDoubleDerefFpImm =>
    rename_i hx1 _ hx2
    rw [done_some h]
    exact ⟨by simp only [designated, List.map, felt_some hx1], fun _ _ => rfl⟩
  case StoreToDoubleDerefFpFp =>
    rename_i hx1 _ hx2 _ hx3
    rw [done_some h]
    exact ⟨by simp only [designated, List.map, felt_some hx1, felt_some hx2], fun _ _ => rfl⟩
  case PrintM31 => rw [done_some h]; exact ⟨rfl, fun h1 _ => absurd rfl (h1 _)⟩
  case PrintU32 => rw [done_some h]; exact ⟨rfl, fun _ h1 => absurd rfl (h1 _)⟩
  all_goals rw [done_some h]; exact ⟨rfl, fun _ _ => rfl⟩

theorem write_of_not_mem (mem : Isa.Mem) (ws : List (M31 × M31)) (b : M31) (h : b ∉ ws.map Prod.fst) :
    Isa.write mem ws b = mem b := by
  induction ws generalizing mem with
  | nil => rfl
  | cons w ws ih =>
    simp only [List.map_cons, List.mem_cons, not_or] at h
    rw [Isa.write, ih _ h.2, Function.update_of_ne h.1]

/-- C17: a step changes no cell other than the designated ones. -/
theorem C17_frame (i : Instruction) (s s' : State) (m m' : Memory) (h : execInstr i s m = .ok s' m')
    (b : M31) (hb : b ∉ designated i s.fp m.view) : m'.view b = m.view b := by
  have hx := exec_agrees i s m
  cases he : Isa.sem i s.pc s.fp m.view with
  | none =>
    obtain ⟨err, m2, h2⟩ := agrees_none hx he
    rw [h2] at h; cases h
  | some e =>
    obtain ⟨h1, h2⟩ := agrees_some hx he
    rw [h1] at h
    injection h with _ hm
    rw [← hm, view_log, view_storeAll _ _ h2]
    exact write_of_not_mem _ _ _ (by rw [(sem_shape he).1]; exact hb)

/-- C17 for a whole VM step (fetch changes no cell either). -/
theorem C17_frame_step (vm vm' : VM) (hm : vm.memory.WF) (h : vm.step = .ok vm') :
    ∃ i, Isa.Stored vm.memory.view vm.state.pc i ∧
      ∀ b, b ∉ designated i vm.state.fp vm.memory.view → vm'.memory.view b = vm.memory.view b := by
  obtain ⟨i, e, hs, hlow, he⟩ := step_inv hm h
  obtain ⟨h1, h2⟩ := step_some hm hs hlow he
  rw [h1] at h
  injection h with h
  subst h
  refine ⟨i, hs, fun b hb => ?_⟩
  show ((vm.memory.storeAll e.writes).log _).view b = _
  rw [view_log, view_storeAll _ _ h2]
  exact write_of_not_mem _ _ _ (by rw [(sem_shape he).1]; exact hb)

example : (3 : M31) ∉ designated (.U32StoreDivRemFpFp 0 2 4 6) 10 (fun _ => QM31.zero) := by decide

/-! ### C18 and C05: the access log -/

/-- C18: a successful step appends to the log exactly the instruction words, then the cells read with the
values they hold, then the cells written with the values written; the cells written are the designated ones. -/
theorem C18_log (vm vm' : VM) (hm : vm.memory.WF) (h : vm.step = .ok vm') :
    ∃ i e, Isa.Stored vm.memory.view vm.state.pc i ∧
      Isa.sem i vm.state.pc vm.state.fp vm.memory.view = some e ∧
      vm'.memory.trace = vm.memory.trace ++
        (Isa.codeCells vm.state.pc i).map (fun a => ⟨a, vm.memory.view a⟩) ++
        e.reads.map (fun a => ⟨a, vm.memory.view a⟩) ++
        e.writes.map (fun w => ⟨w.1, ⟨w.2, 0, 0, 0⟩⟩) ∧
      e.writes.map Prod.fst = designated i vm.state.fp vm.memory.view := by
  obtain ⟨i, e, hs, hlow, he⟩ := step_inv hm h
  obtain ⟨h1, h2⟩ := step_some hm hs hlow he
  rw [h1] at h
  injection h with h
  subst h
  exact ⟨i, e, hs, he, by simp [Isa.fetchLog, Isa.Effect.log], (sem_shape he).1⟩

/-- C18: the last logged value of every cell written in a step is the cell's value after the step. -/
theorem write_last (mem : Isa.Mem) (ws : List (M31 × M31)) (a v : M31) (post : List (M31 × M31))
    (pre : List (M31 × M31)) (hw : ws = pre ++ (a, v) :: post) (hp : a ∉ post.map Prod.fst) :
    Isa.write mem ws a = ⟨v, 0, 0, 0⟩ := by
  subst hw
  induction pre generalizing mem with
  | nil =>
    simp only [List.nil_append, Isa.write]
    rw [write_of_not_mem _ _ _ hp, Function.update_self]
  | cons w pre ih => exact ih _

/-- C05 (partial: all instructions except the two print instructions): the declared number of data accesses
is the number of entries a successful execution appends to the log. -/
theorem C05_access_count_partial (i : Instruction) (h1 : ∀ o, i ≠ .PrintM31 o) (h2 : ∀ o, i ≠ .PrintU32 o)
    (s s' : State) (m m' : Memory) (h : execInstr i s m = .ok s' m') :
    m'.trace.length = m.trace.length + i.memoryAccesses := by
  have hx := exec_agrees i s m
  cases he : Isa.sem i s.pc s.fp m.view with
  | none =>
    obtain ⟨err, m2, h2⟩ := agrees_none hx he
    rw [h2] at h; cases h
  | some e =>
    obtain ⟨h3, _⟩ := agrees_some hx he
    rw [h3] at h
    injection h with _ hm
    rw [← hm, ← (sem_shape he).2 h1 h2]
    simp [Isa.Effect.log]

/-- C05/C18, disagreement: the print instructions declare one (two) data accesses but log none. -/
theorem C05_print_violates :
    ∃ s' m', execInstr (.PrintM31 0) ⟨0, 0⟩ (Memory.ofWords [⟨7, 0, 0, 0⟩]) = .ok s' m' ∧
      m'.trace.length ≠ (Memory.ofWords [⟨7, 0, 0, 0⟩]).trace.length + (Instruction.PrintM31 0).memoryAccesses :=
  ⟨⟨1, 0⟩, Memory.ofWords [⟨7, 0, 0, 0⟩], by decide, by decide⟩

/-! ### C13: call and return -/

/-- A call saves the frame pointer and the return address and enters the target. -/
theorem C13_call (f t : M31) (s : State) (m : Memory) (h0 : (s.fp + f).val < 2 ^ 28)
    (h1 : (s.fp + f + 1).val < 2 ^ 28) :
    ∃ m', execInstr (.CallAbsImm f t) s m = .ok ⟨t, s.fp + f + 2⟩ m' ∧
      m'.view (s.fp + f) = ⟨s.fp, 0, 0, 0⟩ ∧ m'.view (s.fp + f + 1) = ⟨s.pc + 1, 0, 0, 0⟩ := by
  have hr : ∀ w ∈ [(s.fp + f, s.fp), (s.fp + f + 1, s.pc + 1)], Isa.InRange w.1 := by
    intro w hw
    simp only [List.mem_cons, List.not_mem_nil, or_false] at hw
    rcases hw with rfl | rfl
    · exact h0
    · exact h1
  have he : Isa.sem (.CallAbsImm f t) s.pc s.fp m.view =
      some ⟨[], [(s.fp + f, s.fp), (s.fp + f + 1, s.pc + 1)], t, s.fp + f + 2⟩ := by
    simp only [Isa.sem]; unfold Isa.done
    rw [if_pos hr]
  obtain ⟨hx, hw⟩ := agrees_some (exec_agrees _ s m) he
  refine ⟨_, hx, ?_, ?_⟩ <;> rw [view_log, view_storeAll _ _ hw]
  · exact write_last _ _ _ _ [(s.fp + f + 1, s.pc + 1)] [] rfl (by simp)
  · exact write_last _ _ _ _ [] [(s.fp + f, s.fp)] rfl (by simp)

/-- A return with the callee's frame pointer goes to the saved registers and changes no cell. -/
theorem C13_ret (s : State) (m : Memory) (pc' fp' : M31) (h1 : (s.fp - 1).val < 2 ^ 28)
    (h2 : (s.fp - 2).val < 2 ^ 28) (hpc : m.view (s.fp - 1) = ⟨pc', 0, 0, 0⟩)
    (hfp : m.view (s.fp - 2) = ⟨fp', 0, 0, 0⟩) :
    ∃ m', execInstr .Ret s m = .ok ⟨pc', fp'⟩ m' ∧ m'.view = m.view := by
  have f1 : Isa.felt m.view (s.fp - 1) = some pc' := by
    rw [Isa.felt, if_pos, hpc]; rw [hpc]; exact ⟨h1, rfl, rfl, rfl⟩
  have f2 : Isa.felt m.view (s.fp - 2) = some fp' := by
    rw [Isa.felt, if_pos, hfp]; rw [hfp]; exact ⟨h2, rfl, rfl, rfl⟩
  have he : Isa.sem .Ret s.pc s.fp m.view = some ⟨[s.fp - 1, s.fp - 2], [], pc', fp'⟩ := by
    simp only [Isa.sem]
    rw [f1, Option.bind_eq_bind, Option.bind_some, f2, Option.bind_some]
    unfold Isa.done
    rw [if_pos (by simp)]
  obtain ⟨hx, hw⟩ := agrees_some (exec_agrees _ s m) he
  exact ⟨_, hx, by rw [view_log, view_storeAll _ _ hw]; rfl⟩

/-- The body of a function activation, nested calls included: `Body s m s' m'` relates the machine at two
points of the same activation. A nested call is a call instruction, the callee's whole body, and its return;
the only assumption on the callee is that its body leaves the two saved cells as the call wrote them. -/
inductive Body : State → Memory → State → Memory → Prop
  | refl (s m) : Body s m s m
  | step {s m s1 m1 s2 m2} (i : Instruction) (hc : ∀ f t, i ≠ .CallAbsImm f t) (hr : i ≠ .Ret)
      (hx : execInstr i s m = .ok s1 m1) (hb : Body s1 m1 s2 m2) : Body s m s2 m2
  | call {s m s1 m1 s2 m2 s3 m3 s4 m4} (f t : M31) (hx : execInstr (.CallAbsImm f t) s m = .ok s1 m1)
      (hcallee : Body s1 m1 s2 m2)
      (hsaved0 : m2.view (s.fp + f) = m1.view (s.fp + f))
      (hsaved1 : m2.view (s.fp + f + 1) = m1.view (s.fp + f + 1))
      (hret : execInstr .Ret s2 m2 = .ok s3 m3)
      (hb : Body s3 m3 s4 m4) : Body s m s4 m4

/-- Instructions other than call and return keep the frame pointer. -/
theorem fp_of_exec {i : Instruction} (hc : ∀ f t, i ≠ .CallAbsImm f t) (hr : i ≠ .Ret) {s s' : State}
    {m m' : Memory} (h : execInstr i s m = .ok s' m') : s'.fp = s.fp := by
  have hx := exec_agrees i s m
  cases he : Isa.sem i s.pc s.fp m.view with
  | none =>
    obtain ⟨err, m2, h2⟩ := agrees_none hx he
    rw [h2] at h; cases h
  | some e =>
    obtain ⟨h3, _⟩ := agrees_some hx he
    rw [h3] at h
    injection h with hs _
    rw [← hs]
    show e.fp = s.fp
    clear h3 hs hx
    revert hc hr
    cases i <;> intro hc hr <;> dsimp only [Isa.sem, Isa.bin32, Isa.bin32Imm] at he
    case CallAbsImm f t => exact absurd rfl (hc f t)
    case Ret => exact absurd rfl hr
    all_goals
      sem_inv he
      rw [done_some he]

theorem call_inv {f t : M31} {s s1 : State} {m m1 : Memory}
    (h : execInstr (.CallAbsImm f t) s m = .ok s1 m1) :
    s1 = ⟨t, s.fp + f + 2⟩ ∧ m1.view (s.fp + f) = ⟨s.fp, 0, 0, 0⟩ ∧
      m1.view (s.fp + f + 1) = ⟨s.pc + 1, 0, 0, 0⟩ := by
  by_cases h0 : (s.fp + f).val < 2 ^ 28
  · by_cases h1 : (s.fp + f + 1).val < 2 ^ 28
    · obtain ⟨m', h2, h3, h4⟩ := C13_call f t s m h0 h1
      rw [h] at h2
      injection h2 with e1 e2
      subst e1 e2
      exact ⟨rfl, h3, h4⟩
    · obtain ⟨_, _, h2⟩ : IsErr (execInstr (.CallAbsImm f t) s m) := by
        apply agrees_none (exec_agrees _ s m)
        simp only [Isa.sem]; unfold Isa.done
        rw [if_neg]
        intro hall
        exact h1 (hall (s.fp + f + 1, s.pc + 1) (by simp))
      rw [h2] at h; cases h
  · obtain ⟨_, _, h2⟩ : IsErr (execInstr (.CallAbsImm f t) s m) := by
      apply agrees_none (exec_agrees _ s m)
      simp only [Isa.sem]; unfold Isa.done
      rw [if_neg]
      intro hall
      exact h0 (hall (s.fp + f, s.fp) (by simp))
    rw [h2] at h; cases h

theorem ret_inv {s s1 : State} {m m1 : Memory} (h : execInstr .Ret s m = .ok s1 m1) :
    s1.pc = (m.view (s.fp - 1)).l0 ∧ s1.fp = (m.view (s.fp - 2)).l0 ∧ m1.view = m.view := by
  have hx := exec_agrees .Ret s m
  cases he : Isa.sem .Ret s.pc s.fp m.view with
  | none =>
    obtain ⟨err, m2, h2⟩ := agrees_none hx he
    rw [h2] at h; cases h
  | some e =>
    obtain ⟨h3, h4⟩ := agrees_some hx he
    rw [h3] at h
    injection h with hs hm
    simp only [Isa.sem] at he
    obtain ⟨x, hx1, he⟩ := bind_some_inv he
    obtain ⟨y, hy1, he⟩ := bind_some_inv he
    have := done_some he
    subst this
    subst hs hm
    exact ⟨(felt_some hx1).symm, (felt_some hy1).symm, rfl⟩

/-- An activation ends with the frame pointer it started with, whatever the nesting. -/
theorem body_fp {s s' : State} {m m' : Memory} (h : Body s m s' m') : s'.fp = s.fp := by
  induction h with
  | refl => rfl
  | step i hc hr hx _ ih => rw [ih, fp_of_exec hc hr hx]
  | @call s m s1 m1 s2 m2 s3 m3 s4 m4 f t hx _ h0 h1 hret _ ih1 ih2 =>
    obtain ⟨e1, c0, c1⟩ := call_inv hx
    obtain ⟨_, e3, _⟩ := ret_inv hret
    rw [ih2, e3, ih1, e1]
    show (m2.view (s.fp + f + 2 - 2)).l0 = _
    rw [add_sub_cancel_right, h0, c0]

/-- C13: when a callee, containing any number of nested calls to any depth, returns, control resumes at the
instruction after the call with the caller's frame pointer, and the return itself changes no cell. -/
theorem C13_call_return {s s1 s2 s3 : State} {m m1 m2 m3 : Memory} (f t : M31)
    (hcall : execInstr (.CallAbsImm f t) s m = .ok s1 m1) (hcallee : Body s1 m1 s2 m2)
    (hsaved0 : m2.view (s.fp + f) = m1.view (s.fp + f))
    (hsaved1 : m2.view (s.fp + f + 1) = m1.view (s.fp + f + 1))
    (hret : execInstr .Ret s2 m2 = .ok s3 m3) :
    s1.pc = t ∧ s3 = ⟨s.pc + 1, s.fp⟩ ∧ m3.view = m2.view := by
  obtain ⟨e1, c0, c1⟩ := call_inv hcall
  obtain ⟨e2, e3, e4⟩ := ret_inv hret
  have hfp := body_fp hcallee
  rw [e1] at hfp
  refine ⟨by rw [e1], ?_, e4⟩
  have a1 : s2.fp - 1 = s.fp + f + 1 := by rw [hfp]; show s.fp + f + 2 - 1 = _; ring
  have a2 : s2.fp - 2 = s.fp + f := by rw [hfp]; show s.fp + f + 2 - 2 = _; ring
  rw [a1, hsaved1, c1] at e2
  rw [a2, hsaved0, c0] at e3
  cases s3; simp only at e2 e3; rw [e2, e3]

/-- A concrete nested activation: caller calls 20, which calls 30; both return. -/
example : ∃ s3 m3, Body ⟨5, 100⟩ Memory.empty s3 m3 ∧ s3 = ⟨6, 100⟩ := by
  obtain ⟨m1, h1, a1, b1⟩ := C13_call 3 20 ⟨5, 100⟩ Memory.empty (by decide) (by decide)
  obtain ⟨m2, h2, a2, b2⟩ := C13_call 4 30 ⟨20, 105⟩ m1 (by decide) (by decide)
  obtain ⟨m3, h3, hv3⟩ := C13_ret ⟨30, 111⟩ m2 21 105 (by decide) (by decide) b2 a2
  have f2 := C17_frame _ _ _ _ _ h2
  have n1 : (103 : M31) ∉ designated (.CallAbsImm 4 30) (105 : M31) m1.view := by
    simp only [designated]; decide
  have n2 : (104 : M31) ∉ designated (.CallAbsImm 4 30) (105 : M31) m1.view := by
    simp only [designated]; decide
  have g1 : m3.view 103 = m1.view 103 := by rw [hv3]; exact f2 103 n1
  have g2 : m3.view 104 = m1.view 104 := by rw [hv3]; exact f2 104 n2
  have e103 : m3.view ((⟨21, 105⟩ : State).fp - 2) = ⟨100, 0, 0, 0⟩ := g1.trans a1
  have e104 : m3.view ((⟨21, 105⟩ : State).fp - 1) = ⟨6, 0, 0, 0⟩ := g2.trans b1
  obtain ⟨m4, h4, hv4⟩ := C13_ret ⟨21, 105⟩ m3 6 100 (by decide) (by decide) e104 e103
  exact ⟨⟨6, 100⟩, m4, .call 3 20 h1 (.call 4 30 h2 (.refl _ _) rfl rfl h3 (.refl _ _)) g1 g2 h4 (.refl _ _), rfl⟩

end CairoM
