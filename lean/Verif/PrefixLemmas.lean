import Verif.VMProps

/-!
Helper lemmas: the VM never looks at its own access log or execution trace. Running with a longer log already
in place gives the same result with the log prefixed.
-/

namespace CairoM

open Memory

/-- Put `t` in front of the access log. -/
def Memory.pre (t : List MemoryEntry) (m : Memory) : Memory := { m with trace := t ++ m.trace }

/-- `f` commutes with prefixing the log. -/
def Blind {α : Type} (f : MemM α) : Prop :=
  ∀ t m, f (m.pre t) = match f m with
    | .ok a m' => .ok a (m'.pre t)
    | .error e m' => .error e (m'.pre t)

namespace Blind

theorem pure {α : Type} (a : α) : Blind (Pure.pure a : MemM α) := fun _ _ => rfl

theorem throw {α : Type} (e : VMError) : Blind (MonadExcept.throw e : MemM α) := fun _ _ => rfl

theorem bind {α β : Type} {x : MemM α} {f : α → MemM β} (hx : Blind x) (hf : ∀ a, Blind (f a)) :
    Blind (x >>= f) := by
  intro t m
  have h := hx t m
  cases hxm : x m with
  | ok a m' =>
    rw [hxm] at h
    rw [bind_ok h, bind_ok hxm]
    exact hf a t m'
  | error e m' =>
    rw [hxm] at h
    rw [bind_error h, bind_error hxm]

theorem ite {α : Type} {c : Prop} [Decidable c] {x y : MemM α} (hx : Blind x) (hy : Blind y) :
    Blind (if c then x else y) := by
  by_cases h : c
  · rw [if_pos h]; exact hx
  · rw [if_neg h]; exact hy

theorem logEntry (a v) : Blind (Memory.logEntry a v) := by
  intro t m
  simp only [logEntry_eq, Memory.pre, log, List.append_assoc]

theorem view_pre (t) (m : Memory) : (m.pre t).view = m.view := rfl

theorem store_pre (t) (m : Memory) (a v) : (m.pre t).store a v = (m.store a v).pre t := by
  by_cases h1 : a.val < m.locals.length
  · simp [store, Memory.pre, h1]
  by_cases h2 : MAX_ADDRESS - a.val < m.heap.length
  · simp [store, Memory.pre, h1, h2]
  by_cases h3 : a.val - m.locals.length < MAX_ADDRESS - a.val - m.heap.length
  · simp [store, Memory.pre, h1, h2, h3]
  · simp [store, Memory.pre, h1, h2, h3]

theorem log_pre (t) (m : Memory) (es) : (m.pre t).log es = (m.log es).pre t := by
  simp [Memory.pre, log]

theorem getData (a) : Blind (Memory.getData a) := by
  intro t m
  rw [getData_eq, getData_eq, view_pre]
  by_cases h1 : a.val ≤ MAX_ADDRESS
  · by_cases h2 : (m.view a).isBase
    · simp only [if_pos h1, if_pos h2, log_pre]
    · simp only [if_pos h1, if_neg h2]
  · simp only [if_neg h1]

theorem getDataNoTrace (a) : Blind (Memory.getDataNoTrace a) := by
  intro t m
  rw [getDataNoTrace_eq, getDataNoTrace_eq, view_pre]
  by_cases h1 : a.val ≤ MAX_ADDRESS
  · by_cases h2 : (m.view a).isBase
    · simp only [if_pos h1, if_pos h2]
    · simp only [if_pos h1, if_neg h2]
  · simp only [if_neg h1]

theorem insert (a v) : Blind (Memory.insert a v) := by
  intro t m
  rw [insert_eq, insert_eq]
  by_cases h1 : a.val ≤ MAX_ADDRESS
  · simp only [if_pos h1, store_pre, log_pre]
  · simp only [if_neg h1]

theorem combineU32 (lo hi) : Blind (Memory.combineU32 lo hi) := ite (throw _) (pure _)

theorem getU32 (a) : Blind (Memory.getU32 a) :=
  bind (getData _) fun _ => bind (getData _) fun _ => combineU32 _ _

theorem getU32NoTrace (a) : Blind (Memory.getU32NoTrace a) :=
  bind (getDataNoTrace _) fun _ => bind (getDataNoTrace _) fun _ => combineU32 _ _

theorem insertU32 (a n) : Blind (Memory.insertU32 a n) := bind (insert _ _) fun _ => insert _ _

theorem checkImm (lo hi) : Blind (CairoM.checkImm lo hi) := ite (throw _) (pure _)

theorem get {α : Type} {F : Memory → MemM α} (h1 : ∀ m, Blind (F m)) (h2 : ∀ t m, F (m.pre t) = F m) :
    Blind (MonadState.get >>= F) := by
  intro t m
  show F (m.pre t) (m.pre t) = match F m m with
    | .ok a m' => .ok a (m'.pre t)
    | .error e m' => .error e (m'.pre t)
  rw [h2]
  exact h1 m t m

theorem getMoreWords (n : ℕ) : ∀ a, Blind (Memory.getMoreWords a n) := by
  induction n with
  | zero => exact fun _ => pure _
  | succ n ih =>
    intro a
    unfold Memory.getMoreWords
    refine get (fun m => ?_) (fun _ _ => rfl)
    cases m.locals[a.val]? with
    | none => exact throw _
    | some q => exact bind (logEntry _ _) fun _ => bind (ih _) fun _ => pure _

theorem getInstruction (a) : Blind (Memory.getInstruction a) := by
  unfold Memory.getInstruction
  refine get (fun m => ?_) (fun _ _ => rfl)
  cases m.locals[a.val]? with
  | none => exact throw _
  | some q =>
    refine bind (logEntry _ _) fun _ => ?_
    cases (Instruction.opcodeSizeTable[q.l0.val]?).join with
    | none => exact pure _
    | some n => exact bind (getMoreWords _ _) fun _ => pure _

theorem storeBinFpFp (i s a b d f) : Blind (CairoM.storeBinFpFp i s a b d f) := by
  refine bind (getData _) fun x => bind (getData _) fun y => ?_
  cases f x y with
  | none => exact throw _
  | some v => exact bind (insert _ _) fun _ => pure _

theorem u32DivRemFpFp (i s a b d r) : Blind (CairoM.u32DivRemFpFp i s a b d r) :=
  bind (getU32 _) fun _ => bind (getU32 _) fun _ =>
    ite (throw _) (bind (insertU32 _ _) fun _ => bind (insertU32 _ _) fun _ => pure _)

theorem u32DivRemFpImm (i s a lo hi d r) : Blind (CairoM.u32DivRemFpImm i s a lo hi d r) :=
  bind (checkImm _ _) fun _ => ite (throw _)
    (bind (getU32 _) fun _ => bind (insertU32 _ _) fun _ => bind (insertU32 _ _) fun _ => pure _)

theorem u32BinFpFp (i s a b d f) : Blind (CairoM.u32BinFpFp i s a b d f) :=
  bind (getU32 _) fun _ => bind (getU32 _) fun _ => bind (insertU32 _ _) fun _ => pure _

theorem u32BinFpImm (i s a lo hi d f) : Blind (CairoM.u32BinFpImm i s a lo hi d f) :=
  bind (checkImm _ _) fun _ => bind (getU32 _) fun _ => bind (insertU32 _ _) fun _ => pure _

theorem u32CmpFpFp (i s a b d f) : Blind (CairoM.u32CmpFpFp i s a b d f) :=
  bind (getU32 _) fun _ => bind (getU32 _) fun _ => bind (insert _ _) fun _ => pure _

theorem u32CmpFpImm (i s a lo hi d f) : Blind (CairoM.u32CmpFpImm i s a lo hi d f) :=
  bind (checkImm _ _) fun _ => bind (getU32 _) fun _ => bind (insert _ _) fun _ => pure _

theorem execInstr (i s) : Blind (CairoM.execInstr i s) := by
  cases i <;> dsimp only [CairoM.execInstr]
  case StoreAddFpImm | StoreMulFpImm => exact bind (getData _) fun _ => bind (insert _ _) fun _ => pure _
  case StoreLeFpImm => exact bind (getData _) fun _ => bind (insert _ _) fun _ => pure _
  case AssertEqFpImm => exact bind (getData _) fun _ => ite (throw _) (pure _)
  case StoreDoubleDerefFp =>
    exact bind (getData _) fun _ => bind (getData _) fun _ => bind (insert _ _) fun _ => pure _
  case StoreDoubleDerefFpFp =>
    exact bind (getData _) fun _ => bind (getData _) fun _ => bind (getData _) fun _ =>
      bind (insert _ _) fun _ => pure _
  case StoreToDoubleDerefFpImm =>
    exact bind (getData _) fun _ => bind (getData _) fun _ => bind (insert _ _) fun _ => pure _
  case StoreToDoubleDerefFpFp =>
    exact bind (getData _) fun _ => bind (getData _) fun _ => bind (getData _) fun _ =>
      bind (insert _ _) fun _ => pure _
  case StoreImm => exact bind (insert _ _) fun _ => pure _
  case StoreFramePointer => exact bind (insert _ _) fun _ => pure _
  case CallAbsImm => exact bind (insert _ _) fun _ => bind (insert _ _) fun _ => pure _
  case Ret => exact bind (getData _) fun _ => bind (getData _) fun _ => pure _
  case JmpAbsImm => exact pure _
  case JmpRelImm => exact pure _
  case JnzFpImm => exact bind (getData _) fun _ => ite (pure _) (pure _)
  case PrintM31 => exact bind (getDataNoTrace _) fun _ => pure _
  case PrintU32 => exact bind (getU32NoTrace _) fun _ => pure _
  case U32StoreImm =>
    exact bind (checkImm _ _) fun _ => bind (insert _ _) fun _ => bind (insert _ _) fun _ => pure _
  case U32StoreDivRemFpFp => exact u32DivRemFpFp _ _ _ _ _ _
  case U32StoreDivRemFpImm => exact u32DivRemFpImm _ _ _ _ _ _ _
  case StoreAddFpFp | StoreSubFpFp | StoreMulFpFp | StoreDivFpFp => exact storeBinFpFp _ _ _ _ _ _
  case U32StoreAddFpFp | U32StoreSubFpFp | U32StoreMulFpFp => exact u32BinFpFp _ _ _ _ _ _
  case U32StoreAndFpFp | U32StoreOrFpFp | U32StoreXorFpFp => exact u32BinFpFp _ _ _ _ _ _
  case U32StoreAddFpImm | U32StoreMulFpImm => exact u32BinFpImm _ _ _ _ _ _ _
  case U32StoreAndFpImm | U32StoreOrFpImm | U32StoreXorFpImm => exact u32BinFpImm _ _ _ _ _ _ _
  case U32StoreEqFpFp | U32StoreLtFpFp => exact u32CmpFpFp _ _ _ _ _ _
  case U32StoreEqFpImm | U32StoreLtFpImm => exact u32CmpFpImm _ _ _ _ _ _ _

end Blind

/-- Put bookkeeping in front of a VM's own: log, execution trace; and replace the finished segments and the
recorded initial memory. -/
def VM.rebase (t : List MemoryEntry) (tr : List State) (segs : List Segment) (il ih : List QM31) (vm : VM) :
    VM :=
  { vm with memory := vm.memory.pre t, trace := tr ++ vm.trace, segments := segs, initialLocals := il
            initialHeap := ih }

theorem VM.step_rebase (t tr segs il ih) (vm : VM) :
    (vm.rebase t tr segs il ih).step = (vm.step).map (VM.rebase t tr segs il ih) := by
  have h1 := Blind.getInstruction vm.state.pc t vm.memory
  unfold VM.step
  change (match Memory.getInstruction vm.state.pc (vm.memory.pre t) with | .error e _ => _ | .ok ws mem => _) = _
  rw [h1]
  cases Memory.getInstruction vm.state.pc vm.memory with
  | error e m => rfl
  | ok ws m =>
    dsimp only
    cases Instruction.decode ws with
    | error e => rfl
    | ok i =>
      dsimp only
      have h2 := Blind.execInstr i vm.state t m
      change (match execInstr i vm.state (m.pre t) with | .error e _ => _ | .ok s' mem' => _) = _
      rw [h2]
      cases execInstr i vm.state m with
      | error e m => rfl
      | ok s' m' =>
        simp [Except.map, VM.rebase]

end CairoM
