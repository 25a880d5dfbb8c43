import Verif.Memory

/-! Helper lemmas about VM memory: the abstraction `view` and equations for the operations. -/

namespace CairoM

deriving instance DecidableEq for EStateM.Result

/-- Result of a memory computation is an error. -/
def IsErr {α : Type} (r : EStateM.Result VMError Memory α) : Prop := ∃ e m, r = .error e m

theorem bind_ok {α β : Type} {x : MemM α} {f : α → MemM β} {m m' : Memory} {a : α}
    (h : x m = .ok a m') : (x >>= f) m = f a m' := by
  simp [bind, EStateM.bind, h]

theorem bind_error {α β : Type} {x : MemM α} {f : α → MemM β} {m m' : Memory} {e : VMError}
    (h : x m = .error e m') : (x >>= f) m = .error e m' := by
  simp [bind, EStateM.bind, h]

theorem bind_isErr {α β : Type} {x : MemM α} {f : α → MemM β} {m : Memory}
    (h : IsErr (x m)) : IsErr ((x >>= f) m) := by
  obtain ⟨e, m', h⟩ := h
  exact ⟨e, m', bind_error h⟩

theorem pure_eq {α : Type} (a : α) (m : Memory) : (pure a : MemM α) m = .ok a m := rfl

theorem throw_eq {α : Type} (e : VMError) (m : Memory) : (throw e : MemM α) m = .error e m := rfl

theorem throw_isErr {α : Type} (e : VMError) (m : Memory) : IsErr ((throw e : MemM α) m) := ⟨e, m, rfl⟩

namespace Memory

/-- The abstract contents: what address `a` holds (zero if never written). Addresses beyond the maximum have
no cell; they are given zero. -/
def view (m : Memory) (a : M31) : QM31 :=
  if a.val ≤ MAX_ADDRESS then (m.locals[a.val]?.or m.heap[MAX_ADDRESS - a.val]?).getD QM31.zero
  else QM31.zero

/-- Append entries to the access log. -/
def log (m : Memory) (es : List MemoryEntry) : Memory := { m with trace := m.trace ++ es }

@[simp] theorem view_log (m : Memory) (es) : (m.log es).view = m.view := rfl
@[simp] theorem log_nil (m : Memory) : m.log [] = m := by simp [log]
@[simp] theorem log_log (m : Memory) (es fs) : (m.log es).log fs = m.log (es ++ fs) := by
  simp [log]
@[simp] theorem trace_log (m : Memory) (es) : (m.log es).trace = m.trace ++ es := rfl
@[simp] theorem locals_log (m : Memory) (es) : (m.log es).locals = m.locals := rfl
@[simp] theorem heap_log (m : Memory) (es) : (m.log es).heap = m.heap := rfl

theorem store_log (m : Memory) (es) (a v) : (m.log es).store a v = (m.store a v).log es := by
  by_cases h1 : a.val < m.locals.length
  · simp [store, log, h1]
  by_cases h2 : MAX_ADDRESS - a.val < m.heap.length
  · simp [store, log, h1, h2]
  by_cases h3 : a.val - m.locals.length < MAX_ADDRESS - a.val - m.heap.length
  · simp [store, log, h1, h2, h3]
  · simp [store, log, h1, h2, h3]

@[simp] theorem trace_store (m : Memory) (a v) : (m.store a v).trace = m.trace := by
  simp only [store]; split_ifs <;> rfl

theorem logEntry_eq (a v) (m : Memory) : logEntry a v m = .ok () (m.log [⟨a, v⟩]) := rfl

theorem validateAddress_ok {a : M31} {m : Memory} (h : a.val ≤ MAX_ADDRESS) :
    validateAddress a m = .ok () m := by
  simp [validateAddress, Nat.not_lt.2 h, pure_eq]

theorem validateAddress_err {a : M31} {m : Memory} (h : ¬ a.val ≤ MAX_ADDRESS) :
    validateAddress a m = .error (.addressOutOfBounds a) m := by
  simp [validateAddress, Nat.not_le.1 h, throw_eq]

theorem getQM31NoTrace_eq (a : M31) (m : Memory) :
    getQM31NoTrace a m =
      if a.val ≤ MAX_ADDRESS then
        if (m.view a).isBase then .ok (m.view a) m
        else .error (.baseFieldProjectionFailed a (m.view a)) m
      else .error (.addressOutOfBounds a) m := by
  unfold getQM31NoTrace
  by_cases h : a.val ≤ MAX_ADDRESS
  · rw [bind_ok (validateAddress_ok h), if_pos h]
    simp only [view, if_pos h]
    show (if _ then _ else _ : MemM QM31) m = _
    split_ifs <;> rfl
  · rw [bind_error (validateAddress_err h), if_neg h]

theorem getData_eq (a : M31) (m : Memory) :
    getData a m =
      if a.val ≤ MAX_ADDRESS then
        if (m.view a).isBase then .ok (m.view a).l0 (m.log [⟨a, m.view a⟩])
        else .error (.baseFieldProjectionFailed a (m.view a)) m
      else .error (.addressOutOfBounds a) m := by
  unfold getData
  have := getQM31NoTrace_eq a m
  split_ifs at this ⊢
  · rw [bind_ok this, bind_ok (logEntry_eq _ _ _), pure_eq]
  · rw [bind_error this]
  · rw [bind_error this]

theorem getDataNoTrace_eq (a : M31) (m : Memory) :
    getDataNoTrace a m =
      if a.val ≤ MAX_ADDRESS then
        if (m.view a).isBase then .ok (m.view a).l0 m
        else .error (.baseFieldProjectionFailed a (m.view a)) m
      else .error (.addressOutOfBounds a) m := by
  unfold getDataNoTrace
  have := getQM31NoTrace_eq a m
  split_ifs at this ⊢
  · rw [bind_ok this, pure_eq]
  · rw [bind_error this]
  · rw [bind_error this]

theorem insertNoTrace_eq (a : M31) (v : QM31) (m : Memory) :
    insertNoTrace a v m =
      if a.val ≤ MAX_ADDRESS then .ok () (m.store a v)
      else .error (.addressOutOfBounds a) m := by
  unfold insertNoTrace
  split_ifs with h
  · rw [bind_ok (validateAddress_ok h)]; rfl
  · rw [bind_error (validateAddress_err h)]

theorem insert_eq (a : M31) (v : QM31) (m : Memory) :
    insert a v m =
      if a.val ≤ MAX_ADDRESS then .ok () ((m.store a v).log [⟨a, v⟩])
      else .error (.addressOutOfBounds a) m := by
  unfold insert
  have := insertNoTrace_eq a v m
  split_ifs at this ⊢
  · rw [bind_ok this]; rfl
  · rw [bind_error this]

theorem length_resize (l : List QM31) (n : ℕ) : (resize l n).length = max l.length n := by
  simp [resize]; omega

theorem getElem?_resize (l : List QM31) (n i : ℕ) :
    (resize l n)[i]? = if i < l.length then l[i]? else if i < n then some QM31.zero else none := by
  unfold resize
  rw [List.getElem?_append]
  split_ifs with h1 h2
  · rfl
  · rw [List.getElem?_replicate, if_pos (by omega)]
  · rw [List.getElem?_replicate, if_neg (by omega)]

/-- Refinement of `store`: exactly one cell changes. -/
theorem view_store (m : Memory) (a b : M31) (v : QM31) (ha : a.val ≤ MAX_ADDRESS) :
    (m.store a v).view b = if b = a then v else m.view b := by
  by_cases hb : b.val ≤ MAX_ADDRESS
  swap
  · have hne : b ≠ a := by rintro rfl; exact hb ha
    simp [view, hb, hne]
  have hinj : b = a ↔ b.val = a.val := ⟨fun h => by rw [h], fun h => ZMod.val_injective _ h⟩
  unfold view store
  simp only [if_pos hb]
  split_ifs with h1 h2 h3 h4 h5 h6 h7
  all_goals simp only [hinj] at *
  all_goals simp only [List.getElem?_set, getElem?_resize, length_resize]
  all_goals first
    | (rw [‹b.val = a.val›]; simp_all)
    | skip
  · have : ¬ a.val = b.val := by omega
    simp [this]
  · have : ¬ (MAX_ADDRESS - a.val = MAX_ADDRESS - b.val) := by omega
    simp [this]
  · have : ¬ a.val = b.val := by omega
    simp only [this, if_false]
    split_ifs with h8 h9
    · rfl
    · have e1 : m.locals[b.val]? = none := by simp; omega
      have e2 : m.heap[MAX_ADDRESS - b.val]? = none := by simp; omega
      simp [e1, e2]
    · have e1 : m.locals[b.val]? = none := by simp; omega
      simp [e1]
  · have : ¬ (MAX_ADDRESS - a.val = MAX_ADDRESS - b.val) := by omega
    simp only [this, if_false]
    by_cases h8 : b.val < m.locals.length
    · simp [List.getElem?_eq_getElem h8]
    · have e1 : m.locals[b.val]? = none := by simp; omega
      simp only [e1, Option.none_or]
      split_ifs with h9 h10
      · rfl
      · have e2 : m.heap[MAX_ADDRESS - b.val]? = none := by simp; omega
        simp [e2]
      · have e2 : m.heap[MAX_ADDRESS - b.val]? = none := by simp; omega
        simp [e2]

/-- The two regions fit in the address space without overlap. -/
def WF (m : Memory) : Prop := m.locals.length + m.heap.length ≤ MAX_ADDRESS + 1

theorem WF_store {m : Memory} (h : m.WF) {a : M31} (ha : a.val ≤ MAX_ADDRESS) (v : QM31) :
    (m.store a v).WF := by
  unfold WF at *
  simp only [store]
  split_ifs <;> simp [length_resize] <;> omega

theorem WF_log {m : Memory} (h : m.WF) (es) : (m.log es).WF := h

theorem length_locals_store (m : Memory) (a : M31) (v : QM31) :
    m.locals.length ≤ (m.store a v).locals.length := by
  simp only [store]
  split_ifs <;> simp [length_resize]

end Memory
end CairoM
