import Verif.VMLemmas

/-!
# Properties C06-C09: the VM memory

Specification: an array of `2^28` words, given as a function from addresses to words (`Isa.Mem`), with
`Isa.InRange a` for `a < 2^28`.
-/

namespace CairoM
namespace MemoryProps

open Memory

/-- A memory operation of the API: read a felt or write a word. -/
inductive Op where
  | read (a : M31)
  | write (a : M31) (v : QM31)

/-- What the caller observes: a value, success, or an error. -/
inductive Obs where
  | value (x : M31)
  | done
  | error
deriving DecidableEq

/-- Run an operation on the implementation (`get_data` / `insert`; errors leave the memory usable). -/
def stepImpl (m : Memory) : Op → Obs × Memory
  | .read a => match getData a m with
    | .ok x m' => (.value x, m')
    | .error _ m' => (.error, m')
  | .write a v => match Memory.insert a v m with
    | .ok _ m' => (.done, m')
    | .error _ m' => (.error, m')

/-- The same operation on the specification array. Reading a word that is not a felt is an error, as is any
address outside `2^28`. -/
def stepSpec (arr : Isa.Mem) : Op → Obs × Isa.Mem
  | .read a =>
    if a.val < 2 ^ 28 ∧ (arr a).l1 = 0 ∧ (arr a).l2 = 0 ∧ (arr a).l3 = 0 then (.value (arr a).l0, arr)
    else (.error, arr)
  | .write a v => if a.val < 2 ^ 28 then (.done, Function.update arr a v) else (.error, arr)

/-- Observations of a history. -/
def observe {σ : Type} (step : σ → Op → Obs × σ) : σ → List Op → List Obs
  | _, [] => []
  | s, o :: os => (step s o).1 :: observe step (step s o).2 os

/-- The array a freshly loaded program stands for: the program, then zeros. -/
def loaded (prog : List QM31) : Isa.Mem := fun a => if a.val < 2 ^ 28 then prog[a.val]?.getD QM31.zero else QM31.zero

theorem view_ofWords (prog : List QM31) : (Memory.ofWords prog).view = loaded prog := by
  funext a
  have : a.val ≤ MAX_ADDRESS ↔ a.val < 2 ^ 28 := by unfold MAX_ADDRESS; omega
  simp only [view, ofWords, loaded, this]
  simp

theorem stepImpl_spec (m : Memory) (o : Op) :
    (stepImpl m o).1 = (stepSpec m.view o).1 ∧ (stepImpl m o).2.view = (stepSpec m.view o).2 := by
  have hr : ∀ a : M31, a.val ≤ MAX_ADDRESS ↔ a.val < 2 ^ 28 := by intro a; unfold MAX_ADDRESS; omega
  cases o with
  | read a =>
    simp only [stepImpl, stepSpec, getData_eq, hr]
    by_cases h1 : a.val < 2 ^ 28
    · by_cases h2 : (m.view a).isBase
      · rw [if_pos h1, if_pos h2, if_pos ⟨h1, h2⟩]; exact ⟨rfl, rfl⟩
      · rw [if_pos h1, if_neg h2, if_neg (fun h => h2 h.2)]; exact ⟨rfl, rfl⟩
    · rw [if_neg h1, if_neg (fun h => h1 h.1)]; exact ⟨rfl, rfl⟩
  | write a v =>
    simp only [stepImpl, stepSpec, insert_eq, hr]
    by_cases h1 : a.val < 2 ^ 28
    · rw [if_pos h1, if_pos h1]
      refine ⟨rfl, ?_⟩
      funext b
      show ((m.store a v).log _).view b = Function.update m.view a v b
      rw [view_log, view_store _ _ _ _ ((hr a).2 h1), Function.update_apply]
    · rw [if_neg h1, if_neg h1]; exact ⟨rfl, rfl⟩

theorem observe_eq (m : Memory) (ops : List Op) :
    observe stepImpl m ops = observe stepSpec m.view ops := by
  induction ops generalizing m with
  | nil => rfl
  | cons o os ih =>
    obtain ⟨h1, h2⟩ := stepImpl_spec m o
    simp only [observe, h1, ih, h2]

/-- C06: for every loaded program and every interleaving of reads and writes (in range or not), the VM memory
is observationally the zero-initialised array. -/
theorem C06_memory_is_array (prog : List QM31) (ops : List Op) :
    observe stepImpl (Memory.ofWords prog) ops = observe stepSpec (loaded prog) ops := by
  rw [observe_eq, view_ofWords]

/-- C06, from any memory whatsoever: a write changes exactly the addressed cell. -/
theorem C06_write_one_cell (m : Memory) (a : M31) (v : QM31) (ha : a.val < 2 ^ 28) :
    ∃ m', Memory.insert a v m = .ok () m' ∧ m'.view a = v ∧ ∀ b, b ≠ a → m'.view b = m.view b := by
  have ha' : a.val ≤ MAX_ADDRESS := by unfold MAX_ADDRESS; omega
  refine ⟨_, by rw [insert_eq, if_pos ha'], ?_, fun b hb => ?_⟩
  · rw [view_log, view_store _ _ _ _ ha', if_pos rfl]
  · rw [view_log, view_store _ _ _ _ ha', if_neg hb]

/-- A write to each end of the address space, overwritten, and a wide word. -/
example : observe stepImpl (Memory.ofWords [⟨7, 0, 0, 0⟩])
    [.write 268435455 ⟨5, 0, 0, 0⟩, .read 268435455, .read 0, .read 3, .write 1 ⟨1, 2, 0, 0⟩, .read 1,
      .write 268435456 ⟨1, 0, 0, 0⟩] =
    [.done, .value 5, .value 7, .value 0, .done, .error, .error] := by
  rw [C06_memory_is_array]; decide

/-- C07: an out-of-range read fails with the address error and changes nothing (contents and log). -/
theorem C07_read_out_of_range (m : Memory) (a : M31) (h : 2 ^ 28 ≤ a.val) :
    getData a m = .error (.addressOutOfBounds a) m ∧
    getDataNoTrace a m = .error (.addressOutOfBounds a) m := by
  have ha' : ¬ a.val ≤ MAX_ADDRESS := by unfold MAX_ADDRESS; omega
  rw [getData_eq, getDataNoTrace_eq, if_neg ha', if_neg ha']
  exact ⟨rfl, rfl⟩

/-- C07: an out-of-range write fails with the address error and changes nothing (contents and log). -/
theorem C07_write_out_of_range (m : Memory) (a : M31) (v : QM31) (h : 2 ^ 28 ≤ a.val) :
    Memory.insert a v m = .error (.addressOutOfBounds a) m ∧
    insertNoTrace a v m = .error (.addressOutOfBounds a) m := by
  have ha' : ¬ a.val ≤ MAX_ADDRESS := by unfold MAX_ADDRESS; omega
  rw [insert_eq, insertNoTrace_eq, if_neg ha', if_neg ha']
  exact ⟨rfl, rfl⟩

/-- C07: every write in range succeeds and is logged. -/
theorem C07_write_in_range (m : Memory) (a : M31) (v : QM31) (h : a.val < 2 ^ 28) :
    ∃ m', Memory.insert a v m = .ok () m' ∧ m'.trace = m.trace ++ [⟨a, v⟩] := by
  have ha' : a.val ≤ MAX_ADDRESS := by unfold MAX_ADDRESS; omega
  refine ⟨_, by rw [insert_eq, if_pos ha'], by simp⟩

/-- C07: every read of a felt in range succeeds with the cell's value, and is logged. -/
theorem C07_read_in_range (m : Memory) (a x : M31) (h : a.val < 2 ^ 28) (hx : m.view a = ⟨x, 0, 0, 0⟩) :
    ∃ m', getData a m = .ok x m' ∧ m'.view = m.view ∧ m'.trace = m.trace ++ [⟨a, ⟨x, 0, 0, 0⟩⟩] := by
  have ha' : a.val ≤ MAX_ADDRESS := by unfold MAX_ADDRESS; omega
  refine ⟨m.log [⟨a, m.view a⟩], ?_, rfl, by rw [hx]; rfl⟩
  rw [getData_eq, if_pos ha', if_pos (by rw [hx]; exact ⟨rfl, rfl, rfl⟩), hx]

example : (2 : ℕ) ^ 28 ≤ (268435456 : M31).val := by decide

/-- C07, boundary remark: a u32 store at the last address is not atomic: it writes the low limb and then
fails. (`insert_u32` is two `insert`s.) -/
theorem C07_u32_store_not_atomic :
    ∃ m', insertU32 268435455 1 Memory.empty = .error (.addressOutOfBounds 268435456) m' ∧
      m'.view 268435455 = ⟨1, 0, 0, 0⟩ := by
  refine ⟨{ locals := [], heap := [⟨1, 0, 0, 0⟩], trace := [⟨268435455, ⟨1, 0, 0, 0⟩⟩] }, ?_, ?_⟩ <;> decide

/-- C08: any 32-bit value stored at `a` is loaded back; only the two cells `a`, `a+1` change. -/
theorem C08_u32_round_trip (m : Memory) (a : M31) (n : ℕ) (hn : n < 2 ^ 32) (ha : a.val + 1 < 2 ^ 28) :
    ∃ m' m'', insertU32 a n m = .ok () m' ∧ getU32 a m' = .ok n m'' ∧
      (∀ b, b ≠ a → b ≠ a + 1 → m'.view b = m.view b) ∧ m''.view = m'.view := by
  have ha1 : (a + 1).val = a.val + 1 := by
    have hlt : a.val + 1 < P := by unfold P; omega
    rw [ZMod.val_add_of_lt] <;> · rw [ZMod.val_one'' (by decide)]; try exact hlt
  have hr : ∀ w ∈ Isa.split a n, Isa.InRange w.1 := by
    intro w hw
    simp only [Isa.split, List.mem_cons, List.not_mem_nil, or_false] at hw
    rcases hw with rfl | rfl
    · show a.val < 2 ^ 28; omega
    · show (a + 1).val < 2 ^ 28; omega
  have hne : a ≠ a + 1 := by intro h; rw [← h] at ha1; omega
  have hv : ((m.storeAll (Isa.split a n)).log (logOf (Isa.split a n))).view = Isa.write m.view (Isa.split a n) := by
    rw [view_log, view_storeAll _ _ hr]
  have c0 : Isa.write m.view (Isa.split a n) a = ⟨((n % 2 ^ 16 : ℕ) : M31), 0, 0, 0⟩ := by
    simp [Isa.split, Isa.write, hne]
  have c1 : Isa.write m.view (Isa.split a n) (a + 1) = ⟨((n / 2 ^ 16 : ℕ) : M31), 0, 0, 0⟩ := by
    simp [Isa.split, Isa.write]
  have hP : (2 : ℕ) ^ 16 < P := by unfold P; norm_num
  have v0 : (((n % 2 ^ 16 : ℕ) : M31)).val = n % 2 ^ 16 := ZMod.val_natCast_of_lt (by omega)
  have v1 : (((n / 2 ^ 16 : ℕ) : M31)).val = n / 2 ^ 16 := ZMod.val_natCast_of_lt (by omega)
  have f0 : Isa.felt (Isa.write m.view (Isa.split a n)) a = some ((n % 2 ^ 16 : ℕ) : M31) := by
    rw [Isa.felt, if_pos, c0]
    rw [c0]; exact ⟨hr _ (List.mem_cons_self ..), rfl, rfl, rfl⟩
  have f1 : Isa.felt (Isa.write m.view (Isa.split a n)) (a + 1) = some ((n / 2 ^ 16 : ℕ) : M31) := by
    rw [Isa.felt, if_pos, c1]
    rw [c1]; exact ⟨hr _ (List.mem_cons_of_mem _ (List.mem_cons_self ..)), rfl, rfl, rfl⟩
  refine ⟨_, _, insertU32_ok hn hr, getU32_some ?_, ?_, rfl⟩
  · rw [hv]
    unfold Isa.u32
    rw [f0, f1]
    show Isa.ofLimbs _ _ = _
    rw [Isa.ofLimbs, if_pos (by rw [v0, v1]; omega), v0, v1]
    congr 1; omega
  · intro b h0 h1
    rw [hv]
    simp [Isa.split, Isa.write, h0, h1]

/-- C08: loading a u32 whose low or high cell holds a felt of more than 16 bits is an error. -/
theorem C08_bad_limb (m : Memory) (a lo hi : M31) (hlo : m.view a = ⟨lo, 0, 0, 0⟩)
    (hhi : m.view (a + 1) = ⟨hi, 0, 0, 0⟩) (ha : a.val < 2 ^ 28) (ha1 : (a + 1).val < 2 ^ 28)
    (hbad : 2 ^ 16 ≤ lo.val ∨ 2 ^ 16 ≤ hi.val) :
    ∃ m', getU32 a m = .error (.u32LimbOutOfRange lo.val hi.val) m' ∧ m'.view = m.view := by
  have f0 : Isa.felt m.view a = some lo := by
    rw [Isa.felt, if_pos, hlo]; rw [hlo]; exact ⟨ha, rfl, rfl, rfl⟩
  have f1 : Isa.felt m.view (a + 1) = some hi := by
    rw [Isa.felt, if_pos, hhi]; rw [hhi]; exact ⟨ha1, rfl, rfl, rfl⟩
  refine ⟨(m.log [⟨a, m.view a⟩]).log [⟨a + 1, m.view (a + 1)⟩], ?_, rfl⟩
  unfold getU32
  rw [bind_ok (getData_some f0), bind_ok (getData_some (m := m.log _) f1)]
  rw [combineU32, if_pos (by unfold U32_LIMB_MASK; omega)]
  rfl

example : ∃ m', getU32 0 (Memory.ofWords [⟨65536, 0, 0, 0⟩, ⟨0, 0, 0, 0⟩]) =
    .error (.u32LimbOutOfRange 65536 0) m' :=
  ⟨⟨[⟨65536, 0, 0, 0⟩, ⟨0, 0, 0, 0⟩], [], [⟨0, ⟨65536, 0, 0, 0⟩⟩, ⟨1, ⟨0, 0, 0, 0⟩⟩]⟩, by decide⟩

/-- Perform a list of writes, in order, ignoring failures. -/
def writes (m : Memory) : List (M31 × QM31) → Memory
  | [] => m
  | (a, v) :: ws => match Memory.insert a v m with
    | .ok _ m' => writes m' ws
    | .error _ m' => writes m' ws

/-- C09: whatever is written, in any order, the two regions together fit in the address space, so no address
is ever served by both. -/
theorem C09_regions_disjoint (prog : List QM31) (hp : prog.length ≤ 2 ^ 28) (ws : List (M31 × QM31)) :
    (writes (Memory.ofWords prog) ws).locals.length + (writes (Memory.ofWords prog) ws).heap.length ≤ 2 ^ 28 ∧
    ∀ a : ℕ, a < 2 ^ 28 → ¬ (a < (writes (Memory.ofWords prog) ws).locals.length ∧
      2 ^ 28 - 1 - a < (writes (Memory.ofWords prog) ws).heap.length) := by
  have key : ∀ m : Memory, m.WF → (writes m ws).WF := by
    induction ws with
    | nil => exact fun m h => h
    | cons w ws ih =>
      intro m hm
      obtain ⟨a, v⟩ := w
      simp only [writes, insert_eq]
      by_cases ha : a.val ≤ MAX_ADDRESS
      · rw [if_pos ha]; exact ih _ (WF_log (WF_store hm ha _) _)
      · rw [if_neg ha]; exact ih _ hm
  have h0 : (Memory.ofWords prog).WF := by
    simp only [WF, ofWords, List.length_nil, MAX_ADDRESS]; omega
  have := key _ h0
  simp only [WF, MAX_ADDRESS] at this
  exact ⟨by omega, fun a ha h => by omega⟩

/-- The two regions are both in use here, so C09 is not about an empty heap. -/
example : (writes (Memory.ofWords [⟨7, 0, 0, 0⟩]) [(268435455, ⟨5, 0, 0, 0⟩), (2, ⟨6, 0, 0, 0⟩)]).locals.length = 3 ∧
    (writes (Memory.ofWords [⟨7, 0, 0, 0⟩]) [(268435455, ⟨5, 0, 0, 0⟩), (2, ⟨6, 0, 0, 0⟩)]).heap.length = 1 := by
  decide

end MemoryProps
end CairoM
