import Verif.AirForge

/-!
# Forged traces: property C43, and C41 without its hypotheses
-/

namespace CairoM
namespace Air

/-! ### C43 -/

/-- The public data is justified: some run of the stated length goes from the stated initial registers, in a memory that
holds the public program and input, to the stated final registers and a memory that holds the public output. -/
def Justified (d : PublicData) : Prop :=
  ∃ m0 mF, Isa.Run d.clock.val d.initialPc d.initialFp m0 d.finalPc d.finalFp mF ∧
    (∀ p ∈ d.program ++ d.input, m0 p.addr = p.value) ∧ ∀ p ∈ d.output, mF p.addr = p.value

/-- A row of the `ret` component that claims a transition between arbitrary states at clock `k + 1`. -/
def forgedRet (pc fp pc' fp' : M31) (k : ℕ) : Ret.Row := ⟨1, pc, fp, k + 1, k, k, fp', k, pc'⟩

theorem forgedRet_ok (pc fp pc' fp' : M31) (k : ℕ) :
    (Ret.evaluate (forgedRet pc fp pc' fp' k)).Satisfied ∧ (Ret.evaluate (forgedRet pc fp pc' fp' k)).TablesHold := by
  refine ⟨by simp [Eval.Satisfied, Ret.evaluate, forgedRet], ?_⟩
  intro e he hm
  simp only [Ret.evaluate, forgedRet, List.mem_cons, List.not_mem_nil, or_false] at he
  have h0 : ((k : M31) + 1 - k - 1).val < 2 ^ 20 := by
    rw [show (k : M31) + 1 - k - 1 = 0 by ring]; decide
  rcases he with rfl | rfl | rfl | rfl | rfl | rfl | rfl | rfl | rfl | rfl | rfl
  all_goals first
    | trivial
    | (intro v hv; rw [List.mem_singleton] at hv; subst hv; exact h0)

theorem registers_ret (pc fp pc' fp' : M31) (k : ℕ) (tuple : List M31) :
    total (Ret.evaluate (forgedRet pc fp pc' fp' k)).entries .registers tuple =
      (if [pc', fp', (k : M31) + 1 + 1] = tuple then 1 else 0) - (if [pc, fp, (k : M31) + 1] = tuple then 1 else 0) := by
  simp only [Ret.evaluate, forgedRet, total_cons, total_nil, Entry.padded, Rel.arity, List.length_cons, List.length_nil,
    reduceCtorEq, false_and, if_false, true_and, Nat.reduceSub, Nat.reduceAdd, List.replicate_zero, List.append_nil]
  split <;> split <;> ring

theorem registers_chain (pc fp : M31) (n : ℕ) (tuple : List M31) :
    total (((List.range n).map (forgedRet pc fp pc fp)).flatMap fun r => (Ret.evaluate r).entries) .registers tuple =
      (if [pc, fp, (n : M31) + 1] = tuple then 1 else 0) - (if [pc, fp, 1] = tuple then 1 else 0) := by
  induction n with
  | zero => simp [total_nil]
  | succ n ih =>
    rw [List.range_succ, List.map_append, List.flatMap_append, total_append, ih, List.map_singleton, List.flatMap_singleton,
      registers_ret]
    push_cast
    ring

theorem registers_public (d : PublicData) (tuple : List M31) : total d.entries .registers tuple =
    (if [d.initialPc, d.initialFp, 1] = tuple then 1 else 0) -
      (if [d.finalPc, d.finalFp, d.clock + 1] = tuple then 1 else 0) := by
  have hp : ∀ (m r : M31) (l : List PublicEntry), total (l.flatMap (PublicEntry.entries m r)) .registers tuple = 0 := by
    intro m r l
    refine total_none _ ?_
    intro e he hr
    obtain ⟨p, -, he⟩ := List.mem_flatMap.1 he
    simp only [PublicEntry.entries, List.mem_cons, List.not_mem_nil, or_false] at he
    rcases he with rfl | rfl | rfl | rfl | rfl <;> simp at hr
  simp only [PublicData.entries, total_append, hp, add_zero]
  simp only [total_cons, total_nil, Entry.padded, Rel.arity, List.length_cons, List.length_nil, reduceCtorEq, false_and,
    if_false, true_and, Nat.reduceSub, Nat.reduceAdd, List.replicate_zero, List.append_nil]
  split <;> split <;> ring

/-- A disabled memory row that cancels a memory lookup. -/
def cancelMemory (e : Entry) : MemoryBoundary.Row :=
  let t := e.padded.tuple
  ⟨0, t.getD 0 0, t.getD 1 0, t.getD 2 0, t.getD 3 0, t.getD 4 0, t.getD 5 0, -e.mult, 0⟩

theorem cancelMemory_total (e : Entry) (hr : e.rel = .memory) (hl : e.tuple.length ≤ 6) (tuple : List M31) :
    total (MemoryBoundary.evaluate (cancelMemory e)).entries .memory tuple = -total [e] .memory tuple := by
  have hp : e.padded.tuple.length = 6 := by
    simp only [Entry.padded, hr, Rel.arity, List.length_append, List.length_replicate]
    omega
  have ht : [e.padded.tuple.getD 0 0, e.padded.tuple.getD 1 0, e.padded.tuple.getD 2 0, e.padded.tuple.getD 3 0,
      e.padded.tuple.getD 4 0, e.padded.tuple.getD 5 0] = e.padded.tuple := by
    match h : e.padded.tuple, hp with
    | [a, b, c, d, e, f], _ => rfl
  rw [total_cons e [], total_nil, hr]
  simp only [MemoryBoundary.evaluate, cancelMemory, total_cons, total_nil, reduceCtorEq, false_and, if_false, true_and,
    add_zero]
  rw [show (⟨.memory, -e.mult, [e.padded.tuple.getD 0 0, e.padded.tuple.getD 1 0, e.padded.tuple.getD 2 0,
      e.padded.tuple.getD 3 0, e.padded.tuple.getD 4 0, e.padded.tuple.getD 5 0]⟩ : Entry).padded.tuple = e.padded.tuple by
    rw [padded_full rfl]; exact ht]
  split <;> simp

/-- C43 is violated, in the strongest possible way: for all public data whatever with a non-zero clock (any program, any
input, any claimed output, any registers and roots) there is an accepted trace. The prover writes `ret` rows that jump
from the initial to the final state, and cancels every memory lookup with a memory row whose enabler is unset and whose
multiplicity no constraint restricts; Merkle lookups are cancelled in the same way. -/
theorem C43_any_claim_accepted (consts : Poseidon2.Consts) (d : PublicData) (hd : d.clock ≠ 0) :
    ∃ t, Accepted consts d t := by
  have hpos : 0 < d.clock.val := by
    rcases Nat.eq_zero_or_pos d.clock.val with h | h
    · exact absurd ((ZMod.val_eq_zero _).1 h) hd
    · exact h
  let l : List Ret.Row := (List.range (d.clock.val - 1)).map (forgedRet d.initialPc d.initialFp d.initialPc d.initialFp) ++
    [forgedRet d.initialPc d.initialFp d.finalPc d.finalFp (d.clock.val - 1)]
  have hE : opEntries (only .ret l) = l.flatMap fun r => (Ret.evaluate r).entries := opEntries_only .ret l
  let es := (d.entries ++ opEntries (only .ret l)).filter (·.rel = .memory)
  refine ⟨assembled d (only .ret l) (es.map cancelMemory) [], assembled_accepted consts d (only .ret l) (es.map cancelMemory) []
    ?_ ?_ (by simp) ?_ ?_⟩
  · intro c r hr
    obtain ⟨rfl, hr⟩ := mem_only hr
    rcases List.mem_append.1 hr with h | h
    · obtain ⟨k, -, rfl⟩ := List.mem_map.1 h
      exact forgedRet_ok _ _ _ _ _
    · obtain rfl := List.mem_singleton.1 h
      exact forgedRet_ok _ _ _ _ _
  · intro r hr
    obtain ⟨e, -, rfl⟩ := List.mem_map.1 hr
    rfl
  · intro tuple
    rw [total_append, hE, registers_public, List.flatMap_append, total_append, registers_chain,
      List.flatMap_singleton, registers_ret]
    have hc : ((d.clock.val - 1 : ℕ) : M31) + 1 = d.clock := by
      rw [Nat.cast_sub hpos, ZMod.natCast_zmod_val]; simp
    rw [hc]
    ring
  · intro tuple
    rw [List.flatMap_nil, List.append_nil, total_append, total_cancel, total_filter]
    · ring
    intro e he
    obtain ⟨he, hr⟩ := List.mem_filter.1 he
    simp only [decide_eq_true_eq] at hr
    refine cancelMemory_total e hr ?_ tuple
    rcases List.mem_append.1 he with he | he
    · simp only [PublicData.entries, List.mem_append, List.mem_cons, List.not_mem_nil, or_false, List.mem_flatMap,
        PublicEntry.entries] at he
      rcases he with (((rfl | rfl | rfl | rfl) | ⟨p, -, he⟩) | ⟨p, -, he⟩) | ⟨p, -, he⟩
      · simp
      · simp
      · simp
      · simp
      all_goals rcases he with rfl | rfl | rfl | rfl | rfl <;> simp
    · rw [hE] at he
      obtain ⟨r, -, he⟩ := List.mem_flatMap.1 he
      simp only [Ret.evaluate, List.mem_cons, List.not_mem_nil, or_false] at he
      rcases he with rfl | rfl | rfl | rfl | rfl | rfl | rfl | rfl | rfl | rfl | rfl <;> simp

/-- A one-instruction program that jumps to itself, and the claim that one step of it reaches address 7. -/
def falseClaim : PublicData :=
  { initialPc := 0, initialFp := 2, finalPc := 7, finalFp := 2, clock := 1, initialRoot := 11, finalRoot := 12,
    program := [⟨0, ⟨12, 0, 0, 0⟩, 0⟩], input := [], output := [⟨1, ⟨42, 0, 0, 0⟩, 1⟩] }

theorem falseClaim_not_justified : ¬ Justified falseClaim := by
  rintro ⟨m0, mF, hrun, hp, -⟩
  have hm : m0 0 = ⟨12, 0, 0, 0⟩ := hp ⟨0, ⟨12, 0, 0, 0⟩, 0⟩ (by simp [falseClaim])
  have h1 : falseClaim.clock.val = 0 + 1 := rfl
  rw [h1] at hrun
  cases hrun with
  | step h s =>
    cases h
    have hi := stored_unique s.stored (stored_one (.JmpAbsImm 0) hm (Nat.le_of_ble_eq_true rfl) (by decide)).1
    have hs := s.sem_eq
    rw [hi] at hs
    have he : s.effect = ⟨[], [], 0, 2⟩ := by
      simpa [Isa.sem, Isa.done, falseClaim] using hs.symm
    have hpc := s.pc_eq
    rw [he] at hpc
    exact absurd hpc (by decide)

/-- C43 is violated: an accepted trace for a claim that no run justifies. -/
theorem C43_violated (consts : Poseidon2.Consts) : ∃ d t, Accepted consts d t ∧ ¬ Justified d := by
  obtain ⟨t, ht⟩ := C43_any_claim_accepted consts falseClaim (by decide)
  exact ⟨_, t, ht, falseClaim_not_justified⟩

/-! ### C41 without its hypotheses -/

theorem Comp.pad_regular (c : Comp) : c.Regular c.pad := by
  cases c <;> simp [Comp.Regular, Comp.pad]

theorem entries_length (c : Comp) (r : c.Row) : (c.eval r).entries.length ≤ 80 := by
  cases c <;> exact Nat.le_of_ble_eq_true rfl

theorem length_flatMap_le {α β : Type} (l : List α) (f : α → List β) (n : ℕ) (h : ∀ a ∈ l, (f a).length ≤ n) :
    (l.flatMap f).length ≤ l.length * n := by
  induction l with
  | nil => simp
  | cons a l ih =>
    have h1 := h a List.mem_cons_self
    have h2 := ih fun x hx => h x (List.mem_cons_of_mem _ hx)
    rw [List.flatMap_cons, List.length_append, List.length_cons, Nat.add_mul]
    omega

/-- Size of a completed trace in which one component has rows. -/
theorem assembled_length (consts : Poseidon2.Consts) (d : PublicData) (k : Comp) (r : k.Row)
    (mem : List MemoryBoundary.Row) (cu : List ClockUpdate.Row) :
    (d.entries ++ (assembled d (only k [r]) mem cu).entries consts).length ≤
      d.entries.length + 26 * 80 + (padTo MemoryBoundary.pad mem).length * 5 + (padTo ClockUpdate.pad cu).length * 2 +
        (padTo MerkleNode.pad ((d.entries.filter (·.rel = .merkle)).map cancelMerkle)).length * 5 + 2 + 2000000 := by
  have hfm : ∀ {α : Type} (l : List α) (f : α → Eval), (l.map f).flatMap Eval.entries = l.flatMap fun a => (f a).entries :=
    fun l f => by rw [List.flatMap_map]
  have h1 : ((assembled d (only k [r]) mem cu).opEvals.flatMap Eval.entries).length ≤ 26 * 80 := by
    rw [opEntries_eq, opEntries]
    refine length_flatMap_le _ _ _ fun c _ => ?_
    refine (length_flatMap_le _ _ 80 fun r _ => entries_length c r).trans ?_
    have : ((assembled d (only k [r]) mem cu).ops c).length = 1 := by
      show (padOps (only k [r]) c).length = 1
      unfold padOps only
      split
      · rename_i h
        subst h
        rfl
      · rfl
    rw [this]
  have h2 : ((assembled d (only k [r]) mem cu).memory.flatMap fun r => (MemoryBoundary.evaluate r).entries).length ≤
      (padTo MemoryBoundary.pad mem).length * 5 := length_flatMap_le _ _ _ fun _ _ => le_refl _
  have h3 : ((assembled d (only k [r]) mem cu).clockUpdate.flatMap fun r => (ClockUpdate.evaluate r).entries).length ≤
      (padTo ClockUpdate.pad cu).length * 2 := length_flatMap_le _ _ _ fun _ _ => le_refl _
  have h4 : ((assembled d (only k [r]) mem cu).merkle.flatMap fun r => (MerkleNode.evaluate r).entries).length ≤
      (padTo MerkleNode.pad ((d.entries.filter (·.rel = .merkle)).map cancelMerkle)).length * 5 :=
    length_flatMap_le _ _ _ fun _ _ => le_refl _
  have h5 : ((assembled d (only k [r]) mem cu).poseidon2.flatMap fun r => (Poseidon2.evaluate consts r).entries).length ≤ 2 :=
    le_refl _
  have h6 : (assembled d (only k [r]) mem cu).tableEntries.length ≤ 2000000 := by
    simp only [Trace.tableEntries, rangeEntries, rangeColumn, bitwiseEntries, List.length_append, List.length_map,
      List.length_zipIdx, List.length_range]
    norm_num
  simp only [Trace.entries, Trace.evals, List.flatMap_append, hfm, List.length_append]
  omega

/-- Registers of one step from the initial to the final state. -/
theorem one_step_registers {d : PublicData} {k : Comp} {r : k.Row} {accs : List Access} (hc : d.clock = 1)
    (h : Performs (k.eval r) d.initialPc d.initialFp 1 d.finalPc d.finalFp accs) (tuple : List M31) :
    total (d.entries ++ opEntries (only k [r])) .registers tuple = 0 := by
  have h1 : total (k.eval r).entries .registers tuple =
      sumOf [⟨.registers, -1, [d.initialPc, d.initialFp, 1]⟩, ⟨.registers, 1, [d.finalPc, d.finalFp, 1 + 1]⟩] tuple := by
    rw [total_live, live_of (by rw [h.registers]; simp), h.registers]
  rw [total_append, opEntries_only, List.flatMap_singleton, h1, registers_public, hc]
  simp only [sumOf_cons]
  simp only [sumOf, List.filter_nil, List.map_nil, List.sum_nil]
  split <;> split <;> ring

/-- The claim of the wrap-around example: one step. -/
def wrapClaim : PublicData :=
  { initialPc := 0, initialFp := 100, finalPc := 1, finalFp := 100, clock := 1, initialRoot := 0, finalRoot := 0,
    program := [], input := [], output := [] }

/-- `assert [fp] == 5` at clock 1, with the operand's previous access at clock `P - 2046`. -/
def wrapRow : AssertEqFpImm.Row := ⟨1, 0, 100, 1, 0, 0, 5, 2147481601, 5⟩

/-- Initial records: the instruction, and zero in the operand's cell. -/
def wrapIni : List Record := [⟨0, 0, ⟨50, 0, 5, 0⟩⟩, ⟨100, 0, ⟨0, 0, 0, 0⟩⟩]

/-- Final records: the instruction fetched at clock 1, and the untouched operand. -/
def wrapFin : List Record := [⟨0, 1, ⟨50, 0, 5, 0⟩⟩, ⟨100, 0, ⟨0, 0, 0, 0⟩⟩]

/-- The row of the memory component for a boundary record. -/
def boundaryRow (mult : M31) (r : Record) : MemoryBoundary.Row :=
  ⟨0, r.addr, r.clock, r.value.l0, r.value.l1, r.value.l2, r.value.l3, mult, 0⟩

/-- Clock updates of the operand's cell with value 5, all around the field: `1 + 2048 * (2^20 - 1) = P - 2046`. -/
def wrapUpdates (n : ℕ) : List ClockUpdate.Row :=
  (List.range n).map fun k : ℕ => ⟨1, 100, 1 + (k : M31) * ClockUpdate.RC20_LIMIT, 5, 0, 0, 0⟩

theorem wrapUpdates_total (n : ℕ) (tuple : List M31) :
    total ((wrapUpdates n).flatMap fun r => (ClockUpdate.evaluate r).entries) .memory tuple =
      (if [100, 1 + (n : M31) * ClockUpdate.RC20_LIMIT, 5, 0, 0, 0] = tuple then 1 else 0) -
        (if [100, 1, 5, 0, 0, 0] = tuple then 1 else 0) := by
  induction n with
  | zero => simp [wrapUpdates, total_nil]
  | succ n ih =>
    have hc : 1 + ((n + 1 : ℕ) : M31) * ClockUpdate.RC20_LIMIT = 1 + (n : M31) * ClockUpdate.RC20_LIMIT + ClockUpdate.RC20_LIMIT := by
      push_cast; ring
    rw [hc]
    rw [wrapUpdates] at ih ⊢
    rw [List.range_succ, List.map_append, List.flatMap_append, total_append, ih, List.map_singleton, List.flatMap_singleton]
    simp only [ClockUpdate.evaluate, total_cons, total_nil, Entry.padded, Rel.arity, List.length_cons, List.length_nil,
      true_and, Nat.reduceSub, Nat.reduceAdd, List.replicate_zero, List.append_nil]
    split <;> split <;> split <;> ring

/-- C41 fails without `NoWrap`: the boundary is honest and every opcode row regular, the operand's cell holds 0, and yet
`assert [fp] == 5` is accepted: the record with value 5 that it consumes comes from the record that it emits, moved around
the field by 2048 clock updates. -/
theorem C41_violated_wrap (consts : Poseidon2.Consts) : ∃ (d : PublicData) (t : Trace) (ini fin : List Record) (m0 : Isa.Mem),
    Accepted consts d t ∧ (∀ k, ∀ r ∈ t.ops k, k.Regular r) ∧ HonestBoundary d t ini fin ∧
    (d.entries ++ t.entries consts).length < P ∧ (∀ r ∈ ini, m0 r.addr = r.value) ∧
    ¬ ∃ mF, Isa.Run d.clock.val d.initialPc d.initialFp m0 d.finalPc d.finalFp mF := by
  let mem := wrapIni.map (boundaryRow 1) ++ wrapFin.map (boundaryRow (-1))
  let rows := only .assertEqFpImm [wrapRow]
  have hE : opEntries rows = (AssertEqFpImm.evaluate wrapRow).entries := by
    rw [show rows = only .assertEqFpImm [wrapRow] from rfl, opEntries_only]
    exact List.flatMap_singleton _ _
  refine ⟨wrapClaim, assembled wrapClaim rows mem (wrapUpdates 2048), wrapIni, wrapFin,
    fun a => if a = 0 then ⟨50, 0, 5, 0⟩ else ⟨0, 0, 0, 0⟩, ?_, ?_, ?_, ?_, ?_, ?_⟩
  · refine assembled_accepted consts _ _ _ _ ?_ ?_ ?_ ?_ ?_
    · intro c r hr
      obtain ⟨rfl, hr⟩ := mem_only hr
      obtain rfl := List.mem_singleton.1 hr
      exact ⟨satisfied_of_check (by decide +kernel), tablesHold_of_check (by decide +kernel)⟩
    · decide
    · intro r hr
      obtain ⟨k, -, rfl⟩ := List.mem_map.1 hr
      simp [Eval.Satisfied, ClockUpdate.evaluate]
    · exact one_step_registers (k := .assertEqFpImm) (r := wrapRow) rfl (AssertEqFpImm.performs (r := wrapRow) rfl)
    · intro tuple
      rw [total_append, total_append, total_append, hE, wrapUpdates_total,
        show 1 + ((2048 : ℕ) : M31) * ClockUpdate.RC20_LIMIT = 2147481601 by decide]
      simp only [wrapClaim, PublicData.entries, AssertEqFpImm.evaluate, wrapRow, mem, wrapIni, wrapFin, boundaryRow,
        MemoryBoundary.evaluate, List.map_cons, List.map_nil, List.cons_append, List.nil_append, List.flatMap_cons, List.flatMap_nil,
        List.append_nil, total_cons, total_nil, Entry.padded, Rel.arity, List.length_cons, List.length_nil, reduceCtorEq, false_and, if_false,
        true_and, Nat.reduceSub, Nat.reduceAdd, List.replicate_zero]
      have hneg : ∀ l : List M31, (if l = tuple then (-1 : M31) else 0) = -(if l = tuple then (1 : M31) else 0) := by
        intro l; split <;> simp
      simp only [add_zero, List.replicate, hneg]
      ring
  · intro k r hr
    rcases mem_padTo hr with h | rfl
    · obtain ⟨rfl, -⟩ := mem_only h
      trivial
    · exact k.pad_regular
  · refine ⟨?_, by decide, by decide, by decide⟩
    decide +kernel
  · refine lt_of_le_of_lt (assembled_length _ _ _ _ _ _) ?_
    decide +kernel
  · decide
  · rintro ⟨mF, hrun⟩
    rw [show wrapClaim.clock.val = 0 + 1 from rfl] at hrun
    cases hrun with
    | step h s =>
      cases h
      have hi := stored_unique s.stored (stored_one (.AssertEqFpImm 0 5) (w := ⟨50, 0, 5, 0⟩)
        (mem := fun a : M31 => if a = 0 then (⟨50, 0, 5, 0⟩ : QM31) else ⟨0, 0, 0, 0⟩) (pc := 0) rfl
        (Nat.le_of_ble_eq_true rfl) (by decide)).1
      have hs := s.sem_eq
      rw [hi] at hs
      rw [show Isa.sem (.AssertEqFpImm 0 5) wrapClaim.initialPc wrapClaim.initialFp
        (fun a : M31 => if a = 0 then (⟨50, 0, 5, 0⟩ : QM31) else ⟨0, 0, 0, 0⟩) = none by decide +kernel] at hs
      cases hs

/-! ### Non-vacuity of C40 and C41 -/

/-- One step of a program that jumps to address 7. -/
def jumpClaim : PublicData :=
  { initialPc := 0, initialFp := 100, finalPc := 7, finalFp := 100, clock := 1, initialRoot := 0, finalRoot := 0,
    program := [⟨0, ⟨12, 7, 0, 0⟩, 0⟩], input := [], output := [] }

/-- `jmp abs 7` at clock 1. -/
def jumpRow : JmpImm.Row := ⟨1, 0, 100, 1, 0, 7, 0⟩

/-- The final record, cancelled by the memory component. -/
def jumpFin : List Record := [⟨0, 1, ⟨12, 7, 0, 0⟩⟩]

/-- The hypotheses of `C41_accepted_run_partial` are met by a one-step run. -/
example (consts : Poseidon2.Consts) : ∃ t,
    Accepted consts jumpClaim t ∧ (∀ k, ∀ r ∈ t.ops k, k.Regular r) ∧
    HonestBoundary jumpClaim t [⟨0, 0, ⟨12, 7, 0, 0⟩⟩] jumpFin ∧ NoWrap jumpClaim t ∧
    (jumpClaim.entries ++ t.entries consts).length < P := by
  let mem := jumpFin.map (boundaryRow (-1))
  let rows := only .jmpImm [jumpRow]
  have hE : opEntries rows = (JmpImm.evaluate jumpRow).entries := by
    rw [show rows = only .jmpImm [jumpRow] from rfl, opEntries_only]
    exact List.flatMap_singleton _ _
  refine ⟨assembled jumpClaim rows mem [], ?_, ?_, ?_, ?_, ?_⟩
  · refine assembled_accepted consts _ _ _ _ ?_ ?_ (by simp) ?_ ?_
    · intro c r hr
      obtain ⟨rfl, hr⟩ := mem_only hr
      obtain rfl := List.mem_singleton.1 hr
      exact ⟨satisfied_of_check (by decide +kernel), tablesHold_of_check (by decide +kernel)⟩
    · decide
    · exact one_step_registers (k := .jmpImm) (r := jumpRow) rfl (JmpImm.performs (r := jumpRow) rfl)
    · intro tuple
      rw [total_append, total_append, total_append, hE]
      simp only [jumpClaim, PublicData.entries, PublicEntry.entries, JmpImm.evaluate, jumpRow, mem, jumpFin, boundaryRow,
        MemoryBoundary.evaluate, List.map_cons, List.map_nil, List.cons_append, List.nil_append, List.flatMap_cons, List.flatMap_nil,
        List.append_nil, total_cons, total_nil, Entry.padded, Rel.arity, List.length_cons, List.length_nil, reduceCtorEq, false_and, if_false,
        true_and, Nat.reduceSub, Nat.reduceAdd, List.replicate_zero]
      have hneg : ∀ l : List M31, (if l = tuple then (-1 : M31) else 0) = -(if l = tuple then (1 : M31) else 0) := by
        intro l; split <;> simp
      simp only [add_zero, List.replicate, hneg]
      ring
  · intro k r hr
    rcases mem_padTo hr with h | rfl
    · obtain ⟨rfl, -⟩ := mem_only h
      trivial
    · exact k.pad_regular
  · refine ⟨?_, by decide, by decide, by decide⟩
    decide +kernel
  · exact ⟨by decide, by decide +kernel⟩
  · refine lt_of_le_of_lt (assembled_length _ _ _ _ _ _) ?_
    decide +kernel

/-- The hypotheses of `C40_read_after_write` are met by a write at clock 3 and a read at clock 8. -/
example : let accs : List (M31 × Access) := [(8, ⟨7, 3, ⟨2, 0, 0, 0⟩, ⟨2, 0, 0, 0⟩⟩), (3, ⟨7, 0, ⟨1, 0, 0, 0⟩, ⟨2, 0, 0, 0⟩⟩)]
    let ini : List Record := [⟨7, 0, ⟨1, 0, 0, 0⟩⟩]
    let fin : List Record := [⟨7, 8, ⟨2, 0, 0, 0⟩⟩]
    LookupsBalance (accs.flatMap (fun a => a.2.entries a.1) ++
      (ini.map (Record.entry 1) ++ fin.map (Record.entry (-1)))) ∧
    2 * accs.length + ini.length + fin.length < P ∧ (∀ a ∈ accs, (a.1 - a.2.prevClock - 1).val < 2 ^ 20) ∧
    (∀ a ∈ accs, 1 ≤ a.1.val ∧ a.1.val ≤ P - 2 ^ 20) ∧ (ini.map Record.addr).Nodup ∧ ∀ r ∈ ini, r.clock = 0 := by
  refine ⟨?_, by decide, by decide, by decide, by decide, by decide⟩
  intro rel tuple
  by_cases hr : rel = .memory
  · subst hr
    simp only [Record.entry, Access.entries, QM31.limbs, List.map_cons, List.map_nil, List.cons_append, List.nil_append, List.flatMap_cons, List.flatMap_nil,
        List.append_nil, total_cons, total_nil, Entry.padded, Rel.arity, List.length_cons, List.length_nil, true_and,
        Nat.reduceSub, Nat.reduceAdd, List.replicate_zero]
    have hneg : ∀ l : List M31, (if l = tuple then (-1 : M31) else 0) = -(if l = tuple then (1 : M31) else 0) := by
      intro l; split <;> simp
    simp only [hneg]
    ring
  · refine total_none _ fun e he h => ?_
    simp only [Record.entry, Access.entries, List.map_cons, List.map_nil, List.cons_append, List.nil_append, List.flatMap_cons,
      List.flatMap_nil, List.mem_cons, List.not_mem_nil, or_false] at he
    rcases he with rfl | rfl | rfl | rfl | rfl | rfl <;> exact absurd h.symm hr

end Air
end CairoM
