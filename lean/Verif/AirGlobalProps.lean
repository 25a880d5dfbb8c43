import Verif.AirGlobal

/-!
# The whole constraint system: properties C40, C41, C42
-/

namespace CairoM
namespace Air

open MemArg

/-! ### C40 -/

/-- C40: take any list of timed accesses (clock, access), any initial and final records, such that the memory lookups
balance, every clock difference passes the 20-bit range check, no clock is 0 or within `2^20` of the field size, and there
is at most one initial record per cell, at clock 0. Then every access finds either the initial value, being the first
access to the cell, or the value left by the previous access to the cell; and every final record is the one left by the
last access to its cell, or the initial one if there was none. -/
theorem C40_read_after_write (accs : List (M31 × Access)) (ini fin : List Record)
    (hbal : LookupsBalance (accs.flatMap (fun a => a.2.entries a.1) ++
      (ini.map (Record.entry 1) ++ fin.map (Record.entry (-1)))))
    (hlen : 2 * accs.length + ini.length + fin.length < P)
    (hord : ∀ a ∈ accs, (a.1 - a.2.prevClock - 1).val < 2 ^ 20)
    (hwrap : ∀ a ∈ accs, 1 ≤ a.1.val ∧ a.1.val ≤ P - 2 ^ 20)
    (hone : (ini.map Record.addr).Nodup) (hzero : ∀ r ∈ ini, r.clock = 0) :
    (∀ a ∈ accs,
      (∃ r ∈ ini, r.addr = a.2.addr ∧ r.value = a.2.prev ∧
        ∀ b ∈ accs, b.2.addr = a.2.addr → a.1.val ≤ b.1.val) ∨
      ∃ b ∈ accs, b.2.addr = a.2.addr ∧ b.1.val < a.1.val ∧ b.2.new = a.2.prev ∧
        ∀ c ∈ accs, c.2.addr = a.2.addr → c.1.val < a.1.val → c.1.val ≤ b.1.val) ∧
    ∀ r ∈ fin,
      (∃ q ∈ ini, q.addr = r.addr ∧ q.value = r.value ∧ ∀ b ∈ accs, b.2.addr ≠ r.addr) ∨
      ∃ b ∈ accs, b.2.addr = r.addr ∧ b.2.new = r.value ∧ ∀ c ∈ accs, c.2.addr = r.addr → c.1.val ≤ b.1.val := by
  have hl : (records accs ini fin).length < P := by rw [length_records]; exact hlen
  have hB := balanced_of hl (fun tuple => by rw [← live_records, ← total_live]; exact hbal _ _) hord hwrap hone hzero
  constructor
  · intro a ha
    rcases hB.previous (List.mem_map_of_mem (f := fun a : M31 × Access => arc a.1 a.2) ha) with ⟨h1, -, h3⟩ | ⟨b, hb, h1, h2, h3, h4⟩
    · obtain ⟨r, hr, he⟩ := List.mem_map.1 h1
      simp only [Record.at, arc, Prod.mk.injEq] at he
      exact .inl ⟨r, hr, he.1, he.2.2, fun b hb hx => h3 _ (List.mem_map_of_mem hb) hx⟩
    · have hf := hB.forward _ (List.mem_map_of_mem (f := fun a : M31 × Access => arc a.1 a.2) ha)
      obtain ⟨b, hb', rfl⟩ := List.mem_map.1 hb
      simp only [arc] at h1 h2 h3 h4 hf
      exact .inr ⟨b, hb', h1, by omega, h3, fun c hc hx hlt => h4 _ (List.mem_map_of_mem hc) hx hlt⟩
  · intro r hr
    rcases hB.last (List.mem_map_of_mem hr) with ⟨h1, h2⟩ | ⟨b, hb, h1, h2⟩
    · obtain ⟨q, hq, he⟩ := List.mem_map.1 h1
      simp only [Record.at, Prod.mk.injEq] at he
      exact .inl ⟨q, hq, he.1, he.2.2, fun b hb => h2 _ (List.mem_map_of_mem hb)⟩
    · obtain ⟨b, hb', rfl⟩ := List.mem_map.1 hb
      simp only [Record.at, arc, Arc.emit, Prod.mk.injEq] at h1
      exact .inr ⟨b, hb', h1.1, h1.2.2, fun c hc hx => h2 _ (List.mem_map_of_mem hc) hx⟩

/-! ### C41 -/

/-- C41, partial: an accepted trace whose boundary is honest is a run of the reference machine, from the public initial
registers to the public final ones, of as many steps as the public clock says, from any memory that agrees with the initial
records to one that agrees with the final records. Missing: the constraint system does not by itself force `hreg`, `hb` and
`hw` (C30, C34, C35, C36, C38, C43 and `C41_violated_wrap` show what happens without them); `hlen` bounds the size of the trace, which the
real prover's column size (at most `2^30` rows in all) also does. -/
theorem C41_accepted_run_partial (c : Poseidon2.Consts) (d : PublicData) (t : Trace) (h : Accepted c d t)
    (hreg : ∀ k, ∀ r ∈ t.ops k, k.Regular r) {ini fin : List Record} (hb : HonestBoundary d t ini fin) (hw : NoWrap d t)
    (hlen : (d.entries ++ t.entries c).length < P) (m0 : Isa.Mem) (h0 : ∀ r ∈ ini, m0 r.addr = r.value) :
    ∃ mF, Isa.Run d.clock.val d.initialPc d.initialFp m0 d.finalPc d.finalFp mF ∧
      (∀ r ∈ fin, mF r.addr = r.value) ∧ ∀ x, (∀ r ∈ ini, r.addr ≠ x) → mF x = m0 x := by
  have hsat : ∀ ev ∈ t.opEvals, ev.Satisfied := fun ev hev => h.satisfied ev (by
    simp only [Trace.evals, List.mem_append]
    exact .inl (.inl (.inl (.inl hev))))
  have hcu : ∀ r ∈ t.clockUpdate, (ClockUpdate.evaluate r).Satisfied := fun r hr => h.satisfied _ (by
    simp only [Trace.evals, List.mem_append, List.mem_map]
    exact .inl (.inl (.inr ⟨r, hr, rfl⟩)))
  obtain ⟨steps, h1, h2, h3, h4⟩ := steps_of t.opEvals fun ev hev => by
    have hh := hev
    simp only [Trace.opEvals, List.mem_flatMap, List.mem_map] at hh
    obtain ⟨k, -, r, hr, rfl⟩ := hh
    exact ⟨_, sound_of k r (hsat _ hev) (tablesHold_of h.balanced hlen hev) (hreg k r hr)⟩
  have hr := registers_perm (c := c) h2 h.balanced hlen
  have hm := memory_records (c := c) hcu hb h1
  have hl : (records (timed steps ++ updates t.clockUpdate) ini fin).length < P := by
    rw [← hm.length_eq]
    exact lt_of_le_of_lt (length_live _ _) hlen
  have hsl : steps.length < P := by
    have e1 := length_live (t.opEvals.flatMap Eval.entries) .registers
    rw [h2, show (steps.flatMap OpStep.regs).length = 2 * steps.length by
      simp [List.length_flatMap, OpStep.regs, Nat.mul_comm]] at e1
    have e2 : (t.opEvals.flatMap Eval.entries).length ≤ (d.entries ++ t.entries c).length := by
      simp only [Trace.entries, Trace.evals, List.flatMap_append, List.length_append]
      omega
    omega
  have hB := balanced_of hl (fun tuple => by
      rw [← sumOf_perm hm, ← total_live]; exact h.balanced _ _)
    (by
      intro a ha
      rcases List.mem_append.1 ha with ha | ha
      · simp only [timed, List.mem_flatMap, List.mem_map] at ha
        obtain ⟨s, hs, a, ha', rfl⟩ := ha
        exact (h3 s hs).1 a ha'
      · simp only [updates, List.mem_map] at ha
        obtain ⟨r, -, rfl⟩ := ha
        have : r.prev_clk + ClockUpdate.RC20_LIMIT - r.prev_clk - 1 = ((2 ^ 20 - 2 : ℕ) : M31) := by
          rw [add_sub_cancel_left]; decide
        rw [this]; decide)
    (by
      intro a ha
      rcases List.mem_append.1 ha with ha | ha
      · simp only [timed, List.mem_flatMap, List.mem_map] at ha
        obtain ⟨s, hs, a, ha, rfl⟩ := ha
        have hc : 1 ≤ s.clock.val ∧ s.clock.val ≤ d.clock.val :=
          RegArg.clock_range hr (by simpa using hsl) (List.mem_map_of_mem (f := OpStep.trans) hs)
        exact ⟨hc.1, hc.2.trans hw.final⟩
      · simp only [updates, List.mem_map, List.mem_filter, decide_eq_true_eq] at ha
        obtain ⟨r, ⟨hr, he⟩, rfl⟩ := ha
        have hu := hw.update r hr he
        have hv : (r.prev_clk + ClockUpdate.RC20_LIMIT).val = r.prev_clk.val + (2 ^ 20 - 1) := by
          rw [ZMod.val_add]
          have : (ClockUpdate.RC20_LIMIT : M31).val = 2 ^ 20 - 1 := by decide
          rw [this]
          exact Nat.mod_eq_of_lt (by omega)
        simp only [hv]
        omega)
    hb.one hb.clock
  rw [List.map_append, timed_arcs] at hB
  obtain ⟨mF, hrun, hf, hx⟩ := run_of (pc0 := d.initialPc) (fp0 := d.initialFp) (pcF := d.finalPc) (fpF := d.finalFp)
    (T := d.clock) (by
      intro a ha
      simp only [updates, List.map_map, List.mem_map] at ha
      obtain ⟨r, -, rfl⟩ := ha
      rfl) hB hr hsl (fun s hs => (h3 s hs).2)
    (by
      intro r hr
      obtain ⟨q, hq, rfl⟩ := List.mem_map.1 hr
      exact hb.inRange q hq) m0
    (by
      intro r hr
      obtain ⟨q, hq, rfl⟩ := List.mem_map.1 hr
      exact h0 q hq)
  refine ⟨mF, hrun, fun r hr => hf _ (List.mem_map_of_mem hr), fun x hne => hx x ?_⟩
  intro r hr
  obtain ⟨q, hq, rfl⟩ := List.mem_map.1 hr
  exact hne q hq

/-! ### C42 -/

/-- The opcode an opcode row looks up: the first value of the first memory record it consumes, the one of the cell at
`pc`. -/
def fetchedOpcode (ev : Eval) : M31 := ((ev.of .memory).map fun e => e.tuple.getD 2 0).headD 0

theorem fetched_of {ev : Eval} {pc fp clock pc' fp' : M31} {a : Access} {accs : List Access}
    (h : Performs ev pc fp clock pc' fp' (a :: accs)) : fetchedOpcode ev = a.prev.l0 := by
  rw [fetchedOpcode, h.memory]
  rfl

/-- An enabled row of a component fetches the opcode of one of the instructions assigned to the component; only
`store_fp_imm` also accepts the opcodes 5 and 7, which no instruction has. -/
theorem C42_fetched (c : Comp) (r : c.Row) (hs : (c.eval r).Satisfied) (ht : (c.eval r).TablesHold)
    (he : c.enabler r = 1) : (∃ i, Comp.ofInstruction i = some c ∧ fetchedOpcode (c.eval r) = (i.opcodeValue : M31)) ∨
      c = .storeFpImm ∧ (fetchedOpcode (c.eval r) = 5 ∨ fetchedOpcode (c.eval r) = 7) := by
  cases c with
  | assertEqFpImm =>
    have hf := fetched_of (AssertEqFpImm.performs (r := r) he)
    exact .inl ⟨.AssertEqFpImm 0 0, rfl, hf⟩
  | callAbsImm =>
    have hf := fetched_of (CallAbsImm.performs (r := r) he)
    exact .inl ⟨.CallAbsImm 0 0, rfl, hf⟩
  | jmpImm =>
    have hf := fetched_of (JmpImm.performs (r := r) he)
    rcases bool_of (hs _ (.tail _ (.head _))) with f | f <;> simp only [f] at hf
    · exact .inl ⟨.JmpAbsImm 0, rfl, hf.trans (by decide)⟩
    · exact .inl ⟨.JmpRelImm 0, rfl, hf.trans (by decide)⟩
  | jnzFpImm =>
    have hf := fetched_of (JnzFpImm.performs (r := r) he)
    exact .inl ⟨.JnzFpImm 0 0, rfl, hf⟩
  | ret =>
    have hf := fetched_of (Ret.performs (r := r) he)
    exact .inl ⟨.Ret, rfl, hf⟩
  | storeImm =>
    have hf := fetched_of (StoreImm.performs (r := r) he)
    exact .inl ⟨.StoreImm 0 0, rfl, hf⟩
  | storeFpFp =>
    have hf := fetched_of (StoreFpFp.performs (r := r) he)
    have f0 := bool_of (hs _ (.tail _ (.head _)))
    have f1 := bool_of (hs _ (.tail _ (.tail _ (.head _))))
    rcases f0 with f0 | f0 <;> rcases f1 with f1 | f1 <;> simp only [f0, f1] at hf
    · exact .inl ⟨.StoreAddFpFp 0 0 0, rfl, hf.trans (by decide)⟩
    · exact .inl ⟨.StoreSubFpFp 0 0 0, rfl, hf.trans (by decide)⟩
    · exact .inl ⟨.StoreMulFpFp 0 0 0, rfl, hf.trans (by decide)⟩
    · exact .inl ⟨.StoreDivFpFp 0 0 0, rfl, hf.trans (by decide)⟩
  | storeFpImm =>
    have hf := fetched_of (StoreFpImm.performs (r := r) he)
    have f0 := bool_of (hs _ (.tail _ (.head _)))
    have f1 := bool_of (hs _ (.tail _ (.tail _ (.head _))))
    rcases f0 with f0 | f0 <;> rcases f1 with f1 | f1 <;> simp only [f0, f1] at hf
    · exact .inl ⟨.StoreAddFpImm 0 0 0, rfl, hf.trans (by decide)⟩
    · exact .inr ⟨rfl, .inl (hf.trans (by decide))⟩
    · exact .inl ⟨.StoreMulFpImm 0 0 0, rfl, hf.trans (by decide)⟩
    · exact .inr ⟨rfl, .inr (hf.trans (by decide))⟩
  | doubleDerefFpImm =>
    have hf := fetched_of (DoubleDerefFpImm.performs (r := r) he)
    have hd : (36 : M31) ≠ 0 := by decide
    rcases bool_of (hs _ (.tail _ (.head _))) with f | f
    · have : r.opcode_constant = 8 := by
        have := congrArg (· * (36 : M31)) f
        simp only [mul_assoc, inv_mul_cancel₀ hd] at this
        linear_combination this
      exact .inl ⟨.StoreDoubleDerefFp 0 0 0, rfl, hf.trans this⟩
    · have : r.opcode_constant = 44 := by
        have := congrArg (· * (36 : M31)) f
        simp only [mul_assoc, inv_mul_cancel₀ hd] at this
        linear_combination this
      exact .inl ⟨.StoreToDoubleDerefFpImm 0 0 0, rfl, hf.trans this⟩
  | doubleDerefFpFp =>
    have hf := fetched_of (DoubleDerefFpFp.performs (r := r) he)
    have hd : (3 : M31) ≠ 0 := by decide
    rcases bool_of (hs _ (.tail _ (.head _))) with f | f
    · have : r.opcode_constant = 42 := by
        have := congrArg (· * (3 : M31)) f
        simp only [mul_assoc, inv_mul_cancel₀ hd] at this
        linear_combination this
      exact .inl ⟨.StoreDoubleDerefFpFp 0 0 0, rfl, hf.trans this⟩
    · have : r.opcode_constant = 45 := by
        have := congrArg (· * (3 : M31)) f
        simp only [mul_assoc, inv_mul_cancel₀ hd] at this
        linear_combination this
      exact .inl ⟨.StoreToDoubleDerefFpFp 0 0 0, rfl, hf.trans this⟩
  | storeFramePointer =>
    have hf := fetched_of (StoreFramePointer.performs (r := r) he)
    exact .inl ⟨.StoreFramePointer 0 0, rfl, hf⟩
  | u32StoreImm =>
    have hf := fetched_of (U32StoreImm.performs (r := r) he)
    exact .inl ⟨.U32StoreImm 0 0 0, rfl, hf⟩
  | u32StoreAddFpImm =>
    have hf := fetched_of (U32StoreAddFpImm.performs (r := r) he)
    exact .inl ⟨.U32StoreAddFpImm 0 0 0 0, rfl, hf⟩
  | u32StoreMulFpImm =>
    have hf := fetched_of (U32StoreMulFpImm.performs (r := r) he)
    exact .inl ⟨.U32StoreMulFpImm 0 0 0 0, rfl, hf⟩
  | u32StoreDivFpImm =>
    have hf := fetched_of (U32StoreDivFpImm.performs (r := r) he)
    exact .inl ⟨.U32StoreDivRemFpImm 0 0 0 0 0, rfl, hf⟩
  | u32StoreEqFpFp =>
    have hf := fetched_of (U32StoreEqFpFp.performs (r := r) he)
    exact .inl ⟨.U32StoreEqFpFp 0 0 0, rfl, hf⟩
  | u32StoreEqFpImm =>
    have hf := fetched_of (U32StoreEqFpImm.performs (r := r) he)
    exact .inl ⟨.U32StoreEqFpImm 0 0 0 0, rfl, hf⟩
  | u32StoreLtFpImm =>
    have hf := fetched_of (U32StoreLtFpImm.performs (r := r) he)
    exact .inl ⟨.U32StoreLtFpImm 0 0 0 0, rfl, hf⟩
  | u32StoreLtFpFp =>
    have hf := fetched_of (U32StoreLtFpFp.performs (r := r) he)
    exact .inl ⟨.U32StoreLtFpFp 0 0 0, rfl, hf⟩
  | u32StoreAddFpFp =>
    have hf := fetched_of (U32StoreAddFpFp.performs (r := r) he)
    exact .inl ⟨.U32StoreAddFpFp 0 0 0, rfl, hf⟩
  | u32StoreSubFpFp =>
    have hf := fetched_of (U32StoreSubFpFp.performs (r := r) he)
    exact .inl ⟨.U32StoreSubFpFp 0 0 0, rfl, hf⟩
  | u32StoreMulFpFp =>
    have hf := fetched_of (U32StoreMulFpFp.performs (r := r) he)
    exact .inl ⟨.U32StoreMulFpFp 0 0 0, rfl, hf⟩
  | u32StoreDivFpFp =>
    have hf := fetched_of (U32StoreDivFpFp.performs (r := r) he)
    exact .inl ⟨.U32StoreDivRemFpFp 0 0 0 0, rfl, hf⟩
  | u32StoreBitwiseFpFp =>
    have hf := fetched_of (U32StoreBitwiseFpFp.performs (r := r) he)
    obtain ⟨l0, -⟩ := U32StoreBitwiseFpFp.lookups (r := r) he ht
    rcases opcode_cases l0.1 with ho | ho | ho
    · exact .inl ⟨.U32StoreAndFpFp 0 0 0, rfl, hf.trans (ho.trans (by decide))⟩
    · exact .inl ⟨.U32StoreOrFpFp 0 0 0, rfl, hf.trans (ho.trans (by decide))⟩
    · exact .inl ⟨.U32StoreXorFpFp 0 0 0, rfl, hf.trans (ho.trans (by decide))⟩
  | u32StoreBitwiseFpImm =>
    have hf := fetched_of (U32StoreBitwiseFpImm.performs (r := r) he)
    obtain ⟨l0, -⟩ := U32StoreBitwiseFpImm.lookups (r := r) he ht
    rcases opcode_cases l0.1 with ho | ho | ho
    · exact .inl ⟨.U32StoreAndFpImm 0 0 0 0, rfl, hf.trans (ho.trans (by decide))⟩
    · exact .inl ⟨.U32StoreOrFpImm 0 0 0 0, rfl, hf.trans (ho.trans (by decide))⟩
    · exact .inl ⟨.U32StoreXorFpImm 0 0 0 0, rfl, hf.trans (ho.trans (by decide))⟩
  | storeLeFpImm =>
    have hf := fetched_of (StoreLeFpImm.performs (r := r) he)
    exact .inl ⟨.StoreLeFpImm 0 0 0, rfl, hf⟩

/-- The component of an opcode. -/
def compOfOpcode : ℕ → Option Comp
  | 50 => some .assertEqFpImm
  | 10 => some .callAbsImm
  | 12 => some .jmpImm
  | 13 => some .jmpImm
  | 14 => some .jnzFpImm
  | 11 => some .ret
  | 9 => some .storeImm
  | 0 => some .storeFpFp
  | 1 => some .storeFpFp
  | 2 => some .storeFpFp
  | 3 => some .storeFpFp
  | 4 => some .storeFpImm
  | 6 => some .storeFpImm
  | 8 => some .doubleDerefFpImm
  | 44 => some .doubleDerefFpImm
  | 42 => some .doubleDerefFpFp
  | 45 => some .doubleDerefFpFp
  | 43 => some .storeFramePointer
  | 23 => some .u32StoreImm
  | 19 => some .u32StoreAddFpImm
  | 21 => some .u32StoreMulFpImm
  | 22 => some .u32StoreDivFpImm
  | 24 => some .u32StoreEqFpFp
  | 30 => some .u32StoreEqFpImm
  | 34 => some .u32StoreLtFpImm
  | 28 => some .u32StoreLtFpFp
  | 15 => some .u32StoreAddFpFp
  | 16 => some .u32StoreSubFpFp
  | 17 => some .u32StoreMulFpFp
  | 18 => some .u32StoreDivFpFp
  | 36 => some .u32StoreBitwiseFpFp
  | 37 => some .u32StoreBitwiseFpFp
  | 38 => some .u32StoreBitwiseFpFp
  | 39 => some .u32StoreBitwiseFpImm
  | 40 => some .u32StoreBitwiseFpImm
  | 41 => some .u32StoreBitwiseFpImm
  | 48 => some .storeLeFpImm
  | _ => none

/-- The opcode determines the component. -/
theorem C42_at_most_one (i j : Instruction) (h : i.opcodeValue = j.opcodeValue) :
    Comp.ofInstruction i = Comp.ofInstruction j := by
  have key : ∀ i : Instruction, Comp.ofInstruction i = compOfOpcode i.opcodeValue := by
    intro i; cases i <;> rfl
  rw [key, key, h]

/-- Every instruction other than the print instructions is assigned to a component. -/
theorem C42_covered_partial (i : Instruction) (h1 : i.opcodeValue ≠ 46) (h2 : i.opcodeValue ≠ 47) :
    ∃ c, Comp.ofInstruction i = some c := by
  cases i <;> first | exact ⟨_, rfl⟩ | exact absurd rfl h1 | exact absurd rfl h2

/-- C42 is violated: the VM executes print instructions, but no row of any component can fetch their opcodes, so no run
that prints can be proved. -/
theorem C42_violated (i : Instruction) (h : i.opcodeValue = 46 ∨ i.opcodeValue = 47) (c : Comp) (r : c.Row)
    (hs : (c.eval r).Satisfied) (ht : (c.eval r).TablesHold) (he : c.enabler r = 1) :
    fetchedOpcode (c.eval r) ≠ (i.opcodeValue : M31) := by
  intro hf
  rcases C42_fetched c r hs ht he with ⟨j, hj, hfj⟩ | ⟨-, h5 | h7⟩
  · have : j.opcodeValue ≠ 46 ∧ j.opcodeValue ≠ 47 ∧ j.opcodeValue < 51 := by
      cases j <;> first
        | (simp only [Comp.ofInstruction, reduceCtorEq] at hj; done)
        | (simp only [Instruction.opcodeValue]; omega)
    have hv := congrArg ZMod.val (hfj.symm.trans hf)
    have hP : P = 2147483647 := rfl
    rw [ZMod.val_natCast_of_lt (by omega), ZMod.val_natCast_of_lt (by omega)] at hv
    omega
  · rcases h with h | h <;> rw [h] at hf <;> exact absurd (h5.symm.trans hf) (by decide)
  · rcases h with h | h <;> rw [h] at hf <;> exact absurd (h7.symm.trans hf) (by decide)

/-- Non-vacuity of `C42_violated`: the opcode is that of an instruction the VM executes. -/
example : (Instruction.PrintM31 3).opcodeValue = 46 ∧ (Instruction.decode [46, 3]) = .ok (.PrintM31 3) := by decide

/-- Non-vacuity of `C42_fetched`. -/
example : let r : Ret.Row := ⟨1, 3, 100, 9, 4, 5, 90, 5, 17⟩
    (Comp.eval .ret r).Satisfied ∧ (Comp.eval .ret r).TablesHold ∧ Comp.enabler .ret r = 1 :=
  ⟨satisfied_of_check (by decide +kernel), tablesHold_of_check (by decide +kernel), rfl⟩

end Air
end CairoM
