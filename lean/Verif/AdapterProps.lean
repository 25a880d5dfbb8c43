import Verif.AdapterPublic

/-!
# Properties C26, C27: the adapter's memory records
-/

namespace CairoM

open Abi

namespace Adapter

/-! ### C26 -/

/-- C26, without public cells. Processing never panics; one record is returned per access; every initial multiplicity is 0
or 1 and every final one 0 or −1; and what the initial memory, the accesses and the clock updates produce is, as a
multiset, what the final memory, the accesses and the clock updates consume.

Missing from the full property: cells must hold their original value whenever they are accessed after a gap longer than a
range check (`C26_violated` shows it is needed). -/
theorem C26_records_balance_partial (m0 : CellMap) (h0 : RunnerMap m0) (es : List Access) (hs : SteadyOverGaps m0 es) :
    ∃ m args, (PMemory.new m0).pushAll es = some (m, args) ∧ args.length = es.length ∧ Signs m ∧
      (produced m args).Perm (consumed m args) := by
  obtain ⟨m, args, h1, h2, h3⟩ := pushAll_from h0 es [] _ (Tracks.start h0)
  refine ⟨m, args, h1, h3, Signs.of_paired (h2.paired h0), ?_⟩
  rw [List.perm_iff_count]
  intro r
  have := pushAll_count h0 es [] _ _ _ (Tracks.start h0) h1 (fun p e q hx v c => by simpa using hs p e q hx v c) r
  simp only [PMemory.new, records_runner h0 zero_ne_one', records_runner h0 zero_ne_neg, List.map_nil,
    List.count_nil, add_zero] at this
  unfold produced consumed
  simp only [List.count_append]
  omega

/-- C26 with the public cells of a proof: after `update_multiplicities`, program and input cells are produced by the
public data and output cells consumed by it, and everything still balances. -/
theorem C26_public_balance_partial (m0 : CellMap) (h0 : RunnerMap m0) (es : List Access) (hs : SteadyOverGaps m0 es)
    (ranges : PublicAddressRanges)
    (hd : (addresses ranges.program ++ addresses ranges.input ++ addresses ranges.output).Nodup) :
    ∃ m args, (PMemory.new m0).pushAll es = some (m, args) ∧
      let m' := m.updateMultiplicities ranges
      Signs m' ∧
      (produced m' args ++ publicRecords m'.initial ranges.program ++ publicRecords m'.initial ranges.input).Perm
        (consumed m' args ++ publicRecords m'.final ranges.output) := by
  obtain ⟨m, args, h1, -, -, h4⟩ := C26_records_balance_partial m0 h0 es hs
  refine ⟨m, args, h1, ?_⟩
  obtain ⟨m2, args2, g1, g2, -⟩ := pushAll_from h0 es [] _ (Tracks.start h0)
  rw [h1] at g1
  injection g1 with g1
  injection g1 with g1 g1'
  subst g1 g1'
  dsimp only
  have hpair := g2.paired h0
  refine ⟨(Signs.of_paired hpair).update ranges, ?_⟩
  rw [List.nodup_append] at hd
  obtain ⟨hd1, hd2, hd3⟩ := hd
  obtain ⟨i1, i2, i3, i4, i5, i6⟩ := inputs_count (addresses ranges.program ++ addresses ranges.input) m
    ⟨g2.nodupI, g2.nodupF⟩ hd1 (fun a _ => hpair a)
  obtain ⟨j1, j2, j3, j4, j5⟩ := outputs_count (addresses ranges.output) _ i1 hd2 (fun a ha => by
    obtain ⟨k1, k2⟩ := i5 a (fun h => hd3 a h a ha rfl)
    rw [k1, k2]; exact hpair a)
  rw [List.perm_iff_count] at h4 ⊢
  intro r
  have e1 := i6 r
  have e2 := j5 r
  have e3 := h4 r
  have hin : publicRecords (m.updateMultiplicities ranges).initial ranges.program ++
      publicRecords (m.updateMultiplicities ranges).initial ranges.input =
      (addresses ranges.program ++ addresses ranges.input).flatMap (pub m.initial) := by
    rw [publicRecords_eq, publicRecords_eq, ← List.flatMap_append]
    exact List.flatMap_congr fun b _ => (j3 b).trans (i3 b)
  have hout : publicRecords (m.updateMultiplicities ranges).final ranges.output =
      (addresses ranges.output).flatMap
        (pub ((addresses ranges.program ++ addresses ranges.input).foldl PMemory.publicInput m).final) := by
    rw [publicRecords_eq]
    exact List.flatMap_congr fun b _ => j4 b
  rw [List.append_assoc, hin, hout]
  have hupd : (m.updateMultiplicities ranges).updates = m.updates := j2.trans i2
  unfold produced consumed at e3 ⊢
  simp only [List.count_append] at e3 ⊢
  rw [hupd]
  unfold PMemory.updateMultiplicities
  simp only [List.flatMap_append, List.count_append] at e1 e2 ⊢
  omega

/-- Without the condition the records do not balance: a cell that is 0 at the start, is written 7 at clock 1 and read
again more than 2^20 steps later. The clock update inserted in between carries the original value 0. -/
theorem C26_violated : ∃ (m0 : CellMap) (es : List Access), RunnerMap m0 ∧
    ∃ m args, (PMemory.new m0).pushAll es = some (m, args) ∧ ¬ (produced m args).Perm (consumed m args) := by
  refine ⟨[(5, ⟨QM31.zero, 0, 0⟩)], [⟨5, QM31.ofM31 7, 1⟩, ⟨5, QM31.ofM31 7, 1048577⟩], ⟨by decide, by decide⟩, _, _,
    rfl, ?_⟩
  intro h
  have := h.count_eq (5, 1, QM31.ofM31 7)
  revert this
  decide +kernel

/-- The hypotheses of C26 can be met with a clock update in between: a cell read twice, more than 2^20 steps apart. -/
example : ∃ (m0 : CellMap) (es : List Access), RunnerMap m0 ∧ SteadyOverGaps m0 es ∧
    ∃ m args, (PMemory.new m0).pushAll es = some (m, args) ∧ m.updates.length = 1 := by
  refine ⟨[(5, ⟨QM31.ofM31 3, 0, 0⟩)], [⟨5, QM31.ofM31 3, 1⟩, ⟨5, QM31.ofM31 3, 1048577⟩], ⟨by decide, by decide⟩, ?_,
    _, _, rfl, by decide +kernel⟩
  intro pre e post h v c hv _
  rcases pre with _ | ⟨a, pre⟩
  · simp only [List.nil_append, List.cons.injEq] at h
    rw [← h.1] at hv ⊢
    simp only [holds, lastAccess, List.reverse_nil, List.find?_nil, CellMap.get] at hv
    simp at hv
    rw [← hv.1]
    rfl
  · rcases pre with _ | ⟨b, pre⟩
    · simp only [List.cons_append, List.nil_append, List.cons.injEq] at h
      obtain ⟨h1, h2, -⟩ := h
      rw [← h1, ← h2] at hv ⊢
      simp [holds, lastAccess] at hv
      rw [← hv.1]
      rfl
    · have := congrArg List.length h
      simp at this

/-! ### C27 -/

/-- C27: the record returned for an access. If the cell was last accessed strictly before, and not a multiple (two or
more) of 2^20 − 1 steps before, then the previous clock of the record is smaller than its clock by less than 2^20,
whatever the distance in time.

Missing from the full property: exact multiples, and two accesses in the same step (`C27_violated_multiple`,
`C27_violated_same_step`). -/
theorem C27_clock_difference_partial (m0 : CellMap) (h0 : RunnerMap m0) (es : List Access) (m : PMemory)
    (args : List MemoryArg) (h : (PMemory.new m0).pushAll es = some (m, args)) (i : ℕ) (e : Access)
    (hi : es[i]? = some e) (before : M31)
    (hb : (((holds m0 (es.take i) e.address).map Prod.snd).getD 0) = before) (hlt : before.val < e.clock.val)
    (hmul : ¬ ∃ k, 2 ≤ k ∧ e.clock.val = before.val + k * (2 ^ 20 - 1)) :
    ∃ arg, args[i]? = some arg ∧ arg.address = e.address ∧ arg.clock = e.clock ∧
      arg.prevClock.val < arg.clock.val ∧ arg.clock.val - arg.prevClock.val < 2 ^ 20 := by
  obtain ⟨w, c, h1, h2⟩ := pushAll_get h0 es [] _ _ _ (Tracks.start h0) h i e hi
  have hc : c = before := by
    rw [← hb]
    rw [List.nil_append] at h1
    cases hh : holds m0 (es.take i) e.address with
    | none => rw [hh] at h1; exact (congrArg Prod.snd h1).symm
    | some p => rw [hh] at h1; exact (congrArg Prod.snd h1).symm
  subst hc
  refine ⟨_, h2, rfl, rfl, ?_⟩
  obtain ⟨hv, hle⟩ := prevClock_val hlt
  simp only
  rw [hv]
  have hne : c.val + numUpdates e.clock c * RC20_LIMIT ≠ e.clock.val := by
    intro heq
    refine hmul ⟨numUpdates e.clock c, ?_, ?_⟩
    · unfold numUpdates at heq ⊢
      rw [if_pos hlt] at heq ⊢
      split_ifs at heq ⊢ with hg
      · by_contra hlt2
        generalize (e.clock.val - c.val) / RC20_LIMIT = q at heq hlt2
        obtain rfl | rfl : q = 1 ∨ q = 0 := by omega
        · omega
        · omega
      · omega
    · rw [← heq]; rfl
  refine ⟨by omega, ?_⟩
  unfold numUpdates at hne hle ⊢
  rw [if_pos hlt] at hne hle ⊢
  have hL : RC20_LIMIT = 1048575 := rfl
  split_ifs at hne hle ⊢ with hg
  · have hmod := Nat.div_add_mod (e.clock.val - c.val) RC20_LIMIT
    have hml := Nat.mod_lt (e.clock.val - c.val) (show 0 < RC20_LIMIT by rw [hL]; decide)
    rw [mul_comm] at hmod
    omega
  · omega

/-- C27 within the default step limit (`DEFAULT_MAX_STEPS = 2^20 − 1`, `crates/common/src/execution.rs:15`): all clocks are
below 2^20, and it is enough that the cell was last accessed in an earlier step. -/
theorem C27_default_limit (m0 : CellMap) (h0 : RunnerMap m0) (es : List Access) (m : PMemory)
    (args : List MemoryArg) (h : (PMemory.new m0).pushAll es = some (m, args)) (i : ℕ) (e : Access)
    (hi : es[i]? = some e) (before : M31)
    (hb : (((holds m0 (es.take i) e.address).map Prod.snd).getD 0) = before) (hlt : before.val < e.clock.val)
    (hmax : e.clock.val ≤ 2 ^ 20 - 1) :
    ∃ arg, args[i]? = some arg ∧ arg.address = e.address ∧ arg.clock = e.clock ∧ arg.prevClock = before ∧
      arg.prevClock.val < arg.clock.val ∧ arg.clock.val - arg.prevClock.val < 2 ^ 20 := by
  obtain ⟨arg, h1, h2, h3, h4, h5⟩ := C27_clock_difference_partial m0 h0 es m args h i e hi before hb hlt (by
    rintro ⟨k, hk, hk'⟩
    have : 2 * (2 ^ 20 - 1) ≤ k * (2 ^ 20 - 1) := Nat.mul_le_mul_right _ hk
    omega)
  refine ⟨arg, h1, h2, h3, ?_, h4, h5⟩
  obtain ⟨w, c, g1, g2⟩ := pushAll_get h0 es [] _ _ _ (Tracks.start h0) h i e hi
  have hc : c = before := by
    rw [← hb]
    rw [List.nil_append] at g1
    cases hh : holds m0 (es.take i) e.address with
    | none => rw [hh] at g1; exact (congrArg Prod.snd g1).symm
    | some p => rw [hh] at g1; exact (congrArg Prod.snd g1).symm
  subst hc
  rw [h1] at g2
  injection g2 with g2
  rw [g2]
  have hz : numUpdates e.clock c = 0 := by
    unfold numUpdates
    have hL : RC20_LIMIT = 1048575 := rfl
    rw [if_pos hlt, if_neg (by omega)]
  simp [hz]

/-- A cell accessed twice, 2·(2^20 − 1) steps apart: the two clock updates bring its clock up to that of the access, and the
record has clock difference 0. -/
theorem C27_violated_multiple : ∃ (m0 : CellMap) (es : List Access), RunnerMap m0 ∧
    (es.map fun e => e.clock.val).Pairwise (· < ·) ∧
    ∃ m args, (PMemory.new m0).pushAll es = some (m, args) ∧ ∃ arg ∈ args, arg.prevClock = arg.clock := by
  refine ⟨[(5, ⟨QM31.ofM31 3, 0, 0⟩)], [⟨5, QM31.ofM31 3, 1⟩, ⟨5, QM31.ofM31 3, 2097151⟩], ⟨by decide, by decide⟩,
    by decide, _, _, rfl, ?_⟩
  decide +kernel

/-- The hypotheses of C27 can be met by a gap longer than two range checks. -/
example : ∃ m args, (PMemory.new [(5, ⟨QM31.ofM31 3, 0, 0⟩)]).pushAll
    [⟨5, QM31.ofM31 3, 1⟩, ⟨5, QM31.ofM31 4, 3000000⟩] = some (m, args) ∧
    args.map (fun a => a.clock.val - a.prevClock.val) = [1, 902849] ∧ m.updates.length = 2 :=
  ⟨_, _, rfl, by decide +kernel, by decide +kernel⟩

end Adapter
end CairoM
