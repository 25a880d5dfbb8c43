import Verif.AirRun
import Verif.RegArg

/-!
# From balanced records to a run: helper lemmas
-/

namespace CairoM
namespace Air

open MemArg

/-- A step extracted from an opcode row. -/
structure OpStep where
  (pc fp clock pc' fp' : M31)
  accs : List Access

/-- An access as an arc in time. -/
def arc (clock : M31) (a : Access) : Arc M31 QM31 := ⟨a.addr, a.prevClock.val, a.prev, clock.val, a.new⟩

def OpStep.arcs (s : OpStep) : List (Arc M31 QM31) := s.accs.map (arc s.clock)

def OpStep.trans (s : OpStep) : RegArg.Trans (M31 × M31) := ⟨(s.pc, s.fp), s.clock, (s.pc', s.fp')⟩

theorem write_of_not_mem (ws : List (M31 × M31)) (mem : Isa.Mem) (x : M31) (h : ∀ w ∈ ws, w.1 ≠ x) :
    Isa.write mem ws x = mem x := by
  induction ws generalizing mem with
  | nil => rfl
  | cons w ws ih =>
    obtain ⟨a, v⟩ := w
    rw [Isa.write, ih _ fun w hw => h w (List.mem_cons_of_mem _ hw),
      Function.update_of_ne (h _ List.mem_cons_self).symm]

theorem write_of_one (ws : List (M31 × M31)) (mem : Isa.Mem) (x : M31)
    (h : ws.countP (fun w => w.1 = x) ≤ 1) {v : M31} (hv : (x, v) ∈ ws) : Isa.write mem ws x = ⟨v, 0, 0, 0⟩ := by
  induction ws generalizing mem with
  | nil => cases hv
  | cons w ws ih =>
    obtain ⟨a, u⟩ := w
    rw [Isa.write]
    by_cases ha : a = x
    · subst ha
      rw [List.countP_cons_of_pos (by simp)] at h
      have h0 : ws.countP (fun w => w.1 = a) = 0 := by omega
      rw [List.countP_eq_zero] at h0
      have hne : ∀ w ∈ ws, w.1 ≠ a := fun w hw => by simpa using h0 w hw
      rcases List.mem_cons.1 hv with he | hm
      · rw [write_of_not_mem _ _ _ hne, Function.update_self]
        rw [Prod.mk.injEq] at he
        rw [he.2]
      · exact absurd rfl (hne _ hm)
    · rw [List.countP_cons_of_neg (by simpa using ha)] at h
      rcases List.mem_cons.1 hv with he | hm
      · rw [Prod.mk.injEq] at he
        exact absurd he.1.symm ha
      · exact ih _ h hm

/-- The memory after an instruction, from its accesses, if no cell is accessed twice. -/
theorem memory_of_accs {mem : Isa.Mem} {pc : M31} {i : Instruction} {e : Isa.Effect} {accs : List Access}
    (hp : (accs.map fun a => (⟨a.addr, a.new⟩ : MemoryEntry)).Perm (Isa.fetchLog mem pc i ++ e.log mem))
    (x : M31) (h1 : accs.countP (fun a => a.addr = x) ≤ 1) :
    (∀ a ∈ accs, a.addr = x → e.memory mem x = a.new) ∧
      ((∀ a ∈ accs, a.addr ≠ x) → e.memory mem x = mem x) := by
  have hc : (Isa.fetchLog mem pc i ++ e.log mem).countP (fun m => m.addr = x) ≤ 1 := by
    rw [← hp.countP_eq, List.countP_map]
    exact h1
  have hcw : e.writes.countP (fun w => w.1 = x) ≤ 1 := by
    rw [Isa.Effect.log, List.countP_append, List.countP_append, List.countP_map (l := e.writes)] at hc
    have : (e.writes.countP ((fun m : MemoryEntry => decide (m.addr = x)) ∘
      fun w : M31 × M31 => (⟨w.1, ⟨w.2, 0, 0, 0⟩⟩ : MemoryEntry))) = e.writes.countP (fun w => w.1 = x) := rfl
    omega
  constructor
  · intro a ha hx
    have hm : (⟨a.addr, a.new⟩ : MemoryEntry) ∈ Isa.fetchLog mem pc i ++ e.log mem :=
      hp.mem_iff.1 (List.mem_map_of_mem ha)
    by_cases hw : ∃ w ∈ e.writes, w.1 = x
    · obtain ⟨w, hw, hwx⟩ := hw
      have hm' : (⟨w.1, ⟨w.2, 0, 0, 0⟩⟩ : MemoryEntry) ∈ Isa.fetchLog mem pc i ++ e.log mem := by
        refine List.mem_append_right _ (List.mem_append_right _ ?_)
        exact List.mem_map_of_mem (f := fun w : M31 × M31 => (⟨w.1, ⟨w.2, 0, 0, 0⟩⟩ : MemoryEntry)) hw
      have he := eq_of_countP_le_one hc hm hm' (by simpa using hx) (by simpa using hwx)
      rw [MemoryEntry.mk.injEq] at he
      rw [he.2]
      exact write_of_one _ _ _ hcw (by rw [← hwx]; exact hw)
    · push Not at hw
      rw [Isa.Effect.memory, write_of_not_mem _ _ _ hw]
      rcases List.mem_append.1 hm with h | h
      · obtain ⟨c, _, hc⟩ := List.mem_map.1 h
        rw [MemoryEntry.mk.injEq] at hc
        rw [← hx, ← hc.1, hc.2]
      · rcases List.mem_append.1 h with h | h
        · obtain ⟨c, _, hc⟩ := List.mem_map.1 h
          rw [MemoryEntry.mk.injEq] at hc
          rw [← hx, ← hc.1, hc.2]
        · obtain ⟨w, hw', hc⟩ := List.mem_map.1 h
          rw [MemoryEntry.mk.injEq] at hc
          exact absurd (hc.1.trans hx) (hw w hw')
  · intro hn
    refine write_of_not_mem _ _ _ fun w hw hx => ?_
    have hm' : (⟨w.1, ⟨w.2, 0, 0, 0⟩⟩ : MemoryEntry) ∈ accs.map fun a => (⟨a.addr, a.new⟩ : MemoryEntry) := by
      refine hp.mem_iff.2 (List.mem_append_right _ (List.mem_append_right _ ?_))
      exact List.mem_map_of_mem (f := fun w : M31 × M31 => (⟨w.1, ⟨w.2, 0, 0, 0⟩⟩ : MemoryEntry)) hw
    obtain ⟨a, ha, he⟩ := List.mem_map.1 hm'
    rw [MemoryEntry.mk.injEq] at he
    exact hn a ha (he.1.trans hx)

theorem countP_flatMap_ge {α β : Type} (f : α → List β) (p : β → Bool) {l : List α} {a : α} (ha : a ∈ l) :
    (f a).countP p ≤ (l.flatMap f).countP p := by
  induction l with
  | nil => cases ha
  | cons b l ih =>
    rw [List.flatMap_cons, List.countP_append]
    rcases List.mem_cons.1 ha with rfl | h
    · omega
    · have := ih h; omega

variable {steps : List OpStep} {cu : List (Arc M31 QM31)} {ini fin : List (M31 × ℕ × QM31)}

theorem ini_of_arc {arcs : List (Arc M31 QM31)} (hm : Balanced arcs ini fin) {a : Arc M31 QM31} (ha : a ∈ arcs) :
    ∃ r ∈ ini, r.1 = a.addr := by
  have h := hm.count a.addr a.src
  have : 0 < arcs.countP (Arc.over a.addr a.src) :=
    List.countP_pos_iff.2 ⟨a, ha, over_of rfl (le_refl _) (hm.forward a ha)⟩
  obtain ⟨r, hr, hp⟩ := List.countP_pos_iff.1 (show 0 < ini.countP (upTo a.addr a.src) by omega)
  simp only [upTo, Bool.and_eq_true, decide_eq_true_eq] at hp
  exact ⟨r, hr, hp.1⟩

/-- The state of the run after `n` steps. -/
structure At (arcs : List (Arc M31 QM31)) (ini fin : List (M31 × ℕ × QM31)) (steps : List OpStep) (pc0 fp0 : M31)
    (m0 : Isa.Mem) (n : ℕ) (pc fp : M31) (mem : Isa.Mem) : Prop where
  run : Isa.Run n pc0 fp0 m0 pc fp mem
  regs : ((pc, fp), ((n + 1 : ℕ) : M31)) ∈ (steps.map OpStep.trans).map RegArg.Trans.emit ++ [((pc0, fp0), 1)]
  flight : ∀ x v, InFlight arcs fin x n v → mem x = v
  rest : ∀ x, (∀ r ∈ ini, r.1 ≠ x) → mem x = m0 x

theorem run_of {pc0 fp0 pcF fpF T : M31} (hcu : ∀ a ∈ cu, a.old = a.new)
    (hm : Balanced (steps.flatMap OpStep.arcs ++ cu) ini fin)
    (hr : ((steps.map OpStep.trans).map RegArg.Trans.emit ++ [((pc0, fp0), 1)]).Perm
      ((steps.map OpStep.trans).map RegArg.Trans.consume ++ [((pcF, fpF), T + 1)]))
    (hlen : steps.length < P) (hex : ∀ s ∈ steps, Executes s.pc s.fp s.pc' s.fp' s.accs)
    (hin : ∀ r ∈ ini, Isa.InRange r.1) (m0 : Isa.Mem) (h0 : ∀ r ∈ ini, m0 r.1 = r.2.2) :
    ∃ mF, Isa.Run T.val pc0 fp0 m0 pcF fpF mF ∧ (∀ r ∈ fin, mF r.1 = r.2.2) ∧
      ∀ x, (∀ r ∈ ini, r.1 ≠ x) → mF x = m0 x := by
  have hlen' : (steps.map OpStep.trans).length < P := by rwa [List.length_map]
  have hT := ZMod.val_lt T
  -- arcs of the accesses of a step
  have harc : ∀ s ∈ steps, ∀ a ∈ s.accs, arc s.clock a ∈ steps.flatMap OpStep.arcs := fun s hs a ha =>
    List.mem_flatMap.2 ⟨s, hs, List.mem_map_of_mem ha⟩
  -- the steps of the run
  have key : ∀ n, n ≤ T.val → ∃ pc fp mem,
      At (steps.flatMap OpStep.arcs ++ cu) ini fin steps pc0 fp0 m0 n pc fp mem := by
    intro n
    induction n with
    | zero =>
      intro _
      refine ⟨pc0, fp0, m0, .refl _ _ _, by simp, fun x v hv => ?_, fun _ _ => rfl⟩
      exact h0 _ (hm.inFlight_zero hv)
    | succ n ih =>
      intro hn
      obtain ⟨pc, fp, mem, hat⟩ := ih (by omega)
      obtain ⟨tr, htr, hcl⟩ := RegArg.exists_at hr hlen' (j := n) (by omega)
      obtain ⟨s, hs, rfl⟩ := List.mem_map.1 htr
      have hlink := RegArg.link hr hlen' hat.regs
        (List.mem_append_left _ (List.mem_map_of_mem htr)) hcl.symm
      simp only [RegArg.Trans.consume, OpStep.trans, Prod.mk.injEq] at hlink hcl
      obtain ⟨⟨hpc, hfp⟩, -⟩ := hlink
      have hclv : s.clock.val = n + 1 := by rw [hcl, ZMod.val_natCast_of_lt (by omega)]
      have hacc : ∀ a ∈ s.accs, Isa.InRange a.addr ∧ mem a.addr = a.prev := by
        intro a ha
        have hmem := List.mem_append_left cu (harc s hs a ha)
        constructor
        · obtain ⟨r, hr, hx⟩ := ini_of_arc hm hmem
          have := hin r hr
          rwa [hx] at this
        · have hf := hm.forward _ hmem
          refine hat.flight _ _ (.arc (arc s.clock a) hmem rfl ?_ ?_) <;>
            simp only [arc, hclv] at hf ⊢ <;> omega
      obtain ⟨i, e, hst, hsem, hpc', hfp', hperm⟩ := hex s hs mem hacc
      have hone : ∀ x, s.accs.countP (fun a => a.addr = x) + cu.countP (fun a => a.addr = x && a.dst = n + 1) ≤ 1 := by
        intro x
        have h1 := hm.one_at x (t := n)
        rw [List.countP_append] at h1
        have h2 := countP_flatMap_ge OpStep.arcs (fun a => a.addr = x && a.dst = n + 1) hs
        have h3 : s.arcs.countP (fun a => a.addr = x && a.dst = n + 1) = s.accs.countP (fun a => a.addr = x) := by
          rw [OpStep.arcs, List.countP_map]
          congr 1
          funext a
          simp [arc, hclv]
        omega
      refine ⟨s.pc', s.fp', e.memory mem, .step hat.run ⟨i, ?_, e, ?_, hpc', hfp', rfl⟩, ?_, ?_, ?_⟩
      · rw [hpc]; exact hst
      · rw [hpc, hfp]; exact hsem
      · refine List.mem_append_left _ (List.mem_map.2 ⟨s.trans, List.mem_map_of_mem hs, ?_⟩)
        simp only [RegArg.Trans.emit, OpStep.trans, hcl]
        push_cast
        rfl
      · intro x v hv
        have hx := hone x
        obtain ⟨m1, m2⟩ := memory_of_accs hperm x (by omega)
        rcases hm.inFlight_succ hv with ⟨hv', hno⟩ | ⟨b, hb, hbx, hbd, hbn⟩
        · rw [m2 fun a ha hax => hno _ (List.mem_append_left _ (harc s hs a ha)) hax hclv]
          exact hat.flight x v hv'
        · rcases List.mem_append.1 hb with hb' | hb'
          · obtain ⟨s', hs', hb''⟩ := List.mem_flatMap.1 hb'
            obtain ⟨a, ha, rfl⟩ := List.mem_map.1 hb''
            have hcl' : s'.clock = s.clock := by
              have : s'.clock.val = s.clock.val := by simp only [arc] at hbd; omega
              exact ZMod.val_injective _ this
            have hss : s' = s := by
              by_contra hne
              have hnum := RegArg.num_val hr hlen' s.clock
              have : 2 ≤ RegArg.num (steps.map OpStep.trans) s.clock := by
                rw [RegArg.num, List.countP_map]
                have hsub : [s', s].Subperm steps := by
                  refine List.Nodup.subperm ?_ ?_
                  · simpa using hne
                  · intro y hy
                    simp only [List.mem_cons, List.not_mem_nil, or_false] at hy
                    rcases hy with rfl | rfl <;> assumption
                have := hsub.countP_le ((fun t : RegArg.Trans (M31 × M31) => decide (t.clock = s.clock)) ∘ OpStep.trans)
                simpa [OpStep.trans, hcl'] using this
              rw [hnum] at this
              split at this <;> omega
            subst hss
            rw [m1 a ha hbx]
            exact hbn
          · have hf := hm.forward b hb
            have hpos : 0 < cu.countP (fun a => a.addr = x && a.dst = n + 1) :=
              List.countP_pos_iff.2 ⟨b, hb', by simp [hbx, hbd]⟩
            have hz : s.accs.countP (fun a => a.addr = x) = 0 := by omega
            rw [m2 fun a ha => by simpa using (List.countP_eq_zero.1 hz) a ha]
            have := hat.flight x b.old (.arc b hb hbx (by omega) (by omega))
            rw [this, hcu b hb', hbn]
      · intro x hx
        obtain ⟨-, m2⟩ := memory_of_accs hperm x (by have := hone x; omega)
        rw [m2 fun a ha hax => ?_]
        · exact hat.rest x hx
        · obtain ⟨r, hr, hrx⟩ := ini_of_arc hm (List.mem_append_left cu (harc s hs a ha))
          exact hx r hr (hrx.trans hax)
  obtain ⟨pc, fp, mem, hat⟩ := key T.val (le_refl _)
  have hlink := RegArg.link hr hlen' hat.regs (r' := ((pcF, fpF), T + 1)) (by simp) (by
    push_cast [ZMod.natCast_zmod_val]; rfl)
  simp only [Prod.mk.injEq] at hlink
  obtain ⟨⟨hpc, hfp⟩, -⟩ := hlink
  subst hpc hfp
  -- nothing but clock updates happens later
  have later : ∀ k x v, InFlight (steps.flatMap OpStep.arcs ++ cu) fin x (T.val + k) v → mem x = v := by
    intro k
    induction k with
    | zero => exact hat.flight
    | succ k ih =>
      intro x v hv
      rcases hm.inFlight_succ (t := T.val + k) hv with ⟨hv', -⟩ | ⟨b, hb, hbx, hbd, hbn⟩
      · exact ih x v hv'
      · rcases List.mem_append.1 hb with hb' | hb'
        · obtain ⟨s', hs', hb''⟩ := List.mem_flatMap.1 hb'
          obtain ⟨a, ha, rfl⟩ := List.mem_map.1 hb''
          have := (RegArg.clock_range hr hlen' (List.mem_map_of_mem hs')).2
          simp only [arc, OpStep.trans] at hbd this
          omega
        · have hf := hm.forward b hb
          have := ih x b.old (.arc b hb hbx (by omega) (by omega))
          rw [this, hcu b hb', hbn]
  refine ⟨mem, hat.run, fun r hr => ?_, hat.rest⟩
  exact later r.2.1 r.1 r.2.2 (.final r hr rfl (by omega))

end Air
end CairoM
