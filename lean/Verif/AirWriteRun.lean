import Verif.AirWriteProps
import Verif.MerkleRun

/-!
# Helper lemmas: the bundles of a run are honest
-/

namespace CairoM

open Abi Memory Adapter

/-! ### All values a step logs are field elements -/

theorem felt_base {mem : Isa.Mem} {a x : M31} (h : Isa.felt mem a = some x) : mem a = QM31.ofM31 (mem a).l0 := by
  rw [Air.felt_inv h]; rfl

theorem u32_base {mem : Isa.Mem} {a : M31} {n : ℕ} (h : Isa.u32 mem a = some n) :
    mem a = QM31.ofM31 (mem a).l0 ∧ mem (a + 1) = QM31.ofM31 (mem (a + 1)).l0 := by
  unfold Isa.u32 at h
  simp only [Option.bind_eq_bind] at h
  obtain ⟨x, hx, h⟩ := Option.bind_eq_some_iff.1 h
  obtain ⟨y, hy, h⟩ := Option.bind_eq_some_iff.1 h
  exact ⟨felt_base hx, felt_base hy⟩

attribute [local irreducible] Isa.done in
theorem sem_reads_base {i : Instruction} {pc fp : M31} {mem : Isa.Mem} {e : Isa.Effect}
    (h : Isa.sem i pc fp mem = some e) : ∀ a ∈ e.reads, mem a = QM31.ofM31 (mem a).l0 := by
  cases i <;> dsimp only [Isa.sem, Isa.bin32, Isa.bin32Imm] at h <;> sem_inv h
  all_goals
    rw [done_some h]
    simp only [List.forall_mem_cons, List.not_mem_nil, false_imp_iff, implies_true, and_true]
    with_reducible repeat' apply And.intro
    all_goals first
      | exact felt_base (by with_reducible assumption)
      | exact (u32_base (by with_reducible assumption)).1
      | exact (u32_base (by with_reducible assumption)).2

theorem log_base {i : Instruction} {pc fp : M31} {mem : Isa.Mem} {e : Isa.Effect}
    (h : Isa.sem i pc fp mem = some e) : ∀ y ∈ e.log mem, y.value = QM31.ofM31 y.value.l0 := by
  intro y hy
  unfold Isa.Effect.log at hy
  rw [List.mem_append, List.mem_map, List.mem_map] at hy
  rcases hy with ⟨a, ha, rfl⟩ | ⟨w, -, rfl⟩
  · exact sem_reads_base h a ha
  · rfl

namespace Adapter

/-! ### Splitting the accesses of a history -/

theorem accessesFrom_append (xs ys : List StepInfo) : ∀ c : ℕ,
    accessesFrom c (xs ++ ys) = accessesFrom c xs ++ accessesFrom (c + xs.length) ys := by
  induction xs with
  | nil => intro c; rfl
  | cons x xs ih =>
    intro c
    rw [List.cons_append, accessesFrom, accessesFrom, ih, List.append_assoc, List.length_cons,
      show c + 1 + xs.length = c + (xs.length + 1) by omega]

theorem accessesFrom_clock (xs : List StepInfo) : ∀ c : ℕ, ∀ e ∈ accessesFrom c xs,
    ∃ k, c ≤ k ∧ k < c + xs.length ∧ e.clock = M31.ofU32 k := by
  induction xs with
  | nil => intro c e he; cases he
  | cons x xs ih =>
    intro c e he
    rw [accessesFrom, List.mem_append, List.mem_map] at he
    rcases he with ⟨y, -, rfl⟩ | he
    · exact ⟨c, le_refl _, by simp, rfl⟩
    · obtain ⟨k, h1, h2, h3⟩ := ih _ e he
      exact ⟨k, by omega, by rw [List.length_cons]; omega, h3⟩

theorem clock_val {k : ℕ} (h : k < 2 ^ 20) : (M31.ofU32 k).val = k := by
  have hP : P = 2147483647 := rfl
  unfold M31.ofU32
  exact ZMod.val_natCast_of_lt (by omega)

theorem flatten_get {α : Type} (ass : List (List α)) : ∀ (k j : ℕ) (as : List α) (a : α), ass[k]? = some as →
    as[j]? = some a → ass.flatten[(ass.take k).flatten.length + j]? = some a := by
  induction ass with
  | nil => intro k j as a h; simp at h
  | cons bs ass ih =>
    intro k j as a h h'
    cases k with
    | zero =>
      simp only [List.getElem?_cons_zero, Option.some.injEq] at h
      subst h
      simp only [List.take_zero, List.flatten_nil, List.length_nil, Nat.zero_add, List.flatten_cons]
      rw [List.getElem?_append_left (List.getElem?_eq_some_iff.1 h').1]
      exact h'
    | succ k =>
      rw [List.getElem?_cons_succ] at h
      rw [List.take_succ_cons, List.flatten_cons, List.flatten_cons, List.length_append, Nat.add_assoc,
        List.getElem?_append_right (Nat.le_add_right _ _), Nat.add_sub_cancel_left]
      exact ih k j as a h h'

theorem take_lengths : ∀ (xs : List StepInfo) (ass : List (List MemoryArg)) (c : ℕ), ass.length = xs.length →
    (∀ (k : ℕ) (x : StepInfo) (as : List MemoryArg), xs[k]? = some x → ass[k]? = some as → as.length = x.log.length) →
    ∀ k, (ass.take k).flatten.length = (accessesFrom c (xs.take k)).length := by
  intro xs
  induction xs with
  | nil => intro ass c h _ k; rw [List.length_nil, List.length_eq_zero_iff] at h; subst h; simp [accessesFrom]
  | cons x xs ih =>
    intro ass c h hv k
    cases ass with
    | nil => simp at h
    | cons as ass =>
      cases k with
      | zero => simp [accessesFrom]
      | succ k =>
        rw [List.length_cons, List.length_cons] at h
        rw [List.take_succ_cons, List.take_succ_cons, List.flatten_cons, accessesFrom, List.length_append,
          List.length_append, List.length_map,
          ih ass (c + 1) (by omega) (fun k y bs h1 h2 => hv (k + 1) y bs h1 h2) k, hv 0 x as rfl rfl]

/-! ### Records of a step are recent -/

theorem lastAccess_mem {es : List Access} {a : M31} {e : Access} (h : lastAccess es a = some e) :
    e ∈ es ∧ e.address = a := by
  unfold lastAccess at h
  exact ⟨List.mem_reverse.1 (List.mem_of_find?_eq_some h), by simpa using List.find?_some h⟩

/-- The clock a cell has before the `j`-th access of a step that touches distinct cells is that of an earlier step. -/
theorem holds_before {m0 : CellMap} (h0 : RunnerMap m0) (pre : List Access) (l : List MemoryEntry) (c j : ℕ)
    (hc : 1 ≤ c) (hc' : c < 2 ^ 20) (hpre : ∀ e ∈ pre, e.clock.val < c) (hn : (l.map MemoryEntry.addr).Nodup) {y : MemoryEntry}
    (hy : l[j]? = some y) :
    (((holds m0 (pre ++ (l.map (toAccess c)).take j) y.addr).map Prod.snd).getD 0).val < c := by
  unfold holds
  cases hl : lastAccess (pre ++ (l.map (toAccess c)).take j) y.addr with
  | none =>
    cases hg : m0.get y.addr with
    | none => simp; omega
    | some cell =>
      have : cell.clock = 0 := by
        unfold CellMap.get at hg
        obtain ⟨p, hp, rfl⟩ := Option.map_eq_some_iff.1 hg
        exact (h0.fresh p (List.mem_of_find?_eq_some hp)).1
      simp [this]; omega
  | some e =>
    obtain ⟨h1, h2⟩ := lastAccess_mem hl
    simp only [Option.map_some, Option.getD_some]
    rcases List.mem_append.1 h1 with h1 | h1
    · exact hpre e h1
    · exfalso
      rw [← List.map_take, List.mem_map] at h1
      obtain ⟨z, hz, rfl⟩ := h1
      obtain ⟨i, hi⟩ := List.mem_iff_getElem?.1 hz
      have hij : i < j := by
        have := (List.getElem?_eq_some_iff.1 hi).1
        rw [List.length_take] at this
        omega
      rw [List.getElem?_take_of_lt hij] at hi
      have e1 : (l.map MemoryEntry.addr)[i]? = some y.addr := by
        rw [List.getElem?_map, hi]; exact congrArg some h2
      have e2 : (l.map MemoryEntry.addr)[j]? = some y.addr := by rw [List.getElem?_map, hy]; rfl
      have := (List.getElem?_inj (List.getElem?_eq_some_iff.1 e1).1 hn).1 (e1.trans e2.symm)
      omega

theorem recent_val {a b : M31} (h : a.val < b.val) (h' : b.val - a.val < 2 ^ 20) : (b - a - 1).val < 2 ^ 20 := by
  have e : b - a - 1 = ((b.val - a.val - 1 : ℕ) : M31) := by
    rw [Nat.cast_sub (by omega), Nat.cast_sub (by omega)]
    simp
  have hP : P = 2147483647 := rfl
  rw [e, ZMod.val_natCast_of_lt (by omega)]
  omega

/-- Every record of every step of a history within the default step limit is recent, if every step touches distinct
cells. -/
theorem history_recent {m0 : CellMap} (h0 : RunnerMap m0) {xs : List StepInfo} (hlen : xs.length < 2 ^ 20)
    (hn : ∀ x ∈ xs, (x.log.map MemoryEntry.addr).Nodup) {m : PMemory} {ass : List (List MemoryArg)}
    (hp : (PMemory.new m0).pushAll (accessesFrom 1 xs) = some (m, ass.flatten)) (hl : ass.length = xs.length)
    (hv : ∀ (k : ℕ) (x : StepInfo) (as : List MemoryArg), xs[k]? = some x → ass[k]? = some as →
        as.map (fun y => (y.address, y.value, y.clock)) =
          x.log.map fun e => (e.addr, e.value, M31.ofU32 (1 + k)))
    {k : ℕ} {x : StepInfo} {as : List MemoryArg} (hx : xs[k]? = some x) (has : ass[k]? = some as) :
    ∀ a ∈ as, (M31.ofU32 (1 + k) - a.prevClock - 1).val < 2 ^ 20 := by
  intro a ha
  obtain ⟨j, hj⟩ := List.mem_iff_getElem?.1 ha
  have hlens := take_lengths xs ass 1 hl (fun k x as h1 h2 => by
    have := congrArg List.length (hv k x as h1 h2)
    simpa using this)
  have hk : k < xs.length := (List.getElem?_eq_some_iff.1 hx).1
  have hg := flatten_get ass k j as a has hj
  rw [hlens k] at hg
  have hjx : j < x.log.length := by
    have := congrArg List.length (hv k x as hx has)
    have h2 := (List.getElem?_eq_some_iff.1 hj).1
    simp only [List.length_map] at this
    omega
  have hy : x.log[j]? = some x.log[j] := List.getElem?_eq_getElem hjx
  have hsplit : accessesFrom 1 xs = accessesFrom 1 (xs.take k) ++ (x.log.map (toAccess (1 + k)) ++
      accessesFrom (1 + k + 1) (xs.drop (k + 1))) := by
    have hxs : xs = xs.take k ++ x :: xs.drop (k + 1) := by
      obtain ⟨h1, h2⟩ := List.getElem?_eq_some_iff.1 hx
      rw [← h2, ← List.drop_eq_getElem_cons h1, List.take_append_drop]
    conv_lhs => rw [hxs, accessesFrom_append, accessesFrom, List.length_take, Nat.min_eq_left hk.le]
  have hi : (accessesFrom 1 xs)[(accessesFrom 1 (xs.take k)).length + j]? = some (toAccess (1 + k) x.log[j]) := by
    rw [hsplit, List.getElem?_append_right (Nat.le_add_right _ _), Nat.add_sub_cancel_left,
      List.getElem?_append_left (by simpa using hjx), List.getElem?_map, hy]
    rfl
  have htake : (accessesFrom 1 xs).take ((accessesFrom 1 (xs.take k)).length + j) =
      accessesFrom 1 (xs.take k) ++ (x.log.map (toAccess (1 + k))).take j := by
    rw [hsplit, List.take_length_add_append, List.take_append_of_le_length (by simpa using hjx.le)]
  have hb := holds_before h0 (accessesFrom 1 (xs.take k)) x.log (1 + k) j (by omega) (by omega) (fun e he => by
    obtain ⟨i, h1, h2, h3⟩ := accessesFrom_clock _ _ e he
    rw [List.length_take] at h2
    rw [h3, clock_val (by omega)]
    omega) (hn x (List.mem_of_getElem? hx)) hy
  have hclk : (toAccess (1 + k) x.log[j]).clock.val = 1 + k := clock_val (by omega)
  obtain ⟨arg, g1, -, g3, -, g5, g6⟩ := C27_default_limit m0 h0 _ m ass.flatten hp _ _ hi _ (by
    rw [htake]) (by rw [hclk]; exact hb) (by rw [hclk]; omega)
  rw [hg] at g1
  injection g1 with g1
  subst g1
  rw [g3] at g5 g6
  exact recent_val g5 g6

end Adapter

namespace Air

/-- The bundle of a step is honest. -/
theorem honest_bundle {x : StepInfo} (hef : Isa.sem x.instr x.state.pc x.state.fp x.mem = some x.effect) {c : ℕ}
    {as : List MemoryArg}
    (hv : as.map (fun y => (y.address, y.value, y.clock)) = x.log.map fun e => (e.addr, e.value, M31.ofU32 c))
    (hr : ∀ a ∈ as, (M31.ofU32 c - a.prevClock - 1).val < 2 ^ 20) : Honest (bundleOf c x as) x.mem x.effect := by
  have hcells : (Isa.codeCells x.state.pc x.instr).length ≤ x.log.length := by
    unfold StepInfo.log Isa.fetchLog; simp
  refine ⟨hef, ?_, ?_, ?_⟩
  · have hd := congrArg (List.drop (Isa.codeCells x.state.pc x.instr).length) hv
    rw [← List.map_drop, ← List.map_drop] at hd
    have hlog : x.log.drop (Isa.codeCells x.state.pc x.instr).length = x.effect.log x.mem := by
      unfold StepInfo.log Isa.fetchLog
      rw [List.drop_append_of_le_length (by rw [List.length_map]), ← List.length_map (as := Isa.codeCells x.state.pc x.instr)
        (f := fun a => (⟨a, x.mem a⟩ : MemoryEntry)), List.drop_length, List.nil_append]
    rw [hlog] at hd
    have := congrArg (List.map fun t : M31 × QM31 × M31 => (⟨t.1, QM31.ofM31 t.2.1.l0⟩ : MemoryEntry)) hd
    simp only [List.map_map] at this
    unfold bundleOf
    simp only [List.map_map]
    refine this.trans ?_
    refine (List.map_congr_left fun y hy => ?_).trans (List.map_id _)
    have := log_base hef y hy
    cases y
    simp only [Function.comp, id, MemoryEntry.mk.injEq, true_and]
    exact this.symm
  · unfold bundleOf
    cases as with
    | nil =>
      have := congrArg List.length hv
      simp only [List.length_map, List.length_nil] at this
      have hpos : 0 < (Isa.codeCells x.state.pc x.instr).length := by
        unfold Isa.codeCells; split_ifs <;> simp
      omega
    | cons a as => exact hr a List.mem_cons_self
  · unfold bundleOf
    intro d hd
    simp only [List.mem_map] at hd
    obtain ⟨a, ha, rfl⟩ := hd
    exact hr a (List.mem_of_mem_drop ha)

theorem mem_opcodes (i : Instruction) (c : Comp) : i.opcodeValue ∈ c.opcodes ↔ Comp.ofInstruction i = some c := by
  cases i <;> cases c <;> simp [Comp.opcodes, Instruction.opcodeValue, Comp.ofInstruction]

theorem mem_inputs (c : Comp) (p : Adapter.Input) (b : Bundle) :
    b ∈ c.inputs p ↔ b ∈ p.bundles ∧ Comp.ofInstruction b.instruction = some c := by
  unfold Comp.inputs Adapter.Input.byOpcode
  simp only [List.mem_flatMap, List.mem_filter, decide_eq_true_eq]
  constructor
  · rintro ⟨o, ho, hb, rfl⟩
    exact ⟨hb, (mem_opcodes _ _).1 ho⟩
  · rintro ⟨hb, hc⟩
    exact ⟨_, (mem_opcodes _ _).2 hc, hb, rfl⟩

theorem comp_of_not_print {i : Instruction} (h : ¬ i.IsPrint) : ∃ c, Comp.ofInstruction i = some c := by
  cases i <;> first
    | exact ⟨_, rfl⟩
    | exact absurd (.inl ⟨_, rfl⟩) h
    | exact absurd (.inr ⟨_, rfl⟩) h

end Air
end CairoM
