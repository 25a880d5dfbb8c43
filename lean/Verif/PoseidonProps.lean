import Verif.PoseidonSpec
import Verif.AirOpenProps

/-!
# C71: the Poseidon2 circuit computes the permutation
-/

namespace CairoM
namespace Air
namespace Poseidon2

theorem applyExternal_eq (s : State) : applyExternal s = Poseidon.externalLayer s := by
  funext i
  simp only [Poseidon.externalLayer, Fin.sum_univ_succ, Poseidon.external, applyExternal, applyM4, Poseidon.m4]
  fin_cases i <;> simp [Fin.succ] <;> ring

theorem applyInternal_eq (c : Consts) (s : State) : applyInternal c s = Poseidon.internalLayer c s := by
  funext i
  have h : (List.ofFn fun i : Fin 15 => s i.succ).foldl (· + ·) (s 0) = ∑ j, s j := by
    rw [Fin.sum_univ_succ]
    simp only [List.ofFn_succ, List.ofFn_zero, List.foldl_cons, List.foldl_nil, Fin.sum_univ_succ, Fin.sum_univ_zero]
    ring
  have h2 : ∑ j, (if i = j then c.matrix i + 1 else 1) * s j = s i * c.matrix i + ∑ j, s j := by
    have : ∀ j, (if i = j then c.matrix i + 1 else 1) * s j = (if i = j then s j * c.matrix i else 0) + s j := by
      intro j; split <;> ring
    rw [Finset.sum_congr rfl fun j _ => this j, Finset.sum_add_distrib]
    simp
  rw [Poseidon.internalLayer, h2, applyInternal, h]

theorem pin_zero {en : M31} {s m : State} (he : en ≠ 0) (h : ∀ x ∈ pin en s m, x = 0) : m = s := by
  funext i
  have := h (en * (s i - m i)) (List.mem_ofFn.2 ⟨i, rfl⟩)
  exact (sub_eq_zero.1 ((mul_eq_zero.1 this).resolve_left he)).symm

theorem fullRound_sound {c : Consts} {r : Row} (he : r.enabler ≠ 0) {k : ℕ} {s : State}
    (h : ∀ x ∈ (fullRound c r k s).2, x = 0) : (fullRound c r k s).1 = Poseidon.fullRound c k s := by
  simp only [fullRound, List.mem_append] at h
  have h1 := pin_zero he fun x hx => h x (.inl (.inl hx))
  have h2 := pin_zero he fun x hx => h x (.inl (.inr hx))
  have h3 := pin_zero he fun x hx => h x (.inr hx)
  show r.full k 2 = _
  rw [h3, applyExternal_eq, Poseidon.fullRound]
  congr 1
  funext i
  rw [h2, h1]
  ring

theorem partialRound_sound {c : Consts} {r : Row} (he : r.enabler ≠ 0) {k : ℕ} {s : State}
    (h : ∀ x ∈ (partialRound c r k s).2, x = 0) : (partialRound c r k s).1 = Poseidon.partialRound c k s := by
  simp only [partialRound, List.mem_cons, List.not_mem_nil, or_false] at h
  have h1 := sub_eq_zero.1 ((mul_eq_zero.1 (h _ (.inl rfl))).resolve_left he)
  have h2 := sub_eq_zero.1 ((mul_eq_zero.1 (h _ (.inr (.inl rfl)))).resolve_left he)
  have h3 := sub_eq_zero.1 ((mul_eq_zero.1 (h _ (.inr (.inr rfl)))).resolve_left he)
  show applyInternal c (Function.update s 0 (r.part k 2)) = _
  rw [applyInternal_eq, Poseidon.partialRound]
  congr 1
  funext i
  by_cases hi : i = 0
  · subst hi
    rw [Function.update_self, if_pos rfl, ← h3, ← h2, ← h1]
    ring
  · rw [Function.update_of_ne hi, if_neg hi]

/-- A round of the specification, by the schedule. -/
def specRound (c : Consts) (s : State) (k : Bool × ℕ) : State :=
  if k.1 then Poseidon.partialRound c k.2 s else Poseidon.fullRound c k.2 s

/-- A round of the circuit, by the schedule. -/
def airRound (c : Consts) (r : Row) (acc : State × List M31) (k : Bool × ℕ) : State × List M31 :=
  let n := if k.1 then partialRound c r k.2 acc.1 else fullRound c r k.2 acc.1
  (n.1, acc.2 ++ n.2)

theorem rounds_mem {c : Consts} {r : Row} (l : List (Bool × ℕ)) (acc : State × List M31) {x : M31} (hx : x ∈ acc.2) :
    x ∈ (l.foldl (airRound c r) acc).2 := by
  induction l generalizing acc with
  | nil => exact hx
  | cons k l ih => exact ih _ (List.mem_append_left _ hx)

theorem rounds_sound {c : Consts} {r : Row} (he : r.enabler ≠ 0) (l : List (Bool × ℕ)) (acc : State × List M31)
    (h : ∀ x ∈ (l.foldl (airRound c r) acc).2, x = 0) :
    (l.foldl (airRound c r) acc).1 = l.foldl (specRound c) acc.1 := by
  induction l generalizing acc with
  | nil => rfl
  | cons k l ih =>
    rw [List.foldl_cons, List.foldl_cons]
    rw [List.foldl_cons] at h
    rw [ih _ h]
    congr 1
    have hk : ∀ x ∈ (if k.1 then partialRound c r k.2 acc.1 else fullRound c r k.2 acc.1).2, x = 0 :=
      fun x hx => h x (rounds_mem l _ (List.mem_append_right _ hx))
    unfold airRound specRound
    by_cases hb : k.1 = true
    · simp only [hb, if_true] at hk ⊢
      exact partialRound_sound he hk
    · simp only [hb, Bool.false_eq_true, if_false] at hk ⊢
      exact fullRound_sound he hk

theorem schedule_spec (c : Consts) (s : State) :
    schedule.foldl (specRound c) (Poseidon.externalLayer s) = Poseidon.permute c s := by
  simp only [schedule, List.foldl_append, List.foldl_map, specRound, Poseidon.permute, Bool.false_eq_true, if_false, if_true]

/-- **C71** (soundness): a row with a nonzero enabler whose constraints hold looks up the permutation of its input: it
consumes the sixteen elements of the input and produces the first element of the permuted state, as often as the enabler
says. The enabler need not be one, which no constraint asks for. -/
theorem C71_circuit_sound (c : Consts) (r : Row) (he : r.enabler ≠ 0) (hs : (evaluate c r).Satisfied) :
    (evaluate c r).entries =
      [⟨.poseidon2, -r.enabler, List.ofFn r.input⟩, ⟨.poseidon2, r.enabler, [Poseidon.permute c r.input 0]⟩] := by
  have h : (rounds c r).1 = Poseidon.permute c r.input := by
    rw [← schedule_spec, ← applyExternal_eq]
    exact rounds_sound he schedule (applyExternal r.input, []) hs
  simp only [evaluate, h]

/-! ### Completeness -/

/-- The state before round `n` of the schedule. -/
def stateAt (c : Consts) (s : State) (n : ℕ) : State := (schedule.take n).foldl (specRound c) (Poseidon.externalLayer s)

/-- The row of an input (`crates/prover/src/components/poseidon2.rs:174-322`): the intermediate values of every round. The
packing of rows in vectors is not modelled. -/
def honest (c : Consts) (s : State) : Row where
  enabler := 1
  input := s
  full k j :=
    let x : State := fun i => stateAt c s (if k < 4 then k else k + 14) i + c.external k i
    match j with
    | 0 => fun i => x i * x i
    | 1 => fun i => (x i * x i) * (x i * x i)
    | 2 => applyExternal fun i => (x i * x i) * (x i * x i) * x i
  part k j :=
    let x := stateAt c s (k + 4) 0 + c.internal k
    match j with
    | 0 => x * x
    | 1 => (x * x) * (x * x)
    | 2 => x * ((x * x) * (x * x))

theorem pin_self (en : M31) (s : State) {x : M31} (h : x ∈ pin en s s) : x = 0 := by
  obtain ⟨i, rfl⟩ := List.mem_ofFn.1 h
  rw [sub_self, mul_zero]

theorem honest_full (c : Consts) (s : State) (k : ℕ) {n : ℕ} (hn : n = if k < 4 then k else k + 14) :
    ∀ x ∈ (fullRound c (honest c s) k (stateAt c s n)).2, x = 0 := by
  subst hn
  intro x hx
  simp only [fullRound, List.mem_append] at hx
  rcases hx with (hx | hx) | hx <;> exact pin_self _ _ hx

theorem honest_part (c : Consts) (s : State) (k : ℕ) :
    ∀ x ∈ (partialRound c (honest c s) k (stateAt c s (k + 4))).2, x = 0 := by
  intro x hx
  simp only [partialRound, honest, List.mem_cons, List.not_mem_nil, or_false, sub_self, mul_zero, or_self] at hx
  exact hx

theorem schedule_at : ∀ n < 22, schedule.take (n + 1) = schedule.take n ++
    [if n < 4 then (false, n) else if n < 18 then (true, n - 4) else (false, n - 14)] := by decide

theorem honest_rounds (c : Consts) (s : State) : ∀ n ≤ 22,
    (∀ x ∈ ((schedule.take n).foldl (airRound c (honest c s)) (applyExternal s, [])).2, x = 0) ∧
      ((schedule.take n).foldl (airRound c (honest c s)) (applyExternal s, [])).1 = stateAt c s n := by
  intro n
  induction n with
  | zero => intro _; exact ⟨fun x hx => absurd hx (by simp), by simp [stateAt, applyExternal_eq]⟩
  | succ n ih =>
    intro hn
    obtain ⟨h1, h2⟩ := ih (by omega)
    have key : ∀ x ∈ ((schedule.take (n + 1)).foldl (airRound c (honest c s)) (applyExternal s, [])).2, x = 0 := by
      intro x hx
      rw [schedule_at n (by omega), List.foldl_append] at hx
      simp only [List.foldl_cons, List.foldl_nil, airRound, List.mem_append] at hx
      rcases hx with hx | hx
      · exact h1 x hx
      · rw [h2] at hx
        by_cases h4 : n < 4
        · simp only [h4, if_true, Bool.false_eq_true, if_false] at hx
          exact honest_full c s n (by rw [if_pos h4]) x hx
        · by_cases h18 : n < 18
          · simp only [h4, h18, if_true, if_false] at hx
            have := honest_part c s (n - 4) x
            rw [show n - 4 + 4 = n by omega] at this
            exact this hx
          · simp only [h4, h18, Bool.false_eq_true, if_false] at hx
            exact honest_full c s (n - 14) (by rw [if_neg (by omega)]; omega) x hx
    refine ⟨key, ?_⟩
    rw [rounds_sound one_ne_zero _ _ key, applyExternal_eq]
    rfl

/-- **C71** (completeness): the row the prover writes for an input satisfies the constraints, is enabled and has that
input. -/
theorem C71_circuit_complete (c : Consts) (s : State) :
    (evaluate c (honest c s)).Satisfied ∧ (honest c s).enabler = 1 ∧ (honest c s).input = s := by
  refine ⟨?_, rfl, rfl⟩
  have h := (honest_rounds c s 22 le_rfl).1
  rwa [show schedule.take 22 = schedule by decide] at h

/-- The input of the hash of two children. -/
def pairInput (left right : M31) : State := fun i => if i = 0 then left else if i = 1 then right else 0

/-- **C71** (hash): a satisfied enabled row whose input is a pair answers exactly the two lookups of a Merkle row whose
parent is the hash of its children. -/
theorem C71_hash_lookups (c : Consts) (r : Row) (m : MerkleNode.Row) (he : r.enabler = 1) (hs : (evaluate c r).Satisfied)
    (hi : r.input = pairInput m.left_value m.right_value) (hm : m.enabler = 1)
    (hp : m.parent_value = Poseidon.hash c m.left_value m.right_value) (tuple : List M31) :
    total (evaluate c r).entries .poseidon2 tuple + total (MerkleNode.evaluate m).entries .poseidon2 tuple = 0 := by
  rw [C71_circuit_sound c r (he ▸ one_ne_zero) hs, hi, he]
  have e : (List.ofFn (pairInput m.left_value m.right_value)) =
      [m.left_value, m.right_value, 0, 0, 0, 0, 0, 0, 0, 0, 0, 0, 0, 0, 0, 0] := rfl
  have ep : Poseidon.permute c (pairInput m.left_value m.right_value) 0 = m.parent_value := hp.symm
  rw [e, ep]
  simp only [MerkleNode.evaluate, total_cons, total_nil, Entry.padded, Rel.arity, hm]
  simp
  split_ifs <;> simp

/-- The hypotheses of `C71_circuit_sound` and `C71_hash_lookups` are met, for all constants, by the row of a pair. -/
example (c : Consts) : ∃ (r : Row) (m : MerkleNode.Row), r.enabler = 1 ∧ (evaluate c r).Satisfied ∧
    r.input = pairInput m.left_value m.right_value ∧ m.enabler = 1 ∧
    m.parent_value = Poseidon.hash c m.left_value m.right_value ∧ m.left_value = 3 ∧ m.right_value = 4 :=
  ⟨honest c (pairInput 3 4), ⟨1, 0, 1, 3, 4, Poseidon.hash c 3 4, 0, 0, 0, 0⟩, rfl, (C71_circuit_complete c _).1, rfl, rfl,
    rfl, rfl, rfl⟩

/-! ### The lookups do not bind the parent to its children -/

/-- A Merkle row with arbitrary children and an arbitrary parent, enabled and looked up. -/
def forgedNode (i depth left right parent root : M31) : MerkleNode.Row := ⟨1, i, depth, left, right, parent, 1, 1, 1, root⟩

/-- The disabled rows at the other end of its three Merkle lookups. -/
def forgedEnds (r : MerkleNode.Row) : List MerkleNode.Row :=
  ((MerkleNode.evaluate r).entries.filter (·.rel = .merkle)).map cancelMerkle

/-- An enabled row with children `(parent, 0)`: its first lookup is also that of a digest `parent`. -/
def bridge (x y : M31) : MerkleNode.Row := ⟨1, 0, 0, x, 0, y, 0, 0, 0, 0⟩

theorem forged_total (c : Consts) (i depth left right parent root : M31) (rel : Rel) (tuple : List M31) :
    total ((forgedNode i depth left right parent root :: bridge parent (Poseidon.hash c left right) ::
        forgedEnds (forgedNode i depth left right parent root)).flatMap fun r => (MerkleNode.evaluate r).entries) rel tuple +
      total (evaluate c (honest c (pairInput left right))).entries rel tuple = 0 := by
  have hz : ∀ r ∈ forgedEnds (forgedNode i depth left right parent root), r.enabler = 0 := by
    intro r hr
    obtain ⟨e, -, rfl⟩ := List.mem_map.1 hr
    unfold cancelMerkle
    dsimp only
    split <;> rfl
  obtain ⟨h1, h2, h3⟩ := C71_circuit_complete c (pairInput left right)
  rw [C71_circuit_sound c _ (h2 ▸ one_ne_zero) h1, h2, h3, List.flatMap_cons, List.flatMap_cons, total_append, total_append]
  by_cases hm : rel = .merkle
  · subst hm
    have hc : total ((forgedEnds (forgedNode i depth left right parent root)).flatMap fun r => (MerkleNode.evaluate r).entries)
        .merkle tuple = -total (MerkleNode.evaluate (forgedNode i depth left right parent root)).entries .merkle tuple := by
      rw [forgedEnds, total_cancel, total_filter]
      intro e he
      obtain ⟨he, hr⟩ := List.mem_filter.1 he
      simp only [decide_eq_true_eq] at hr
      simp only [MerkleNode.evaluate, forgedNode, List.mem_cons, List.not_mem_nil, or_false] at he
      rcases he with rfl | rfl | rfl | rfl | rfl
      · exact cancel_total _ _ _ _ _ (.inl rfl) tuple
      · exact cancel_total _ _ _ _ _ (.inl rfl) tuple
      · exact cancel_total _ _ _ _ _ (.inr rfl) tuple
      · cases hr
      · cases hr
    have hb : total (MerkleNode.evaluate (bridge parent (Poseidon.hash c left right))).entries .merkle tuple = 0 := by
      simp [MerkleNode.evaluate, bridge, total_cons, total_nil]
    have hq : ∀ (a b : M31) (u w : List M31), total [⟨.poseidon2, a, u⟩, ⟨.poseidon2, b, w⟩] .merkle tuple = 0 := by
      intro a b u w
      simp [total_cons, total_nil]
    rw [hc, hb, hq]
    ring
  · have hc : total ((forgedEnds (forgedNode i depth left right parent root)).flatMap fun r => (MerkleNode.evaluate r).entries)
        rel tuple = 0 := by
      refine total_none _ fun e he hr => ?_
      obtain ⟨r, hr', he⟩ := List.mem_flatMap.1 he
      have h0 := hz r hr'
      simp only [MerkleNode.evaluate, h0, neg_zero, List.mem_cons, List.not_mem_nil, or_false] at he
      rcases he with rfl | rfl | rfl | rfl | rfl
      · exact absurd hr.symm hm
      · exact absurd hr.symm hm
      · exact absurd hr.symm hm
      all_goals exact fun _ => rfl
    rw [hc]
    by_cases hp : rel = .poseidon2
    · subst hp
      have e : (List.ofFn (pairInput left right)) = [left, right, 0, 0, 0, 0, 0, 0, 0, 0, 0, 0, 0, 0, 0, 0] := rfl
      have ep : Poseidon.permute c (pairInput left right) 0 = Poseidon.hash c left right := rfl
      rw [e, ep]
      generalize Poseidon.hash c left right = y
      simp only [MerkleNode.evaluate, forgedNode, bridge, total_cons, total_nil, Entry.padded, Rel.arity]
      simp
      split_ifs <;> simp
    · simp [MerkleNode.evaluate, forgedNode, bridge, total_cons, total_nil, Ne.symm hm, Ne.symm hp]

/-- **C71 violated**: whatever the public data, an accepted trace may contain an enabled Merkle row whose parent is any
value at all, not the hash of its children. Inputs and digests are looked up separately, and a digest `x` is the same
tuple as the input `[x, 0, …]`. -/
theorem C71_violated_binding (c : Consts) (d : PublicData) (hd : d.clock ≠ 0) (i depth left right parent root : M31) :
    ∃ t, Accepted c d t ∧ forgedNode i depth left right parent root ∈ t.merkle := by
  obtain ⟨t, h⟩ := C43_any_claim_accepted c d hd
  refine ⟨{ t with
    merkle := padTo MerkleNode.pad (t.merkle ++ (forgedNode i depth left right parent root ::
      bridge parent (Poseidon.hash c left right) :: forgedEnds (forgedNode i depth left right parent root)))
    poseidon2 := padTo pad (t.poseidon2 ++ [honest c (pairInput left right)]) }, ⟨⟨h.shaped.ops, h.shaped.memory,
      h.shaped.clockUpdate, padTo_power _ _, padTo_power _ _⟩, ?_, ?_⟩,
    List.mem_append_left _ (List.mem_append_right _ List.mem_cons_self)⟩
  · intro ev hev
    simp only [Trace.evals, List.mem_append, List.mem_map] at hev
    rcases hev with ((hev | hev) | ⟨r, hr, rfl⟩) | ⟨r, hr, rfl⟩
    · exact h.satisfied ev (by simp only [Trace.evals, List.mem_append, List.mem_map]; exact .inl (.inl (.inl hev)))
    · exact h.satisfied ev (by simp only [Trace.evals, List.mem_append, List.mem_map]; exact .inl (.inl (.inr hev)))
    · rcases mem_padTo hr with hr | rfl
      · rcases List.mem_append.1 hr with hr | hr
        · exact h.satisfied _ (by
            simp only [Trace.evals, List.mem_append, List.mem_map]; exact .inl (.inr ⟨r, hr, rfl⟩))
        · rcases List.mem_cons.1 hr with rfl | hr
          · simp [Eval.Satisfied, MerkleNode.evaluate, forgedNode]
          · rcases List.mem_cons.1 hr with rfl | hr
            · simp [Eval.Satisfied, MerkleNode.evaluate, bridge]
            · obtain ⟨e, -, rfl⟩ := List.mem_map.1 hr
              unfold cancelMerkle
              dsimp only
              split <;> simp [Eval.Satisfied, MerkleNode.evaluate]
      · exact satisfied_of_check (by decide +kernel)
    · rcases mem_padTo hr with hr | rfl
      · rcases List.mem_append.1 hr with hr | hr
        · exact h.satisfied _ (by simp only [Trace.evals, List.mem_append, List.mem_map]; exact .inr ⟨r, hr, rfl⟩)
        · rw [List.mem_singleton.1 hr]
          exact (C71_circuit_complete c _).1
      · exact pad_satisfied c
  · intro rel tuple
    have h0 := h.balanced rel tuple
    have h1 := forged_total c i depth left right parent root rel tuple
    simp only [Trace.entries, Trace.evals, List.flatMap_append, List.flatMap_map, total_append] at h0 ⊢
    rw [total_padTo MerkleNode.pad _ _ _ _ (by simp [MerkleNode.evaluate, MerkleNode.pad]),
      total_padTo pad _ _ _ _ (by simp [evaluate, pad])]
    simp only [List.flatMap_append, total_append, List.flatMap_singleton] at h1 ⊢
    have e1 : ∀ a b, Trace.opEvals { t with merkle := a, poseidon2 := b } = t.opEvals := fun _ _ => rfl
    have e2 : ∀ a b, Trace.tableEntries { t with merkle := a, poseidon2 := b } = t.tableEntries := fun _ _ => rfl
    rw [e1, e2]
    linear_combination h0 + h1

end Poseidon2
end Air
end CairoM
