import Verif.AirOpenSpec
import Verif.AirForgeProps

/-!
# C43 and C70: honest claims, and openings of the memory commitments
-/

namespace CairoM
namespace Air

open Adapter (subtree fullRoot leaf)

theorem limbs_ext {v w : QM31} (h0 : v.l0 = w.l0) (h1 : v.l1 = w.l1) (h2 : v.l2 = w.l2) (h3 : v.l3 = w.l3) : v = w := by
  cases v; cases w; simp_all

/-! ### Public claims -/

/-- A memory that agrees with records at distinct addresses. -/
theorem exists_memory (ini : List Record) (h : (ini.map Record.addr).Nodup) :
    ∃ m : Isa.Mem, ∀ r ∈ ini, m r.addr = r.value := by
  induction ini with
  | nil => exact ⟨fun _ => QM31.zero, by simp⟩
  | cons a l ih =>
    rw [List.map_cons, List.nodup_cons] at h
    obtain ⟨m, hm⟩ := ih h.2
    refine ⟨Function.update m a.addr a.value, fun r hr => ?_⟩
    rcases List.mem_cons.1 hr with rfl | hr
    · simp
    · rw [Function.update_of_ne (fun e => h.1 (List.mem_map.2 ⟨r, hr, e⟩))]
      exact hm r hr

theorem public_mem {d : PublicData} {t : Trace} {p : PublicEntry} {m root : M31} (hm : m ≠ 0)
    (h : ∀ e ∈ PublicEntry.entries m root p, e ∈ d.entries) :
    (⟨.memory, m, [p.addr, p.clock, p.value.l0, p.value.l1, p.value.l2, p.value.l3]⟩ : Entry) ∈ boundary d t := by
  refine List.mem_filter.2 ⟨List.mem_append_left _ (h _ (by simp [PublicEntry.entries])), ?_⟩
  simp [hm]

theorem record_of {e : PublicEntry} {m : M31} {l : List Record}
    (h : (⟨.memory, m, [e.addr, e.clock, e.value.l0, e.value.l1, e.value.l2, e.value.l3]⟩ : Entry) ∈
      l.map (Record.entry m)) : ∃ r ∈ l, r.addr = e.addr ∧ r.value = e.value := by
  obtain ⟨r, hr, he⟩ := List.mem_map.1 h
  refine ⟨r, hr, ?_⟩
  simp only [Record.entry, QM31.limbs, Entry.mk.injEq, List.cons.injEq, true_and, and_true] at he
  obtain ⟨h1, -, h2, h3, h4, h5⟩ := he
  exact ⟨h1, limbs_ext h2 h3 h4 h5⟩

/-- C43, partial: under the conditions of C41 the claim is true: some run of the claimed length starts from the claimed
program and input and ends with the claimed output. Missing: the conditions are not forced by the constraints, see
`C43_any_claim_accepted`. They are those of `C41_accepted_run_partial`; the example next to it meets them. -/
theorem C43_honest_claim_partial (c : Poseidon2.Consts) (d : PublicData) (t : Trace) (h : Accepted c d t)
    (hreg : ∀ k, ∀ r ∈ t.ops k, k.Regular r) {ini fin : List Record} (hb : HonestBoundary d t ini fin) (hw : NoWrap d t)
    (hlen : (d.entries ++ t.entries c).length < P) : Justified d := by
  obtain ⟨m0, h0⟩ := exists_memory ini hb.one
  obtain ⟨mF, hrun, hfin, -⟩ := C41_accepted_run_partial c d t h hreg hb hw hlen m0 h0
  have hne : (1 : M31) ≠ -1 := by decide
  refine ⟨m0, mF, hrun, fun p hp => ?_, fun p hp => ?_⟩
  · have hmem := public_mem (d := d) (t := t) (p := p) (m := 1) (root := d.initialRoot) (by decide) (fun e he => by
      simp only [PublicData.entries, List.mem_append, List.mem_flatMap]
      rcases List.mem_append.1 hp with hp | hp
      · exact .inl (.inl (.inr ⟨p, hp, he⟩))
      · exact .inl (.inr ⟨p, hp, he⟩))
    rcases List.mem_append.1 (hb.entries.mem_iff.1 hmem) with hi | hi
    · obtain ⟨r, hr, h1, h2⟩ := record_of hi
      rw [← h1, ← h2]; exact h0 r hr
    · obtain ⟨r, -, he⟩ := List.mem_map.1 hi
      exact absurd (congrArg Entry.mult he).symm hne
  · have hmem := public_mem (d := d) (t := t) (p := p) (m := -1) (root := d.finalRoot) (by decide) (fun e he => by
      simp only [PublicData.entries, List.mem_append, List.mem_flatMap]
      exact .inr ⟨p, hp, he⟩)
    rcases List.mem_append.1 (hb.entries.mem_iff.1 hmem) with hi | hi
    · obtain ⟨r, -, he⟩ := List.mem_map.1 hi
      exact absurd (congrArg Entry.mult he) hne
    · obtain ⟨r, hr, h1, h2⟩ := record_of hi
      rw [← h1, ← h2]; exact hfin r hr

/-! ### Sources of Merkle lookups -/

/-- A tuple whose multiplicities are all `-1` or `-2` does not occur. -/
theorem not_mem_of_sum2 {l : List Entry} {tuple : List M31}
    (hneg : ∀ e ∈ l, e.tuple = tuple → e.mult = -1 ∨ e.mult = -2)
    (hlen : 2 * l.length < P) (h0 : sumOf l tuple = 0) : ∀ e ∈ l, e.tuple ≠ tuple := by
  have key : ∀ l : List Entry, (∀ e ∈ l, e.tuple = tuple → e.mult = -1 ∨ e.mult = -2) →
      ∃ n : ℕ, sumOf l tuple = -(n : M31) ∧ l.countP (fun e => e.tuple = tuple) ≤ n ∧ n ≤ 2 * l.length := by
    intro l
    induction l with
    | nil => intro _; exact ⟨0, by simp [sumOf], by simp, by simp⟩
    | cons e l ih =>
      intro h
      obtain ⟨n, h1, h2, h3⟩ := ih fun x hx => h x (List.mem_cons_of_mem _ hx)
      rw [sumOf_cons, h1]
      by_cases ht : e.tuple = tuple
      · rw [List.countP_cons_of_pos (by simpa using ht), if_pos ht, List.length_cons]
        rcases h e List.mem_cons_self ht with hm | hm
        · exact ⟨n + 1, by rw [hm]; push_cast; ring, by omega, by omega⟩
        · exact ⟨n + 2, by rw [hm]; push_cast; ring, by omega, by omega⟩
      · rw [List.countP_cons_of_neg (by simpa using ht), if_neg ht, zero_add, List.length_cons]
        exact ⟨n, rfl, h2, by omega⟩
  obtain ⟨n, h1, h2, h3⟩ := key l hneg
  rw [h1, neg_eq_zero] at h0
  have hn : n = 0 := cast_inj (lt_of_le_of_lt h3 hlen) (by decide) (by rw [h0]; norm_num)
  have hc : l.countP (fun e => e.tuple = tuple) = 0 := by omega
  intro e he ht
  have := List.countP_eq_zero.1 hc e he
  simp [ht] at this

theorem mult_cases {m : M31} (h : m * (m - 1) * (m - 2) = 0) : m = 0 ∨ m = 1 ∨ m = 2 := by
  rcases mul_eq_zero.1 h with h | h
  · rcases mul_eq_zero.1 h with h | h
    · exact .inl h
    · exact .inr (.inl (sub_eq_zero.1 h))
  · exact .inr (.inr (sub_eq_zero.1 h))

/-- The Merkle lookups with a tuple: looked up, or provided by the public roots or by a Merkle row. -/
theorem merkle_source {c : Poseidon2.Consts} {d : PublicData} {t : Trace} (h : Accepted c d t) {e : Entry}
    (he : e ∈ d.entries ++ t.entries c) (hr : e.rel = .merkle) (hm : e.mult ≠ 0) :
    (e.mult = -1 ∨ e.mult = -2) ∨
    (∃ root, (root = d.initialRoot ∨ root = d.finalRoot) ∧ e.tuple = [0, 0, root, root]) ∨
    ∃ r ∈ t.merkle, (r.left_multiplicity ≠ 0 ∧ e.tuple = [r.index, r.depth, r.left_value, r.root]) ∨
      (r.right_multiplicity ≠ 0 ∧ e.tuple = [r.index + 1, r.depth, r.right_value, r.root]) := by
  rcases List.mem_append.1 he with he | he
  · simp only [PublicData.entries, List.mem_append, List.mem_cons, List.not_mem_nil, or_false, List.mem_flatMap,
      PublicEntry.entries] at he
    rcases he with (((rfl | rfl | rfl | rfl) | ⟨p, -, he⟩) | ⟨p, -, he⟩) | ⟨p, -, he⟩
    · cases hr
    · cases hr
    · exact .inr (.inl ⟨_, .inl rfl, rfl⟩)
    · exact .inr (.inl ⟨_, .inr rfl, rfl⟩)
    all_goals
      rcases he with rfl | rfl | rfl | rfl | rfl
      · cases hr
      all_goals exact .inl (.inl rfl)
  · simp only [Trace.entries, Trace.evals, Trace.opEvals, List.flatMap_append, List.mem_append, List.mem_flatMap,
      List.mem_map] at he
    rcases he with ((((⟨ev, ⟨k, -, r, hr', rfl⟩, he⟩ | ⟨ev, ⟨r, hr', rfl⟩, he⟩) | ⟨ev, ⟨r, hr', rfl⟩, he⟩) |
      ⟨ev, ⟨r, hr', rfl⟩, he⟩) | ⟨ev, ⟨r, hr', rfl⟩, he⟩) | he
    · exfalso
      refine hm (op_relations k r (h.satisfied _ ?_) e he (.inl hr))
      simp only [Trace.evals, Trace.opEvals, List.mem_append, List.mem_flatMap, List.mem_map]
      exact .inl (.inl (.inl (.inl ⟨k, k.mem_all, r, hr', rfl⟩)))
    · have hs : (MemoryBoundary.evaluate r).Satisfied := h.satisfied _ (by
        simp only [Trace.evals, List.mem_append, List.mem_map]
        exact .inl (.inl (.inl (.inr ⟨r, hr', rfl⟩))))
      have hb := bool_of (hs _ (.head _))
      simp only [MemoryBoundary.evaluate, List.mem_cons, List.not_mem_nil, or_false] at he
      rcases he with rfl | he
      · cases hr
      · left; left
        rcases hb with hb | hb <;> rw [hb] at he
        · exfalso; apply hm
          rcases he with rfl | rfl | rfl | rfl <;> simp
        · rcases he with rfl | rfl | rfl | rfl <;> rfl
    · simp only [ClockUpdate.evaluate, List.mem_cons, List.not_mem_nil, or_false] at he
      rcases he with rfl | rfl <;> cases hr
    · have hs : (MerkleNode.evaluate r).Satisfied := h.satisfied _ (by
        simp only [Trace.evals, List.mem_append, List.mem_map]
        exact .inl (.inr ⟨r, hr', rfl⟩))
      simp only [MerkleNode.evaluate, List.mem_cons, List.not_mem_nil, or_false] at he
      rcases he with rfl | rfl | rfl | rfl | rfl
      · exact .inr (.inr ⟨r, hr', .inl ⟨hm, rfl⟩⟩)
      · exact .inr (.inr ⟨r, hr', .inr ⟨hm, rfl⟩⟩)
      · left
        rcases mult_cases (hs _ (.tail _ (.tail _ (.tail _ (.head _))))) with h0 | h0 | h0
        · exact absurd (by simp [h0]) hm
        · exact .inl (by simp [h0])
        · exact .inr (by simp [h0])
      · cases hr
      · cases hr
    · simp only [Poseidon2.evaluate, List.mem_cons, List.not_mem_nil, or_false] at he
      rcases he with rfl | rfl <;> cases hr
    · exfalso
      simp only [Trace.tableEntries, List.mem_append] at he
      rcases he with ((he | he) | he) | he
      · exact absurd ((range_mem he).1.symm.trans hr) (by decide)
      · exact absurd ((range_mem he).1.symm.trans hr) (by decide)
      · exact absurd ((range_mem he).1.symm.trans hr) (by decide)
      · simp only [bitwiseEntries, List.mem_map] at he
        obtain ⟨i, -, rfl⟩ := he
        cases hr

/-- A Merkle tuple that is looked up is provided. -/
theorem merkle_provided {c : Poseidon2.Consts} {d : PublicData} {t : Trace} (h : Accepted c d t)
    (hlen : 2 * (d.entries ++ t.entries c).length < P) {m i k v root : M31} (hm : m ≠ 0)
    (he : (⟨.merkle, m, [i, k, v, root]⟩ : Entry) ∈ d.entries ++ t.entries c) :
    (i = 0 ∧ k = 0 ∧ v = root ∧ (root = d.initialRoot ∨ root = d.finalRoot)) ∨
    ∃ r ∈ t.merkle, r.depth = k ∧ r.root = root ∧
      ((r.left_multiplicity ≠ 0 ∧ r.index = i ∧ r.left_value = v) ∨
       (r.right_multiplicity ≠ 0 ∧ r.index + 1 = i ∧ r.right_value = v)) := by
  by_contra hne
  push Not at hne
  obtain ⟨hne1, hne2⟩ := hne
  have h0 := h.balanced .merkle [i, k, v, root]
  rw [total_live] at h0
  refine not_mem_of_sum2 ?_ (lt_of_le_of_lt (Nat.mul_le_mul_left 2 (length_live _ _)) hlen) h0 ⟨.merkle, m, [i, k, v, root]⟩
    (mem_live.2 ⟨_, he, rfl, hm, rfl⟩) rfl
  intro x hx htx
  obtain ⟨y, hy, hyr, hym, rfl⟩ := mem_live.1 hx
  rcases merkle_source h hy hyr hym with hs | ⟨rt, hrt, hs⟩ | ⟨r, hr, hs⟩
  · exact hs
  · exfalso
    rw [padded_full (by rw [hs, hyr]; rfl), hs] at htx
    simp only [List.cons.injEq, and_true] at htx
    obtain ⟨rfl, rfl, rfl, rfl⟩ := htx
    rcases hrt with hrt | hrt
    · exact (hne1 rfl rfl rfl).1 hrt
    · exact (hne1 rfl rfl rfl).2 hrt
  · exfalso
    obtain ⟨g1, g2⟩ : (_ → _) ∧ (_ → _) := ⟨fun a b => (hne2 r hr a b).1, fun a b => (hne2 r hr a b).2⟩
    rcases hs with ⟨hl, hs⟩ | ⟨hl, hs⟩
    all_goals
      rw [padded_full (by rw [hs, hyr]; rfl), hs] at htx
      simp only [List.cons.injEq, and_true] at htx
      obtain ⟨h1, h2, h3, h4⟩ := htx
    · exact g1 h2 h4 hl h1 h3
    · exact g2 h2 h4 hl h1 h3

/-- The pair of children of some Merkle row. -/
def IsPair (t : Trace) (a b : M31) : Prop := ∃ r ∈ t.merkle, r.left_value = a ∧ r.right_value = b

/-- Going up from a lookup to a public root. -/
theorem opens_of {H : M31 → M31 → M31} {c : Poseidon2.Consts} {d : PublicData} {t : Trace} (h : Accepted c d t)
    (ht : HonestTree H t) (hlen : 2 * (d.entries ++ t.entries c).length < P) (k : ℕ) (hk : k ≤ 30) {m i v root : M31}
    (he : (⟨.merkle, m, [i, (k : M31), v, root]⟩ : Entry) ∈ d.entries ++ t.entries c) (hneg : m = -1 ∨ m = -2) :
    (root = d.initialRoot ∨ root = d.finalRoot) ∧
      ∃ n : ℕ, n < 2 ^ k ∧ (n : M31) = i ∧ Opens H (IsPair t) k n v root := by
  have hP : P = 2147483647 := rfl
  induction k generalizing m i v with
  | zero =>
    have hm : m ≠ 0 := by rcases hneg with rfl | rfl <;> decide
    rcases merkle_provided h hlen hm he with ⟨rfl, -, rfl, hr⟩ | ⟨r, hr, hd, -, hs⟩
    · exact ⟨hr, 0, by norm_num, by norm_num, .root _⟩
    · refine absurd ?_ (ht.depth r hr (by rcases hs with hs | hs; exacts [.inl hs.1, .inr hs.1]))
      rw [hd]; norm_num
  | succ k ih =>
    have hm : m ≠ 0 := by rcases hneg with rfl | rfl <;> decide
    rcases merkle_provided h hlen hm he with ⟨-, h0, -, -⟩ | ⟨r, hr, hd, rfl, hs⟩
    · exact absurd (cast_inj (by omega) (by omega) (h0.trans (Nat.cast_zero (R := M31)).symm)) (by omega)
    · have hu : MerkleNode.Used r := by rcases hs with hs | hs; exacts [.inl hs.1, .inr hs.1]
      have hsat : (MerkleNode.evaluate r).Satisfied := h.satisfied _ (by
        simp only [Trace.evals, List.mem_append, List.mem_map]
        exact .inl (.inr ⟨r, hr, rfl⟩))
      have hpm : -r.parent_multiplicity = -1 ∨ -r.parent_multiplicity = -2 := by
        rcases mult_cases (hsat _ (.tail _ (.tail _ (.tail _ (.head _))))) with h0 | h0 | h0
        · exact absurd h0 (ht.linked r hr hu)
        · exact .inl (by rw [h0])
        · exact .inr (by rw [h0])
      have hmem : (⟨.merkle, -r.parent_multiplicity, [r.index * (2 : M31)⁻¹, (k : M31), H r.left_value r.right_value,
          r.root]⟩ : Entry) ∈ d.entries ++ t.entries c := by
        rw [← ht.hash r hr hu]
        have hk1 : (k : M31) = r.depth - 1 := by rw [hd]; push_cast; ring
        rw [hk1]
        refine List.mem_append_right _ ?_
        simp only [Trace.entries, Trace.evals, List.mem_append, List.mem_flatMap, List.mem_map]
        exact .inl ⟨_, .inl (.inr ⟨r, hr, rfl⟩), by simp [MerkleNode.evaluate]⟩
      obtain ⟨hroot, n, hn, hi, ho⟩ := ih (by omega) hmem hpm
      have h2 : (2 : M31) ≠ 0 := by decide
      have hidx : ((2 * n : ℕ) : M31) = r.index := by
        push_cast
        rw [hi, mul_comm, mul_assoc, inv_mul_cancel₀ h2, mul_one]
      refine ⟨hroot, ?_⟩
      rcases hs with ⟨-, rfl, rfl⟩ | ⟨-, rfl, rfl⟩
      · exact ⟨2 * n, by rw [pow_succ]; omega, hidx, .left ⟨r, hr, rfl, rfl⟩ ho⟩
      · exact ⟨2 * n + 1, by rw [pow_succ]; omega, by rw [Nat.cast_add, hidx, Nat.cast_one],
          .right ⟨r, hr, rfl, rfl⟩ ho⟩

/-- An opening of a root of a full tree is a node of this tree, or there is a collision. -/
theorem opens_subtree {H : M31 → M31 → M31} {t : Trace} {f : ℕ → QM31} {k i : ℕ} {v root : M31} (hi : i < 2 ^ k)
    (ho : Opens H (IsPair t) k i v root) (l : ℕ) (hr : root = subtree H f (l + k) 0) :
    v = subtree H f l i ∨ TraceCollision H t f := by
  induction ho generalizing l with
  | root v => exact .inl (by simpa using hr)
  | @left k i v s root hn h ih =>
    rcases ih (by rw [pow_succ] at hi; omega) (l + 1) (by rw [hr]; congr 1; omega) with h1 | h1
    · by_cases hp : (v, s) = (subtree H f l (2 * i), subtree H f l (2 * i + 1))
      · exact .inl (congrArg Prod.fst hp)
      · obtain ⟨r, hr', rfl, rfl⟩ := hn
        exact .inr ⟨r, hr', l, i, hp, h1⟩
    · exact .inr h1
  | @right k i v s root hn h ih =>
    rcases ih (by rw [pow_succ] at hi; omega) (l + 1) (by rw [hr]; congr 1; omega) with h1 | h1
    · by_cases hp : (s, v) = (subtree H f l (2 * i), subtree H f l (2 * i + 1))
      · exact .inl (congrArg Prod.snd hp)
      · obtain ⟨r, hr', rfl, rfl⟩ := hn
        exact .inr ⟨r, hr', l, i, hp, h1⟩
    · exact .inr h1

/-- Four leaves looked up for an address are the cell of the committed memory. -/
theorem cell_of_lookups {H : M31 → M31 → M31} {c : Poseidon2.Consts} {d : PublicData} {t : Trace} (h : Accepted c d t)
    (ht : HonestTree H t) (hlen : 2 * (d.entries ++ t.entries c).length < P) {a root : M31} (ha : a.val < 2 ^ 28)
    {v : QM31} (hl : ∀ j : Fin 4, (⟨.merkle, -1, [a * 4 + (j.val : M31), 30, v.limbs.getD j.val 0, root]⟩ : Entry) ∈
      d.entries ++ t.entries c) :
    (root = d.initialRoot ∨ root = d.finalRoot) ∧
      ∀ f, root = fullRoot H f → v = f a.val ∨ TraceCollision H t f := by
  have hP : P = 2147483647 := rfl
  have hk : ((30 : ℕ) : M31) = 30 := by norm_num
  refine ⟨(opens_of h ht hlen 30 le_rfl (hk ▸ hl 0) (.inl rfl)).1, fun f hf => ?_⟩
  by_cases hc : TraceCollision H t f
  · exact .inr hc
  have key : ∀ j : Fin 4, v.limbs.getD j.val 0 = (f a.val).limbs.getD j.val 0 := by
    intro j
    obtain ⟨-, n, hn, hi, ho⟩ := opens_of h ht hlen 30 le_rfl (hk ▸ hl j) (.inl rfl)
    have hj := j.isLt
    have hnj : n = 4 * a.val + j.val := by
      refine cast_inj (by norm_num at hn; omega) (by omega) ?_
      rw [hi]; push_cast; rw [ZMod.natCast_zmod_val]; ring
    rcases opens_subtree hn ho 0 (by simpa [fullRoot] using hf) with h1 | h1
    · rw [h1, hnj, subtree, leaf, show (4 * a.val + j.val) / 4 = a.val by omega,
        show (4 * a.val + j.val) % 4 = j.val by omega]
    · exact absurd h1 hc
  exact .inl (limbs_ext (key 0) (key 1) (key 2) (key 3))

/-- **C70** (memory component): in an accepted trace whose Merkle rows are those of a hash tree, every enabled row of the
memory component names one of the two public roots, and if this root is that of the tree over a memory `f`, the row has
the value of `f` at its address, unless the trace exhibits a hash collision.

Missing: the constraints do not force `HonestTree`, see `C70_violated`; nothing ties initial rows to the initial root and
final rows to the final root; addresses from `2^28` on are aliases of others. -/
theorem C70_memory_committed_partial {H : M31 → M31 → M31} {c : Poseidon2.Consts} {d : PublicData} {t : Trace}
    (h : Accepted c d t) (ht : HonestTree H t) (hlen : 2 * (d.entries ++ t.entries c).length < P)
    (r : MemoryBoundary.Row) (hr : r ∈ t.memory) (he : r.enabler = 1) (ha : r.address.val < 2 ^ 28) :
    (r.root = d.initialRoot ∨ r.root = d.finalRoot) ∧
      ∀ f, r.root = fullRoot H f →
        (⟨r.value0, r.value1, r.value2, r.value3⟩ : QM31) = f r.address.val ∨ TraceCollision H t f := by
  refine cell_of_lookups h ht hlen ha fun j => List.mem_append_right _ ?_
  simp only [Trace.entries, Trace.evals, List.mem_append, List.mem_flatMap, List.mem_map]
  refine .inl ⟨_, .inl (.inl (.inl (.inr ⟨r, hr, rfl⟩))), ?_⟩
  fin_cases j <;> simp [MemoryBoundary.evaluate, he, MemoryBoundary.TREE_HEIGHT, QM31.limbs]

/-- **C70** (public memory): the same for the public program and input, against the initial root, and for the public
output, against the final root. -/
theorem C70_public_committed_partial {H : M31 → M31 → M31} {c : Poseidon2.Consts} {d : PublicData} {t : Trace}
    (h : Accepted c d t) (ht : HonestTree H t) (hlen : 2 * (d.entries ++ t.entries c).length < P) (f : ℕ → QM31) :
    (d.initialRoot = fullRoot H f → ∀ p ∈ d.program ++ d.input, p.addr.val < 2 ^ 28 →
      p.value = f p.addr.val ∨ TraceCollision H t f) ∧
    (d.finalRoot = fullRoot H f → ∀ p ∈ d.output, p.addr.val < 2 ^ 28 →
      p.value = f p.addr.val ∨ TraceCollision H t f) := by
  have key : ∀ (m root : M31) (p : PublicEntry), (∀ e ∈ PublicEntry.entries m root p, e ∈ d.entries) →
      ∀ j : Fin 4, (⟨.merkle, -1, [p.addr * 4 + (j.val : M31), 30, p.value.limbs.getD j.val 0, root]⟩ : Entry) ∈
        d.entries ++ t.entries c := by
    intro m root p hp j
    refine List.mem_append_left _ (hp _ ?_)
    rw [mul_comm p.addr 4]
    fin_cases j <;> simp [PublicEntry.entries, MemoryBoundary.TREE_HEIGHT, QM31.limbs]
  constructor
  · intro hroot p hp ha
    refine (cell_of_lookups h ht hlen ha (key 1 d.initialRoot p fun e he => ?_)).2 f hroot
    simp only [PublicData.entries, List.mem_append, List.mem_flatMap]
    rcases List.mem_append.1 hp with hp | hp
    · exact .inl (.inl (.inr ⟨p, hp, he⟩))
    · exact .inl (.inr ⟨p, hp, he⟩)
  · intro hroot p hp ha
    refine (cell_of_lookups h ht hlen ha (key (-1) d.finalRoot p fun e he => ?_)).2 f hroot
    simp only [PublicData.entries, List.mem_append, List.mem_flatMap]
    exact .inr ⟨p, hp, he⟩

/-- A row of the memory component that claims a cell under a root and takes no part in the memory relation. -/
def claimRow (a root : M31) (v : QM31) : MemoryBoundary.Row := ⟨1, a, 0, v.l0, v.l1, v.l2, v.l3, 0, root⟩

/-- The disabled Merkle rows that provide the leaves of a claim. -/
def claimLeaves (a root : M31) (v : QM31) : List MerkleNode.Row :=
  ((MemoryBoundary.evaluate (claimRow a root v)).entries.filter (·.rel = .merkle)).map cancelMerkle

theorem claim_merkle (a root : M31) (v : QM31) : ∀ r ∈ claimLeaves a root v,
    r.enabler = 0 ∧ (MerkleNode.evaluate r).Satisfied := by
  intro r hr
  obtain ⟨e, -, rfl⟩ := List.mem_map.1 hr
  unfold cancelMerkle
  dsimp only
  split <;> simp [Eval.Satisfied, MerkleNode.evaluate]

theorem claim_total (a root : M31) (v : QM31) (rel : Rel) (tuple : List M31) :
    total (MemoryBoundary.evaluate (claimRow a root v)).entries rel tuple +
      total ((claimLeaves a root v).flatMap fun r => (MerkleNode.evaluate r).entries) rel tuple = 0 := by
  by_cases hrel : rel = .merkle
  · subst hrel
    rw [claimLeaves, total_cancel, total_filter, add_neg_cancel]
    intro e he
    obtain ⟨he, hr⟩ := List.mem_filter.1 he
    simp only [decide_eq_true_eq] at hr
    simp only [MemoryBoundary.evaluate, claimRow, List.mem_cons, List.not_mem_nil, or_false] at he
    rcases he with rfl | rfl | rfl | rfl | rfl
    · cases hr
    all_goals exact cancel_total _ _ _ _ _ (.inr rfl) tuple
  · rw [total_none, total_none, add_zero]
    · intro e he hr
      obtain ⟨r, hr', he⟩ := List.mem_flatMap.1 he
      have h0 := (claim_merkle a root v r hr').1
      simp only [MerkleNode.evaluate, h0, neg_zero, List.mem_cons, List.not_mem_nil, or_false] at he
      rcases he with rfl | rfl | rfl | rfl | rfl
      · exact absurd hr.symm hrel
      · exact absurd hr.symm hrel
      · exact absurd hr.symm hrel
      all_goals exact fun _ => rfl
    · intro e he hr
      simp only [MemoryBoundary.evaluate, claimRow, List.mem_cons, List.not_mem_nil, or_false] at he
      rcases he with rfl | rfl | rfl | rfl | rfl
      · exact fun _ => rfl
      all_goals exact absurd hr.symm hrel

/-- **C70 violated**: without the conditions on the Merkle rows, any value can be claimed at any address under any root,
next to any other value at the same address: disabled Merkle rows may provide leaves that hang nowhere. -/
theorem C70_violated (consts : Poseidon2.Consts) (d : PublicData) (hd : d.clock ≠ 0) (a root : M31) (v w : QM31) :
    ∃ t, Accepted consts d t ∧ claimRow a root v ∈ t.memory ∧ claimRow a root w ∈ t.memory := by
  obtain ⟨t, ht⟩ := C43_any_claim_accepted consts d hd
  have step : ∀ (t : Trace) (v : QM31), Accepted consts d t →
      Accepted consts d { t with
        memory := padTo MemoryBoundary.pad (t.memory ++ [claimRow a root v])
        merkle := padTo MerkleNode.pad (t.merkle ++ claimLeaves a root v) } := by
    intro t v h
    refine ⟨⟨h.shaped.ops, padTo_power _ _, h.shaped.clockUpdate, padTo_power _ _, h.shaped.poseidon2⟩, ?_, ?_⟩
    · intro ev hev
      simp only [Trace.evals, List.mem_append, List.mem_map] at hev
      rcases hev with (((hev | ⟨r, hr, rfl⟩) | hev) | ⟨r, hr, rfl⟩) | hev
      · exact h.satisfied ev (by simp only [Trace.evals, List.mem_append]; exact .inl (.inl (.inl (.inl hev))))
      · rcases mem_padTo hr with hr | rfl
        · rcases List.mem_append.1 hr with hr | hr
          · exact h.satisfied _ (by
              simp only [Trace.evals, List.mem_append, List.mem_map]; exact .inl (.inl (.inl (.inr ⟨r, hr, rfl⟩))))
          · rw [List.mem_singleton.1 hr]
            simp [Eval.Satisfied, MemoryBoundary.evaluate, claimRow]
        · simp [Eval.Satisfied, MemoryBoundary.evaluate, MemoryBoundary.pad]
      · exact h.satisfied ev (by
          simp only [Trace.evals, List.mem_append, List.mem_map]; exact .inl (.inl (.inr hev)))
      · rcases mem_padTo hr with hr | rfl
        · rcases List.mem_append.1 hr with hr | hr
          · exact h.satisfied _ (by
              simp only [Trace.evals, List.mem_append, List.mem_map]; exact .inl (.inr ⟨r, hr, rfl⟩))
          · exact (claim_merkle a root v r hr).2
        · exact satisfied_of_check (by decide +kernel)
      · exact h.satisfied ev (by simp only [Trace.evals, List.mem_append, List.mem_map]; exact .inr hev)
    · intro rel tuple
      have h0 := h.balanced rel tuple
      have h1 := claim_total a root v rel tuple
      simp only [Trace.entries, Trace.evals, List.flatMap_append, List.flatMap_map, total_append] at h0 ⊢
      rw [total_padTo _ _ _ _ _ (by simp [MemoryBoundary.evaluate, MemoryBoundary.pad]),
        total_padTo _ _ _ _ _ (by simp [MerkleNode.evaluate, MerkleNode.pad])]
      simp only [List.flatMap_append, total_append, List.flatMap_singleton]
      have e1 : Trace.opEvals { t with
        memory := padTo MemoryBoundary.pad (t.memory ++ [claimRow a root v])
        merkle := padTo MerkleNode.pad (t.merkle ++ claimLeaves a root v) } = t.opEvals := rfl
      have e2 : Trace.tableEntries { t with
        memory := padTo MemoryBoundary.pad (t.memory ++ [claimRow a root v])
        merkle := padTo MerkleNode.pad (t.merkle ++ claimLeaves a root v) } = t.tableEntries := rfl
      rw [e1, e2]
      linear_combination h0 + h1
  refine ⟨_, step _ w (step _ v ht), ?_, ?_⟩
  · exact List.mem_append_left _ (List.mem_append_left _ (List.mem_append_left _ (List.mem_append_right _
      (List.mem_singleton.2 rfl))))
  · exact List.mem_append_left _ (List.mem_append_right _ (List.mem_singleton.2 rfl))

/-! ### Non-vacuity -/

/-- Lookups balance if they do for the tuples that occur. -/
theorem balance_of_check {es : List Entry} (h : ∀ e ∈ es, total es e.rel e.padded.tuple = 0) : LookupsBalance es := by
  intro rel tuple
  by_cases hc : ∃ e ∈ es, e.rel = rel ∧ e.padded.tuple = tuple
  · obtain ⟨e, he, rfl, rfl⟩ := hc
    exact h e he
  · push Not at hc
    exact total_none _ fun e he hr ht => absurd ht (hc e he hr)

/-- A toy hash. -/
def toyHash (a b : M31) : M31 := a + 2 * b

/-- The rows of the tree over the memory with `⟨7, 8, 9, 10⟩` in the cell at address 0 and zeros elsewhere, for both
roots. The nodes from depth 28 up are `81 = (7 + 2 * 8) + 2 * (9 + 2 * 10)`. -/
def toyRows : List MerkleNode.Row :=
  [⟨0, 0, 30, 7, 8, 23, 2, 2, 2, 81⟩, ⟨0, 2, 30, 9, 10, 29, 2, 2, 2, 81⟩, ⟨0, 0, 29, 23, 29, 81, 2, 2, 2, 81⟩] ++
  ([28, 27, 26, 25, 24, 23, 22, 21, 20, 19, 18, 17, 16, 15, 14, 13, 12, 11, 10, 9, 8, 7, 6, 5, 4, 3, 2, 1].map fun k : M31 =>
    ⟨0, 0, k, 81, 0, 81, 2, 0, 2, 81⟩) ++ [MerkleNode.pad]

/-- The lookups of a Merkle row, with the inverse of two written out. -/
def toyEntries (r : MerkleNode.Row) : List Entry :=
  [⟨.merkle, r.left_multiplicity, [r.index, r.depth, r.left_value, r.root]⟩,
    ⟨.merkle, r.right_multiplicity, [r.index + 1, r.depth, r.right_value, r.root]⟩,
    ⟨.merkle, -r.parent_multiplicity, [r.index * 1073741824, r.depth - 1, r.parent_value, r.root]⟩,
    ⟨.poseidon2, r.enabler, [r.left_value, r.right_value]⟩,
    ⟨.poseidon2, -r.enabler, [r.parent_value]⟩]

theorem toyEntries_eq (r : MerkleNode.Row) : (MerkleNode.evaluate r).entries = toyEntries r := by
  have h : (2 : M31)⁻¹ = 1073741824 := inv_eq_of_mul_eq_one_right (by decide)
  simp only [MerkleNode.evaluate, toyEntries, h]

/-- The initial and the final record of the cell. -/
def toyMemory : List MemoryBoundary.Row :=
  [⟨1, 0, 0, 7, 8, 9, 10, 1, 81⟩, ⟨1, 0, 0, 7, 8, 9, 10, -1, 81⟩]

/-- An empty run. -/
def toyData : PublicData := ⟨0, 0, 0, 0, 0, 81, 81, [], [], []⟩

/-- The trace. -/
def toyTrace : Trace :=
  { assembled toyData (fun _ => []) [] [] with
    memory := toyMemory
    merkle := toyRows }

/-- The memory of the example. -/
def toyCells (a : ℕ) : QM31 := if a = 0 then ⟨7, 8, 9, 10⟩ else QM31.zero

theorem toy_zero (l i : ℕ) (hi : 4 ≤ i * 2 ^ l) : subtree toyHash toyCells l i = 0 := by
  induction l generalizing i with
  | zero =>
    have : i / 4 ≠ 0 := by omega
    simp only [subtree, leaf, toyCells, this, if_false]
    have : i % 4 < 4 := Nat.mod_lt _ (by norm_num)
    interval_cases i % 4 <;> rfl
  | succ l ih =>
    rw [pow_succ] at hi
    simp only [subtree, toyHash]
    rw [ih (2 * i) (by nlinarith), ih (2 * i + 1) (by nlinarith)]
    norm_num

theorem toy_node (j : ℕ) : subtree toyHash toyCells (2 + j) 0 = 81 := by
  induction j with
  | zero => decide +kernel
  | succ j ih =>
    show toyHash (subtree toyHash toyCells (2 + j) 0) (subtree toyHash toyCells (2 + j) (0 + 1)) = _
    rw [ih, toy_zero (2 + j) (0 + 1) (by have := Nat.one_le_two_pow (n := j); rw [pow_add]; omega)]
    rfl

/-- The hypotheses of `C70_memory_committed_partial` are met: an accepted trace with the tree of a memory with one
cell. -/
example (consts : Poseidon2.Consts) : Accepted consts toyData toyTrace ∧ HonestTree toyHash toyTrace ∧
    (∃ r ∈ toyTrace.memory, r.enabler = 1 ∧ r.address.val < 2 ^ 28) ∧ toyData.initialRoot = fullRoot toyHash toyCells := by
  have h : Accepted consts toyData (assembled toyData (fun _ => []) [] []) := by
    refine assembled_accepted consts toyData (fun _ => []) [] [] (by simp) (by simp) (by simp) ?_ ?_
    all_goals
      have e : opEntries (fun _ => []) = [] := by simp [opEntries]
      intro tuple
      simp only [e, List.append_nil, List.flatMap_nil]
    · rw [registers_public]; simp only [toyData, zero_add]; exact sub_self _
    · exact total_none _ fun e he hr => by
        simp only [PublicData.entries, toyData, List.flatMap_nil, List.append_nil, List.mem_cons, List.not_mem_nil,
          or_false] at he
        rcases he with rfl | rfl | rfl | rfl <;> cases hr
  have hmk : ∀ r ∈ toyRows, (MerkleNode.evaluate r).Satisfied := by
    have hc : (toyRows.all fun r => (MerkleNode.evaluate r).constraints.all fun c => c = 0) = true := by decide +kernel
    exact fun r hr => satisfied_of_check (List.all_eq_true.1 hc r hr)
  refine ⟨⟨⟨h.shaped.ops, ⟨1, rfl⟩, h.shaped.clockUpdate, ⟨5, rfl⟩, h.shaped.poseidon2⟩, ?_, ?_⟩, ⟨?_, ?_, ?_⟩,
    ⟨_, .head _, rfl, by decide⟩, (toy_node 28).symm⟩
  · intro ev hev
    simp only [Trace.evals, List.mem_append, List.mem_map] at hev
    rcases hev with (((hev | ⟨r, hr, rfl⟩) | hev) | ⟨r, hr, rfl⟩) | hev
    · exact h.satisfied ev (by simp only [Trace.evals, List.mem_append]; exact .inl (.inl (.inl (.inl hev))))
    · have hc : (toyMemory.all fun r => (MemoryBoundary.evaluate r).constraints.all fun c => c = 0) = true := by
        decide +kernel
      exact satisfied_of_check (List.all_eq_true.1 hc r hr)
    · exact h.satisfied ev (by simp only [Trace.evals, List.mem_append, List.mem_map]; exact .inl (.inl (.inr hev)))
    · exact hmk r hr
    · exact h.satisfied ev (by simp only [Trace.evals, List.mem_append, List.mem_map]; exact .inr hev)
  · have em : (assembled toyData (fun _ => []) [] []).memory = [MemoryBoundary.pad] := rfl
    have ek : (assembled toyData (fun _ => []) [] []).merkle =
        [⟨0, 0, 1, 0, 0, 81, 0, 0, 1, 81⟩, ⟨0, 0, 1, 0, 0, 81, 0, 0, 1, 81⟩] := by
      have hf : toyData.entries.filter (·.rel = .merkle) = [⟨.merkle, 1, [0, 0, 81, 81]⟩, ⟨.merkle, 1, [0, 0, 81, 81]⟩] :=
        by decide +kernel
      simp only [assembled, hf]
      simp [padTo, cancelMerkle]
      decide +kernel
    have b1 : LookupsBalance (toyData.entries ++
        ([MemoryBoundary.pad].flatMap fun r => (MemoryBoundary.evaluate r).entries) ++
        ([⟨0, 0, 1, 0, 0, 81, 0, 0, 1, 81⟩, ⟨0, 0, 1, 0, 0, 81, 0, 0, 1, 81⟩] : List MerkleNode.Row).flatMap toyEntries) :=
      balance_of_check (by decide +kernel)
    have b2 : LookupsBalance (toyData.entries ++
        (toyMemory.flatMap fun r => (MemoryBoundary.evaluate r).entries) ++
        toyRows.flatMap toyEntries) :=
      balance_of_check (by decide +kernel)
    intro rel tuple
    have h0 := h.balanced rel tuple
    have h1 := b1 rel tuple
    have h2 := b2 rel tuple
    have e1 : toyTrace.opEvals = (assembled toyData (fun _ => []) [] []).opEvals := rfl
    have e2 : toyTrace.tableEntries = (assembled toyData (fun _ => []) [] []).tableEntries := rfl
    have e3 : toyTrace.clockUpdate = (assembled toyData (fun _ => []) [] []).clockUpdate := rfl
    have e5 : toyTrace.memory = toyMemory := rfl
    have e6 : toyTrace.merkle = toyRows := rfl
    have e4 : toyTrace.poseidon2 = (assembled toyData (fun _ => []) [] []).poseidon2 := rfl
    simp only [Trace.entries, Trace.evals, List.flatMap_append, List.flatMap_map, total_append, toyEntries_eq, e1, e2, e3, e4, e5, e6, em, ek] at h0 h1 h2 ⊢
    linear_combination h0 - h1 + h2
  · have hc : (toyRows.all fun r => (r.left_multiplicity = 0 && r.right_multiplicity = 0) || r.parent_multiplicity ≠ 0) =
      true := by decide +kernel
    intro r hr hu
    have := List.all_eq_true.1 hc r hr
    rcases hu with hu | hu <;> simpa [hu] using this
  · have hc : (toyRows.all fun r => (r.left_multiplicity = 0 && r.right_multiplicity = 0) ||
      r.parent_value = toyHash r.left_value r.right_value) = true := by decide +kernel
    intro r hr hu
    have := List.all_eq_true.1 hc r hr
    rcases hu with hu | hu <;> simpa [hu] using this
  · have hc : (toyRows.all fun r => (r.left_multiplicity = 0 && r.right_multiplicity = 0) || r.depth ≠ 0) = true := by
      decide +kernel
    intro r hr hu
    have := List.all_eq_true.1 hc r hr
    rcases hu with hu | hu <;> simpa [hu] using this

end Air
end CairoM
