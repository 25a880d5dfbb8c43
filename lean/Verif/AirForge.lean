import Verif.AirGlobalProps

/-!
# Building accepted traces: helper lemmas

A prover may choose every trace column. `assembled` completes chosen opcode, memory and clock-update rows to a whole
trace: padding rows, table multiplicities that count the lookups, and Merkle rows with the enabler unset that cancel the
Merkle lookups of the public data.
-/

namespace CairoM
namespace Air

/-- A disabled row of every opcode component. -/
def Comp.pad : (c : Comp) → c.Row
  | .assertEqFpImm => (⟨0, 0, 0, 0, 0, 0, 0, 0, 0⟩ :
      AssertEqFpImm.Row)
  | .callAbsImm => (⟨0, 0, 0, 0, 0, 0, 0, 0, 0, 0, 0⟩ :
      CallAbsImm.Row)
  | .jmpImm => (⟨0, 0, 0, 0, 0, 0, 0⟩ :
      JmpImm.Row)
  | .jnzFpImm => (⟨0, 0, 0, 0, 0, 0, 0, 0, 0, 0, 0, 0⟩ :
      JnzFpImm.Row)
  | .ret => (⟨0, 0, 0, 0, 0, 0, 0, 0, 0⟩ :
      Ret.Row)
  | .storeImm => (⟨0, 0, 0, 0, 0, 0, 0, 0, 0⟩ :
      StoreImm.Row)
  | .storeFpFp => (⟨0, 0, 0, 0, 0, 0, 0, 0, 0, 0, 0, 0, 0, 0, 0, 0, 0, 0, 0, 0⟩ :
      StoreFpFp.Row)
  | .storeFpImm => (⟨0, 0, 0, 0, 0, 0, 0, 0, 0, 0, 0, 0, 0, 0, 0, 0, 0, 0⟩ :
      StoreFpImm.Row)
  | .doubleDerefFpImm => (⟨0, 0, 0, 0, 0, 8, 0, 0, 0, 0, 0, 0, 0, 0, 0, 0, 0⟩ :
      DoubleDerefFpImm.Row)
  | .doubleDerefFpFp => (⟨0, 0, 0, 0, 0, 42, 0, 0, 0, 0, 0, 0, 0, 0, 0, 0, 0, 0, 0⟩ :
      DoubleDerefFpFp.Row)
  | .storeFramePointer => (⟨0, 0, 0, 0, 0, 0, 0, 0, 0⟩ :
      StoreFramePointer.Row)
  | .u32StoreImm => (⟨0, 0, 0, 0, 0, 0, 0, 0, 0, 0, 0, 0⟩ :
      U32StoreImm.Row)
  | .u32StoreAddFpImm => (⟨0, 0, 0, 0, 0, 0, 0, 0, 0, 0, 0, 0, 0, 0, 0, 0, 0, 0, 0⟩ :
      U32StoreAddFpImm.Row)
  | .u32StoreMulFpImm => (⟨0, 0, 0, 0, 0, 0, 0, 0, 0, 0, 0, 0, 0, 0, 0, 0, 0, 0, 0, 0, 0, 0, 0, 0, 0, 0, 0, 0, 0⟩ :
      U32StoreMulFpImm.Row)
  | .u32StoreDivFpImm => (⟨0, 0, 0, 0, 0, 0, 1, 0, 0, 0, 0, 0, 0, 0, 0, 0, 0, 0, 0, 0, 0, 0, 0, 0, 0, 0, 0, 0, 0, 0, 0, 0, 0,
        0, 0, 0, 0, 0, 0, 0, 0, 0, 0, 0, 0, 0, 0, 0, 0, 0, 0⟩ :
      U32StoreDivFpImm.Row)
  | .u32StoreEqFpFp => (⟨0, 0, 0, 0, 0, 0, 0, 0, 0, 0, 0, 0, 0, 0, 0, 0, 0, 0, 0, 0, 1, 1⟩ :
      U32StoreEqFpFp.Row)
  | .u32StoreEqFpImm => (⟨0, 0, 0, 0, 0, 0, 0, 0, 0, 0, 0, 0, 0, 0, 0, 0⟩ :
      U32StoreEqFpImm.Row)
  | .u32StoreLtFpImm => (⟨0, 0, 0, 0, 0, 0, 0, 0, 0, 0, 0, 0, 0, 0, 0, 0, 0⟩ :
      U32StoreLtFpImm.Row)
  | .u32StoreLtFpFp => (⟨0, 0, 0, 0, 0, 0, 0, 0, 0, 0, 0, 0, 0, 0, 0, 0, 0, 0, 0, 0⟩ :
      U32StoreLtFpFp.Row)
  | .u32StoreAddFpFp => (⟨0, 0, 0, 0, 0, 0, 0, 0, 0, 0, 0, 0, 0, 0, 0, 0, 0, 0, 0, 0, 0, 0⟩ :
      U32StoreAddFpFp.Row)
  | .u32StoreSubFpFp => (⟨0, 0, 0, 0, 0, 0, 0, 0, 0, 0, 0, 0, 0, 0, 0, 0, 0, 0, 0, 0, 0, 0⟩ :
      U32StoreSubFpFp.Row)
  | .u32StoreMulFpFp => (⟨0, 0, 0, 0, 0, 0, 0, 0, 0, 0, 0, 0, 0, 0, 0, 0, 0, 0, 0, 0, 0, 0, 0, 0, 0, 0, 0, 0, 0, 0, 0, 0⟩ :
      U32StoreMulFpFp.Row)
  | .u32StoreDivFpFp => (⟨0, 0, 0, 0, 0, 0, 0, 0, 0, 0, 0, 0, 0, 1, 0, 0, 0, 0, 0, 0, 0, 0, 0, 0, 0, 0, 0, 0, 0, 0, 0, 0, 0,
        0, 0, 0, 0, 0, 0, 0, 0, 0, 0, 0, 0, 0, 0, 0, 0, 0, 0, 0, 0, 0⟩ :
      U32StoreDivFpFp.Row)
  | .u32StoreBitwiseFpFp => (⟨0, 0, 0, 0, 0, 36, 0, 0, 0, 0, 0, 0, 0, 0, 0, 0, 0, 0, 0, 0, 0, 0, 0, 0, 0, 0, 0, 0, 0⟩ :
      U32StoreBitwiseFpFp.Row)
  | .u32StoreBitwiseFpImm => (⟨0, 0, 0, 0, 0, 39, 0, 0, 0, 0, 0, 0, 0, 0, 0, 0, 0, 0, 0, 0, 0, 0, 0, 0, 0, 0⟩ :
      U32StoreBitwiseFpImm.Row)
  | .storeLeFpImm => (⟨0, 0, 0, 0, 0, 0, 0, 0, 0, 0, 0, 0, 0, 0, 0, 0, 0, 0, 0, 0, 0, 0⟩ :
      StoreLeFpImm.Row)

theorem Comp.pad_satisfied (c : Comp) : (c.eval c.pad).Satisfied := by
  cases c <;> exact satisfied_of_check (by decide +kernel)

theorem Comp.pad_tables (c : Comp) : (c.eval c.pad).TablesHold := by
  cases c <;> exact tablesHold_of_check (by decide +kernel)

theorem Comp.pad_enabler (c : Comp) : c.enabler c.pad = 0 := by cases c <;> rfl

/-- Pads a list to a length that is a power of two. -/
def padTo {α : Type} (x : α) (l : List α) : List α := l ++ List.replicate (2 ^ Nat.clog 2 l.length - l.length) x

theorem padTo_power {α : Type} (x : α) (l : List α) : PowerOfTwo (padTo x l) := by
  refine ⟨Nat.clog 2 l.length, ?_⟩
  have := Nat.le_pow_clog (b := 2) (by norm_num) l.length
  rw [padTo, List.length_append, List.length_replicate]
  omega

theorem mem_padTo {α : Type} {x a : α} {l : List α} (h : a ∈ padTo x l) : a ∈ l ∨ a = x := by
  rcases List.mem_append.1 h with h | h
  · exact .inl h
  · exact .inr (List.eq_of_mem_replicate h)

/-! ### Sums -/

theorem total_append (a b : List Entry) (rel : Rel) (tuple : List M31) :
    total (a ++ b) rel tuple = total a rel tuple + total b rel tuple := by
  simp [total]

theorem total_cons (e : Entry) (es : List Entry) (rel : Rel) (tuple : List M31) :
    total (e :: es) rel tuple = (if e.rel = rel ∧ e.padded.tuple = tuple then e.mult else 0) + total es rel tuple := by
  rw [total, total, List.filter_cons]
  by_cases hp : e.rel = rel ∧ e.padded.tuple = tuple
  · simp [hp]
  · simp [hp]

theorem total_nil (rel : Rel) (tuple : List M31) : total [] rel tuple = 0 := rfl

theorem total_none {es : List Entry} {rel : Rel} (tuple : List M31)
    (h : ∀ e ∈ es, e.rel = rel → e.padded.tuple = tuple → e.mult = 0) : total es rel tuple = 0 := by
  induction es with
  | nil => rfl
  | cons e es ih =>
    rw [total_cons, ih fun x hx => h x (List.mem_cons_of_mem _ hx), add_zero]
    split
    · rename_i hp
      exact h e List.mem_cons_self hp.1 hp.2
    · rfl

theorem total_padTo {α : Type} (x : α) (l : List α) (f : α → List Entry) (rel : Rel) (tuple : List M31)
    (h : ∀ e ∈ f x, e.rel = rel → e.mult = 0) :
    total ((padTo x l).flatMap f) rel tuple = total (l.flatMap f) rel tuple := by
  rw [padTo, List.flatMap_append, total_append, total_none (es := List.flatMap f (List.replicate _ x)), add_zero]
  intro e he hr _
  obtain ⟨y, hy, he⟩ := List.mem_flatMap.1 he
  rw [List.eq_of_mem_replicate hy] at he
  exact h e he hr

theorem total_flatMap_congr {α : Type} (l : List α) (f g : α → List Entry) (rel : Rel) (tuple : List M31)
    (h : ∀ a ∈ l, total (f a) rel tuple = total (g a) rel tuple) :
    total (l.flatMap f) rel tuple = total (l.flatMap g) rel tuple := by
  induction l with
  | nil => rfl
  | cons a l ih =>
    rw [List.flatMap_cons, List.flatMap_cons, total_append, total_append, h a List.mem_cons_self,
      ih fun x hx => h x (List.mem_cons_of_mem _ hx)]

/-- Rows that cancel given entries. -/
theorem total_cancel {α : Type} (es : List Entry) (f : Entry → α) (g : α → List Entry) (rel : Rel) (tuple : List M31)
    (h : ∀ e ∈ es, total (g (f e)) rel tuple = -total [e] rel tuple) :
    total ((es.map f).flatMap g) rel tuple = -total es rel tuple := by
  induction es with
  | nil => simp [total_nil]
  | cons e es ih =>
    rw [List.map_cons, List.flatMap_cons, total_append, h e List.mem_cons_self,
      ih fun x hx => h x (List.mem_cons_of_mem _ hx), total_cons e es, total_cons e []]
    simp [total_nil]; ring

theorem total_filter (es : List Entry) (rel : Rel) (tuple : List M31) :
    total (es.filter (·.rel = rel)) rel tuple = total es rel tuple := by
  induction es with
  | nil => rfl
  | cons e es ih =>
    rw [List.filter_cons, total_cons e es]
    by_cases h : e.rel = rel
    · simp [h, total_cons, ih]
    · simp [h, ih]

/-! ### Tables -/

/-- The entries of a table: all rows once. -/
theorem total_table (rel : Rel) (l : List ℕ) (hl : l.Nodup) (row : ℕ → List M31) (m : ℕ → M31)
    (harity : ∀ i ∈ l, (row i).length = rel.arity) (hinj : ∀ i ∈ l, ∀ j ∈ l, row i = row j → i = j) {i : ℕ} (hi : i ∈ l) :
    total (l.map fun i => ⟨rel, m i, row i⟩) rel (row i) = m i := by
  induction l with
  | nil => cases hi
  | cons a l ih =>
    have hp : ∀ i ∈ a :: l, (⟨rel, m i, row i⟩ : Entry).padded = ⟨rel, m i, row i⟩ := fun i hi => padded_full (harity i hi)
    rw [List.map_cons, total_cons, hp a List.mem_cons_self]
    have hl' := List.nodup_cons.1 hl
    by_cases hai : a = i
    · subst hai
      rw [if_pos ⟨rfl, rfl⟩, total_none, add_zero]
      intro e he _ ht
      obtain ⟨j, hj, rfl⟩ := List.mem_map.1 he
      rw [hp j (List.mem_cons_of_mem _ hj)] at ht
      rw [hinj j (List.mem_cons_of_mem _ hj) a List.mem_cons_self ht] at hj
      exact absurd hj hl'.1
    · have hil : i ∈ l := by
        rcases List.mem_cons.1 hi with h | h
        · exact absurd h.symm hai
        · exact h
      rw [if_neg, zero_add]
      · exact ih hl'.2 (fun i hi => harity i (List.mem_cons_of_mem _ hi))
          (fun i hi j hj => hinj i (List.mem_cons_of_mem _ hi) j (List.mem_cons_of_mem _ hj)) hil
      · rintro ⟨-, h⟩
        exact hai (hinj a List.mem_cons_self i hi h)

theorem rangeEntries_eq (rel : Rel) (bits : ℕ) (m : ℕ → M31) :
    rangeEntries rel bits m = (List.range (2 ^ bits)).map fun i : ℕ => ⟨rel, m i, [(i : M31)]⟩ := by
  apply List.ext_getElem
  · simp [rangeEntries, rangeColumn]
  · intro i h1 h2
    simp [rangeEntries, rangeColumn]

/-- Range table whose multiplicities count the lookups. -/
theorem range_cancels {rel : Rel} {bits : ℕ} (hb : bits ≤ 30) (ha : rel.arity = 1) (es : List Entry)
    (h : ∀ e ∈ es, e.rel = rel → e.mult ≠ 0 → e.tuple.length = 1 ∧ ∀ v ∈ e.tuple, v.val < 2 ^ bits) (tuple : List M31) :
    total es rel tuple + total (rangeEntries rel bits fun i => -total es rel [(i : M31)]) rel tuple = 0 := by
  have hP : P = 2147483647 := rfl
  have hbits : 2 ^ bits ≤ 2 ^ 30 := Nat.pow_le_pow_right (by norm_num) hb
  rw [rangeEntries_eq]
  by_cases hx : ∃ i : ℕ, i < 2 ^ bits ∧ tuple = [(i : M31)]
  · obtain ⟨i, hi, rfl⟩ := hx
    rw [total_table rel (List.range (2 ^ bits)) List.nodup_range (fun i => [(i : M31)]) (fun i => -total es rel [(i : M31)])
      (by simp [ha]) ?_ (List.mem_range.2 hi), add_neg_cancel]
    intro i hi j hj hij
    rw [List.mem_range] at hi hj
    exact cast_inj (by omega) (by omega) (List.cons.inj hij).1
  · rw [total_none, total_none, add_zero]
    · intro e he hr ht
      obtain ⟨i, hi, rfl⟩ := List.mem_map.1 he
      rw [padded_full (by simp [ha])] at ht
      exact absurd ⟨i, List.mem_range.1 hi, ht.symm⟩ hx
    · intro e he hr ht
      by_contra hm
      obtain ⟨h1, h2⟩ := h e he hr hm
      rw [padded_full (by rw [hr, ha, h1])] at ht
      match hl : e.tuple with
      | [] => rw [hl] at h1; cases h1
      | [v] =>
        refine hx ⟨v.val, h2 v (by rw [hl]; exact List.mem_singleton_self v), ?_⟩
        rw [← ht, hl, ZMod.natCast_zmod_val]
      | _ :: _ :: _ => rw [hl] at h1; cases h1

/-- The row of an index below `3 * 2^16`. -/
theorem bitwiseRow_eq {i : ℕ} (h : i < 196608) : bitwiseRow i =
    [((i / 65536 : ℕ) : M31), ((i % 65536 / 256 : ℕ) : M31), ((i % 65536 % 256 : ℕ) : M31),
        (bitwiseOp (i / 65536) (i % 65536 / 256) (i % 65536 % 256) : M31)] := by
  have hi : i < 2 ^ 18 := by omega
  simp only [bitwiseRow, List.map_cons, List.map_nil]
  rw [bitwiseColumn_getD _ _ hi, bitwiseColumn_getD _ _ hi, bitwiseColumn_getD _ _ hi, bitwiseColumn_getD _ _ hi,
    if_pos h, if_pos h, if_pos h, if_pos h]
  rfl

/-- Bitwise table whose multiplicities count the lookups, the padding rows being unused. -/
theorem bitwise_cancels (es : List Entry)
    (h : ∀ e ∈ es, e.rel = .bitwise → e.mult ≠ 0 → ∃ op a b : ℕ, op < 3 ∧ a < 2 ^ 8 ∧ b < 2 ^ 8 ∧
      e.padded.tuple = [(op : M31), (a : M31), (b : M31), (bitwiseOp op a b : M31)]) (tuple : List M31) :
    total es .bitwise tuple +
      total (bitwiseEntries fun i => if i < 196608 then -total es .bitwise (bitwiseRow i) else 0) .bitwise tuple = 0 := by
  have hP : P = 2147483647 := rfl
  have hsplit : List.range (2 ^ 18) = List.range 196608 ++ List.range' 196608 65536 := by
    have h := List.range'_append_1 (s := 0) (m := 196608) (n := 65536)
    rw [zero_add] at h
    rw [List.range_eq_range', List.range_eq_range', h, show 196608 + 65536 = 2 ^ 18 by norm_num]
  rw [bitwiseEntries, hsplit, List.map_append, total_append, total_none (es := List.map _ (List.range' _ _)), add_zero]
  swap
  · intro e he _ _
    obtain ⟨i, hi, rfl⟩ := List.mem_map.1 he
    rw [List.mem_range'_1] at hi
    exact if_neg (by omega)
  by_cases hx : ∃ i : ℕ, i < 196608 ∧ tuple = bitwiseRow i
  · obtain ⟨i, hi, rfl⟩ := hx
    rw [total_table .bitwise (List.range 196608) List.nodup_range bitwiseRow
      (fun i => if i < 196608 then -total es .bitwise (bitwiseRow i) else 0) ?_ ?_ (List.mem_range.2 hi), if_pos hi, add_neg_cancel]
    · intro i _; rfl
    · intro i hi j hj hij
      rw [List.mem_range] at hi hj
      rw [bitwiseRow_eq hi, bitwiseRow_eq hj] at hij
      simp only [List.cons.injEq, and_true] at hij
      obtain ⟨h1, h2, h3, -⟩ := hij
      have h1 := cast_inj (by omega) (by omega) h1
      have h2 := cast_inj (by omega) (by omega) h2
      have h3 := cast_inj (by omega) (by omega) h3
      omega
  · rw [total_none, total_none, add_zero]
    · intro e he hr ht
      obtain ⟨i, hi, rfl⟩ := List.mem_map.1 he
      rw [padded_full rfl] at ht
      exact absurd ⟨i, List.mem_range.1 hi, ht.symm⟩ hx
    · intro e he hr ht
      by_contra hm
      obtain ⟨op, a, b, h1, h2, h3, h4⟩ := h e he hr hm
      refine hx ⟨op * 65536 + a * 256 + b, by omega, ?_⟩
      rw [← ht, h4, bitwiseRow_eq (by omega), show (op * 65536 + a * 256 + b) / 65536 = op by omega,
        show (op * 65536 + a * 256 + b) % 65536 / 256 = a by omega,
        show (op * 65536 + a * 256 + b) % 65536 % 256 = b by omega]

/-! ### The trace -/

/-- A disabled memory row. -/
def MemoryBoundary.pad : MemoryBoundary.Row := ⟨0, 0, 0, 0, 0, 0, 0, 0, 0⟩

/-- A disabled clock-update row. -/
def ClockUpdate.pad : ClockUpdate.Row := ⟨0, 0, 0, 0, 0, 0, 0⟩

/-- A disabled Merkle row without multiplicities. -/
def MerkleNode.pad : MerkleNode.Row := ⟨0, 0, 0, 0, 0, 0, 0, 0, 0, 0⟩

/-- A disabled hash row. -/
def Poseidon2.pad : Poseidon2.Row := ⟨0, fun _ => 0, fun _ _ _ => 0, fun _ _ => 0⟩

/-- A disabled Merkle row that cancels an entry of multiplicity `1` (as a parent) or `-1` (as a left child). -/
def cancelMerkle (e : Entry) : MerkleNode.Row :=
  let i := e.tuple.getD 0 0
  let depth := e.tuple.getD 1 0
  let value := e.tuple.getD 2 0
  let root := e.tuple.getD 3 0
  if e.mult = 1 then ⟨0, i * 2, depth + 1, 0, 0, value, 0, 0, 1, root⟩ else ⟨0, i, depth, value, 0, 0, 1, 0, 0, root⟩

/-- The lookups of opcode rows. -/
def opEntries (rows : (c : Comp) → List c.Row) : List Entry :=
  Comp.all.flatMap fun c => (rows c).flatMap fun r => (c.eval r).entries

/-- Opcode rows of one component only. -/
def only (k : Comp) (l : List k.Row) : (c : Comp) → List c.Row := fun c => if h : k = c then h ▸ l else []

theorem mem_only {k c : Comp} {l : List k.Row} {r : c.Row} (h : r ∈ only k l c) :
    ∃ h : c = k, (h ▸ r : k.Row) ∈ l := by
  unfold only at h
  split at h
  · rename_i hk
    subst hk
    exact ⟨rfl, h⟩
  · cases h

theorem Comp.mem_all (k : Comp) : k ∈ Comp.all := by cases k <;> decide

theorem Comp.nodup_all : Comp.all.Nodup := by decide

theorem opEntries_only (k : Comp) (l : List k.Row) : opEntries (only k l) = l.flatMap fun r => (k.eval r).entries := by
  have key : ∀ cs : List Comp, cs.Nodup → k ∈ cs →
      (cs.flatMap fun c => (only k l c).flatMap fun r => (c.eval r).entries) = l.flatMap fun r => (k.eval r).entries := by
    have none : ∀ cs : List Comp, k ∉ cs → (cs.flatMap fun c => (only k l c).flatMap fun r => (c.eval r).entries) = [] := by
      intro cs hk
      rw [List.flatMap_eq_nil_iff]
      intro c hc
      rw [only, dif_neg (fun h : k = c => hk (h ▸ hc)), List.flatMap_nil]
    intro cs
    induction cs with
    | nil => intro _ h; cases h
    | cons c cs ih =>
      intro hn hk
      rw [List.nodup_cons] at hn
      rw [List.flatMap_cons]
      by_cases h : k = c
      · subst h
        rw [none cs hn.1, List.append_nil, only, dif_pos rfl]
      · rw [ih hn.2 (by simpa [h] using hk), only, dif_neg h, List.flatMap_nil, List.nil_append]
  exact key _ Comp.nodup_all k.mem_all

/-- The opcode rows, padded. -/
def padOps (rows : (c : Comp) → List c.Row) (c : Comp) : List c.Row := padTo c.pad (rows c)

/-- The whole trace. -/
def assembled (d : PublicData) (rows : (c : Comp) → List c.Row) (mem : List MemoryBoundary.Row)
    (cu : List ClockUpdate.Row) : Trace :=
  let es := opEntries (padOps rows)
  { ops := padOps rows
    memory := padTo MemoryBoundary.pad mem
    clockUpdate := padTo ClockUpdate.pad cu
    merkle := padTo MerkleNode.pad ((d.entries.filter (·.rel = .merkle)).map cancelMerkle)
    poseidon2 := [Poseidon2.pad]
    rc8 := fun i => -total es .rc8 [(i : M31)]
    rc16 := fun i => -total es .rc16 [(i : M31)]
    rc20 := fun i => -total es .rc20 [(i : M31)]
    bitwise := fun i => if i < 196608 then -total es .bitwise (bitwiseRow i) else 0 }

theorem Poseidon2.pad_satisfied (c : Poseidon2.Consts) : (Poseidon2.evaluate c Poseidon2.pad).Satisfied := by
  have key : ∀ (l : List (Bool × ℕ)) (acc : Poseidon2.State × List M31), (∀ x ∈ acc.2, x = 0) →
      ∀ x ∈ (l.foldl (fun acc k =>
        let n := if k.1 then Poseidon2.partialRound c Poseidon2.pad k.2 acc.1 else Poseidon2.fullRound c Poseidon2.pad k.2 acc.1
        (n.1, acc.2 ++ n.2)) acc).2, x = 0 := by
    intro l
    induction l with
    | nil => intro acc h; exact h
    | cons k l ih =>
      intro acc h
      refine ih _ ?_
      intro x hx
      rcases List.mem_append.1 hx with hx | hx
      · exact h x hx
      · by_cases hk : k.1 = true
        · simp only [hk, if_true, Poseidon2.partialRound, Poseidon2.pad, zero_mul, List.mem_cons, List.not_mem_nil, or_false,
            or_self] at hx
          exact hx
        · simp only [hk, Bool.false_eq_true, if_false, Poseidon2.fullRound, Poseidon2.pad, Poseidon2.pin, zero_mul,
            List.mem_append, List.mem_ofFn] at hx
          rcases hx with (⟨_, h⟩ | ⟨_, h⟩) | ⟨_, h⟩ <;> exact h.symm
  exact key _ _ (by simp)

/-- Opcode rows use neither the Merkle nor the hash relation. -/
theorem op_relations (c : Comp) (r : c.Row) (hs : (c.eval r).Satisfied) :
    ∀ e ∈ (c.eval r).entries, e.rel = .merkle ∨ e.rel = .poseidon2 → e.mult = 0 := by
  rcases enabler_bit c r hs with h | h
  · exact fun e he hr => inert_of c r h e he (.inr (.inr hr))
  have key : ∀ {ev : Eval} {pc fp clock pc' fp' : M31} {accs : List Access}, Performs ev pc fp clock pc' fp' accs →
      ∀ e ∈ ev.entries, e.rel = .merkle ∨ e.rel = .poseidon2 → e.mult = 0 := by
    intro ev pc fp clock pc' fp' accs hp e he hr
    exfalso
    rcases hr with hr | hr
    · have : e.padded ∈ ev.of .merkle := List.mem_map_of_mem (List.mem_filter.2 ⟨he, by simpa using hr⟩)
      rw [hp.merkle] at this
      cases this
    · have : e.padded ∈ ev.of .poseidon2 := List.mem_map_of_mem (List.mem_filter.2 ⟨he, by simpa using hr⟩)
      rw [hp.poseidon2] at this
      cases this
  cases c with
  | assertEqFpImm => exact key (AssertEqFpImm.performs h)
  | callAbsImm => exact key (CallAbsImm.performs h)
  | jmpImm => exact key (JmpImm.performs h)
  | jnzFpImm => exact key (JnzFpImm.performs h)
  | ret => exact key (Ret.performs h)
  | storeImm => exact key (StoreImm.performs h)
  | storeFpFp => exact key (StoreFpFp.performs h)
  | storeFpImm => exact key (StoreFpImm.performs h)
  | doubleDerefFpImm => exact key (DoubleDerefFpImm.performs h)
  | doubleDerefFpFp => exact key (DoubleDerefFpFp.performs h)
  | storeFramePointer => exact key (StoreFramePointer.performs h)
  | u32StoreImm => exact key (U32StoreImm.performs h)
  | u32StoreAddFpImm => exact key (U32StoreAddFpImm.performs h)
  | u32StoreMulFpImm => exact key (U32StoreMulFpImm.performs h)
  | u32StoreDivFpImm => exact key (U32StoreDivFpImm.performs h)
  | u32StoreEqFpFp => exact key (U32StoreEqFpFp.performs h)
  | u32StoreEqFpImm => exact key (U32StoreEqFpImm.performs h)
  | u32StoreLtFpImm => exact key (U32StoreLtFpImm.performs h)
  | u32StoreLtFpFp => exact key (U32StoreLtFpFp.performs h)
  | u32StoreAddFpFp => exact key (U32StoreAddFpFp.performs h)
  | u32StoreSubFpFp => exact key (U32StoreSubFpFp.performs h)
  | u32StoreMulFpFp => exact key (U32StoreMulFpFp.performs h)
  | u32StoreDivFpFp => exact key (U32StoreDivFpFp.performs h)
  | u32StoreBitwiseFpFp => exact key (U32StoreBitwiseFpFp.performs h)
  | u32StoreBitwiseFpImm => exact key (U32StoreBitwiseFpImm.performs h)
  | storeLeFpImm => exact key (StoreLeFpImm.performs h)

theorem opEntries_eq (t : Trace) : t.opEvals.flatMap Eval.entries = opEntries t.ops := by
  rw [Trace.opEvals, opEntries, List.flatMap_assoc]
  congr 1
  funext c
  rw [List.flatMap_map]

theorem total_padOps (rows : (c : Comp) → List c.Row) {rel : Rel} (hr : rel = .memory ∨ rel = .registers)
    (tuple : List M31) : total (opEntries (padOps rows)) rel tuple = total (opEntries rows) rel tuple := by
  rw [opEntries, opEntries]
  refine total_flatMap_congr _ _ _ _ _ fun c _ => ?_
  refine total_padTo _ _ _ _ _ fun e he h => ?_
  refine inert_of c c.pad c.pad_enabler e he ?_
  rw [h]
  rcases hr with hr | hr <;> simp [hr]

theorem cancel_total (i depth value root m : M31) (hm : m = 1 ∨ m = -1) (tuple : List M31) :
    total (MerkleNode.evaluate (cancelMerkle ⟨.merkle, m, [i, depth, value, root]⟩)).entries .merkle tuple =
      -total [⟨.merkle, m, [i, depth, value, root]⟩] .merkle tuple := by
  have hne : (-1 : M31) ≠ 1 := by decide
  have h2 : (2 : M31) ≠ 0 := by decide
  rcases hm with rfl | rfl
  · simp only [cancelMerkle, if_true, MerkleNode.evaluate, total_cons, total_nil, Entry.padded, Rel.arity]
    simp only [List.getD_cons_zero, List.getD_cons_succ, mul_inv_cancel_right₀ h2, add_sub_cancel_right]
    simp
    split <;> simp
  · simp only [cancelMerkle, hne, if_false, MerkleNode.evaluate, total_cons, total_nil, Entry.padded, Rel.arity]
    simp only [List.getD_cons_zero, List.getD_cons_succ]
    simp
    split <;> simp

/-- The completed trace is accepted. -/
theorem assembled_accepted (consts : Poseidon2.Consts) (d : PublicData) (rows : (c : Comp) → List c.Row)
    (mem : List MemoryBoundary.Row) (cu : List ClockUpdate.Row)
    (hs : ∀ c, ∀ r ∈ rows c, (c.eval r).Satisfied ∧ (c.eval r).TablesHold) (hmem : ∀ r ∈ mem, r.enabler = 0)
    (hcu : ∀ r ∈ cu, (ClockUpdate.evaluate r).Satisfied)
    (hr : ∀ tuple, total (d.entries ++ opEntries rows) .registers tuple = 0)
    (hm : ∀ tuple, total (d.entries ++ opEntries rows ++ (mem.flatMap fun r => (MemoryBoundary.evaluate r).entries) ++
      cu.flatMap fun r => (ClockUpdate.evaluate r).entries) .memory tuple = 0) :
    Accepted consts d (assembled d rows mem cu) := by
  have hops : ∀ c, ∀ r ∈ padOps rows c, (c.eval r).Satisfied ∧ (c.eval r).TablesHold := by
    intro c r hr
    rcases mem_padTo hr with h | rfl
    · exact hs c r h
    · exact ⟨c.pad_satisfied, c.pad_tables⟩
  have hall : ∀ e ∈ opEntries (padOps rows), ∃ c r, (c.eval r).Satisfied ∧ (c.eval r).TablesHold ∧ e ∈ (Comp.eval c r).entries := by
    intro e he
    simp only [opEntries, List.mem_flatMap] at he
    obtain ⟨c, -, r, hr, he⟩ := he
    exact ⟨c, r, (hops c r hr).1, (hops c r hr).2, he⟩
  have hmem' : ∀ r ∈ padTo MemoryBoundary.pad mem, r.enabler = 0 := by
    intro r hr
    rcases mem_padTo hr with h | rfl
    · exact hmem r h
    · rfl
  have hcu' : ∀ r ∈ padTo ClockUpdate.pad cu, (ClockUpdate.evaluate r).Satisfied := by
    intro r hr
    rcases mem_padTo hr with h | rfl
    · exact hcu r h
    · exact satisfied_of_check (by decide +kernel)
  have hmk : ∀ r ∈ padTo MerkleNode.pad ((d.entries.filter (·.rel = .merkle)).map cancelMerkle),
      r.enabler = 0 ∧ (MerkleNode.evaluate r).Satisfied := by
    intro r hr
    rcases mem_padTo hr with h | rfl
    · obtain ⟨e, -, rfl⟩ := List.mem_map.1 h
      unfold cancelMerkle
      dsimp only
      split <;> simp [Eval.Satisfied, MerkleNode.evaluate]
    · exact ⟨rfl, satisfied_of_check (by decide +kernel)⟩
  refine ⟨⟨fun c => padTo_power _ _, padTo_power _ _, padTo_power _ _, padTo_power _ _, ⟨0, rfl⟩⟩, ?_, ?_⟩
  · intro ev hev
    simp only [Trace.evals, List.mem_append, List.mem_map, Trace.opEvals, List.mem_flatMap] at hev
    rcases hev with (((⟨c, -, r, hr, rfl⟩ | ⟨r, hr, rfl⟩) | ⟨r, hr, rfl⟩) | ⟨r, hr, rfl⟩) | ⟨r, hr, rfl⟩
    · exact (hops c r hr).1
    · simp [Eval.Satisfied, MemoryBoundary.evaluate, hmem' r hr]
    · exact hcu' r hr
    · exact (hmk r hr).2
    · rw [show r = Poseidon2.pad from List.mem_singleton.1 hr]
      exact Poseidon2.pad_satisfied consts
  · have hfm : ∀ {α : Type} (l : List α) (f : α → Eval), (l.map f).flatMap Eval.entries = l.flatMap fun a => (f a).entries :=
      fun l f => by rw [List.flatMap_map]
    have e1 : (assembled d rows mem cu).opEvals.flatMap Eval.entries = opEntries (padOps rows) := opEntries_eq _
    intro rel tuple
    have htab : ¬ rel.isTable → total (assembled d rows mem cu).tableEntries rel tuple = 0 := by
      intro hn
      refine total_none _ ?_
      intro e he hr
      exfalso
      apply hn
      rw [← hr]
      simp only [Trace.tableEntries, List.mem_append] at he
      rcases he with ((he | he) | he) | he
      · rw [(range_mem he).1]; simp [Rel.isTable]
      · rw [(range_mem he).1]; simp [Rel.isTable]
      · rw [(range_mem he).1]; simp [Rel.isTable]
      · simp only [bitwiseEntries, List.mem_map] at he
        obtain ⟨i, -, rfl⟩ := he
        simp [Rel.isTable]
    have tmem : rel ≠ .memory → total ((assembled d rows mem cu).memory.flatMap fun r => (MemoryBoundary.evaluate r).entries) rel tuple = 0 := by
      intro hn
      refine total_none _ ?_
      intro e he hr
      obtain ⟨r, hr', he⟩ := List.mem_flatMap.1 he
      simp only [MemoryBoundary.evaluate, hmem' r hr', neg_zero, List.mem_cons, List.not_mem_nil, or_false] at he
      rcases he with rfl | rfl | rfl | rfl | rfl
      · exact absurd hr.symm hn
      all_goals exact fun _ => rfl
    have tcu : rel ≠ .memory → total ((assembled d rows mem cu).clockUpdate.flatMap fun r => (ClockUpdate.evaluate r).entries) rel tuple = 0 := by
      intro hn
      refine total_none _ ?_
      intro e he hr
      obtain ⟨r, hr', he⟩ := List.mem_flatMap.1 he
      simp only [ClockUpdate.evaluate, List.mem_cons, List.not_mem_nil, or_false] at he
      rcases he with rfl | rfl <;> exact absurd hr.symm hn
    have tmk : rel ≠ .merkle → total ((assembled d rows mem cu).merkle.flatMap fun r => (MerkleNode.evaluate r).entries) rel tuple = 0 := by
      intro hn
      refine total_none _ ?_
      intro e he hr
      obtain ⟨r, hr', he⟩ := List.mem_flatMap.1 he
      simp only [MerkleNode.evaluate, (hmk r hr').1, neg_zero, List.mem_cons, List.not_mem_nil, or_false] at he
      rcases he with rfl | rfl | rfl | rfl | rfl
      · exact absurd hr.symm hn
      · exact absurd hr.symm hn
      · exact absurd hr.symm hn
      all_goals exact fun _ => rfl
    have tpo : total ((assembled d rows mem cu).poseidon2.flatMap fun r => (Poseidon2.evaluate consts r).entries) rel tuple = 0 := by
      refine total_none _ ?_
      intro e he hr
      obtain ⟨r, hr', he⟩ := List.mem_flatMap.1 he
      rw [show r = Poseidon2.pad from List.mem_singleton.1 hr'] at he
      simp only [Poseidon2.evaluate, List.mem_cons, List.not_mem_nil, or_false] at he
      rcases he with rfl | rfl
      · exact fun _ => neg_zero
      · exact fun _ => rfl
    have dtab : rel ≠ .registers → rel ≠ .merkle → rel ≠ .memory → total d.entries rel tuple = 0 := by
      intro h1 h2 h3
      refine total_none _ ?_
      intro e he hr
      exfalso
      have hd : e.rel = .registers ∨ e.rel = .merkle ∨ e.rel = .memory := by
        simp only [PublicData.entries, List.mem_append, List.mem_cons, List.not_mem_nil, or_false, List.mem_flatMap,
          PublicEntry.entries] at he
        rcases he with (((rfl | rfl | rfl | rfl) | ⟨p, -, he⟩) | ⟨p, -, he⟩) | ⟨p, -, he⟩
        · simp
        · simp
        · simp
        · simp
        all_goals rcases he with rfl | rfl | rfl | rfl | rfl <;> simp
      rcases hd with h | h | h
      · exact h1 (hr.symm.trans h)
      · exact h2 (hr.symm.trans h)
      · exact h3 (hr.symm.trans h)
    rw [Trace.entries, Trace.evals]
    simp only [List.flatMap_append, hfm, total_append, e1]
    have rc : ∀ bits, rel.arity = 1 → (∀ e : Entry, e.rel = rel → e.mult ≠ 0 → e.TableHolds → ∀ v ∈ e.tuple, v.val < 2 ^ bits) →
        rel.isTable → ∀ e ∈ opEntries (padOps rows), e.rel = rel → e.mult ≠ 0 →
          e.tuple.length = 1 ∧ ∀ v ∈ e.tuple, v.val < 2 ^ bits := by
      intro bits ha hh ht e he hr hm0
      obtain ⟨c, r, -, h2, h3⟩ := hall e he
      refine ⟨?_, hh e hr hm0 (h2 e h3)⟩
      have := (tableUse c r e h3 (by rw [hr]; exact ht)).2
      rw [this, hr, ha]
    have rtot : ∀ (r2 : Rel) (b : ℕ) (m : ℕ → M31), r2 ≠ rel → total (rangeEntries r2 b m) rel tuple = 0 := by
      intro r2 b m hne
      refine total_none _ fun e he hr => ?_
      rw [(range_mem he).1] at hr
      exact absurd hr hne
    have btot : ∀ (m : ℕ → M31), .bitwise ≠ rel → total (bitwiseEntries m) rel tuple = 0 := by
      intro m hne
      refine total_none _ fun e he hr => ?_
      simp only [bitwiseEntries, List.mem_map] at he
      obtain ⟨i, -, rfl⟩ := he
      exact absurd hr hne
    cases rel with
    | memory =>
      have h := hm tuple
      rw [total_append, total_append, total_append] at h
      rw [total_padOps rows (.inl rfl), tmk (by simp), tpo, htab (by simp [Rel.isTable])]
      have a1 : total ((assembled d rows mem cu).memory.flatMap fun r => (MemoryBoundary.evaluate r).entries) .memory tuple =
          total (mem.flatMap fun r => (MemoryBoundary.evaluate r).entries) .memory tuple :=
        total_padTo _ _ _ _ _ (by simp [MemoryBoundary.evaluate, MemoryBoundary.pad])
      have a2 : total ((assembled d rows mem cu).clockUpdate.flatMap fun r => (ClockUpdate.evaluate r).entries) .memory tuple =
          total (cu.flatMap fun r => (ClockUpdate.evaluate r).entries) .memory tuple :=
        total_padTo _ _ _ _ _ (by simp [ClockUpdate.evaluate, ClockUpdate.pad])
      rw [a1, a2]
      linear_combination h
    | registers =>
      have h := hr tuple
      rw [total_append] at h
      rw [total_padOps rows (.inr rfl), tmem (by simp), tcu (by simp), tmk (by simp), tpo, htab (by simp [Rel.isTable])]
      linear_combination h
    | merkle =>
      have h1 : total (opEntries (padOps rows)) .merkle tuple = 0 := by
        refine total_none _ fun e he hr _ => ?_
        obtain ⟨c, r, h1, -, h3⟩ := hall e he
        exact op_relations c r h1 e h3 (.inl hr)
      have h2 : total ((assembled d rows mem cu).merkle.flatMap fun r => (MerkleNode.evaluate r).entries) .merkle tuple =
          -total d.entries .merkle tuple := by
        rw [← total_filter d.entries]
        refine (total_padTo _ _ _ _ _ (by simp [MerkleNode.evaluate, MerkleNode.pad])).trans
          (total_cancel _ _ _ _ _ fun e he => ?_)
        obtain ⟨he, hr⟩ := List.mem_filter.1 he
        simp only [decide_eq_true_eq] at hr
        simp only [PublicData.entries, List.mem_append, List.mem_cons, List.not_mem_nil, or_false, List.mem_flatMap,
          PublicEntry.entries] at he
        rcases he with (((rfl | rfl | rfl | rfl) | ⟨p, -, he⟩) | ⟨p, -, he⟩) | ⟨p, -, he⟩
        · cases hr
        · cases hr
        · exact cancel_total _ _ _ _ _ (.inl rfl) tuple
        · exact cancel_total _ _ _ _ _ (.inl rfl) tuple
        all_goals
          rcases he with rfl | rfl | rfl | rfl | rfl
          · cases hr
          all_goals exact cancel_total _ _ _ _ _ (.inr rfl) tuple
      rw [h1, tmem (by simp), tcu (by simp), tpo, htab (by simp [Rel.isTable]), h2]
      ring
    | poseidon2 =>
      have h1 : total (opEntries (padOps rows)) .poseidon2 tuple = 0 := by
        refine total_none _ fun e he hr _ => ?_
        obtain ⟨c, r, h1, -, h3⟩ := hall e he
        exact op_relations c r h1 e h3 (.inr hr)
      rw [h1, dtab (by simp) (by simp) (by simp), tmem (by simp), tcu (by simp), tmk (by simp), tpo, htab (by simp [Rel.isTable])]
      ring
    | rc8 =>
      rw [dtab (by simp) (by simp) (by simp), tmem (by simp), tcu (by simp), tmk (by simp), tpo, Trace.tableEntries,
        total_append, total_append, total_append, rtot .rc16 _ _ (by simp), rtot .rc20 _ _ (by simp), btot _ (by simp)]
      have := range_cancels (rel := .rc8) (bits := 8) (by norm_num) rfl (opEntries (padOps rows))
        (rc 8 rfl (fun e h1 h2 h3 => by have := h3 h2; rw [h1] at this; exact this) (by simp [Rel.isTable])) tuple
      simp only [zero_add, add_zero]
      exact this
    | rc16 =>
      rw [dtab (by simp) (by simp) (by simp), tmem (by simp), tcu (by simp), tmk (by simp), tpo, Trace.tableEntries,
        total_append, total_append, total_append, rtot .rc8 _ _ (by simp), rtot .rc20 _ _ (by simp), btot _ (by simp)]
      have := range_cancels (rel := .rc16) (bits := 16) (by norm_num) rfl (opEntries (padOps rows))
        (rc 16 rfl (fun e h1 h2 h3 => by have := h3 h2; rw [h1] at this; exact this) (by simp [Rel.isTable])) tuple
      simp only [zero_add, add_zero]
      exact this
    | rc20 =>
      rw [dtab (by simp) (by simp) (by simp), tmem (by simp), tcu (by simp), tmk (by simp), tpo, Trace.tableEntries,
        total_append, total_append, total_append, rtot .rc8 _ _ (by simp), rtot .rc16 _ _ (by simp), btot _ (by simp)]
      have := range_cancels (rel := .rc20) (bits := 20) (by norm_num) rfl (opEntries (padOps rows))
        (rc 20 rfl (fun e h1 h2 h3 => by have := h3 h2; rw [h1] at this; exact this) (by simp [Rel.isTable])) tuple
      simp only [zero_add, add_zero]
      exact this
    | bitwise =>
      rw [dtab (by simp) (by simp) (by simp), tmem (by simp), tcu (by simp), tmk (by simp), tpo, Trace.tableEntries,
        total_append, total_append, total_append, rtot .rc8 _ _ (by simp), rtot .rc16 _ _ (by simp), rtot .rc20 _ _ (by simp)]
      have := bitwise_cancels (opEntries (padOps rows)) (by
        intro e he hr hm0
        obtain ⟨c, r, -, h2, h3⟩ := hall e he
        have := h2 e h3 hm0
        rw [hr] at this
        exact this) tuple
      simp only [zero_add, add_zero]
      exact this

end Air
end CairoM
