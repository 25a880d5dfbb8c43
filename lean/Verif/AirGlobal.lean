import Verif.AirPath
import Verif.AirTables
import Verif.AirU32Props
import Verif.AirFeltProps

/-!
# From accepted traces to balanced records: helper lemmas
-/

namespace CairoM
namespace Air

open MemArg

/-! ### Lookups that count -/

/-- The entries of one relation with non-zero multiplicity, padded. -/
def live (es : List Entry) (rel : Rel) : List Entry :=
  (es.filter fun e => e.rel = rel ∧ e.mult ≠ 0).map Entry.padded

theorem live_append (a b : List Entry) (rel : Rel) : live (a ++ b) rel = live a rel ++ live b rel := by
  simp [live]

theorem live_flatMap {α : Type} (l : List α) (f : α → List Entry) (rel : Rel) :
    live (l.flatMap f) rel = l.flatMap fun a => live (f a) rel := by
  induction l with
  | nil => rfl
  | cons a l ih => rw [List.flatMap_cons, live_append, ih, List.flatMap_cons]

theorem live_eq_nil {es : List Entry} {rel : Rel} (h : ∀ e ∈ es, e.rel = rel → e.mult = 0) : live es rel = [] := by
  rw [live, List.map_eq_nil_iff, List.filter_eq_nil_iff]
  intro e he hp
  simp only [decide_eq_true_eq] at hp
  exact hp.2 (h e he hp.1)

theorem mem_live {es : List Entry} {rel : Rel} {e : Entry} :
    e ∈ live es rel ↔ ∃ e' ∈ es, e'.rel = rel ∧ e'.mult ≠ 0 ∧ e'.padded = e := by
  simp [live, and_assoc]

/-- The sum of the multiplicities of a tuple in a list of entries of one relation. -/
def sumOf (l : List Entry) (tuple : List M31) : M31 := ((l.filter fun e => e.tuple = tuple).map Entry.mult).sum

theorem total_live (es : List Entry) (rel : Rel) (tuple : List M31) : total es rel tuple = sumOf (live es rel) tuple := by
  induction es with
  | nil => rfl
  | cons e es ih =>
    have h1 : total (e :: es) rel tuple =
        (if e.rel = rel ∧ e.padded.tuple = tuple then e.mult else 0) + total es rel tuple := by
      rw [total, total, List.filter_cons]
      by_cases hp : e.rel = rel ∧ e.padded.tuple = tuple
      · simp [hp]
      · simp [hp]
    have h2 : sumOf (live (e :: es) rel) tuple =
        (if e.rel = rel ∧ e.padded.tuple = tuple then e.mult else 0) + sumOf (live es rel) tuple := by
      rw [sumOf, sumOf, live, live, List.filter_cons]
      by_cases hr : e.rel = rel
      · by_cases hm : e.mult = 0
        · simp [hr, hm]
        · by_cases ht : e.padded.tuple = tuple
          · have hmu : e.padded.mult = e.mult := rfl
            simp [hr, hm, ht, hmu]
          · simp [hr, hm, ht]
      · simp [hr]
    rw [h1, h2, ih]

theorem length_live (es : List Entry) (rel : Rel) : (live es rel).length ≤ es.length := by
  rw [live, List.length_map]; exact List.length_filter_le _ _

theorem cast_inj {a b : ℕ} (ha : a < P) (hb : b < P) (h : (a : M31) = (b : M31)) : a = b := by
  by_contra hne
  exact RegArg.cast_ne ha hb hne h

/-- Multiplicities `1` and `-1` that cancel: what is produced is what is consumed. -/
theorem perm_of_sum {l : List Entry} (h : ∀ e ∈ l, e.mult = 1 ∨ e.mult = -1) (hlen : l.length < P)
    (h0 : ∀ tuple, sumOf l tuple = 0) :
    ((l.filter fun e => e.mult = 1).map Entry.tuple).Perm ((l.filter fun e => e.mult = -1).map Entry.tuple) := by
  have hne : (1 : M31) ≠ -1 := by decide
  have key : ∀ (l : List Entry) (tuple : List M31), (∀ e ∈ l, e.mult = 1 ∨ e.mult = -1) → sumOf l tuple =
      (((l.filter fun e => e.mult = 1).map Entry.tuple).count tuple : M31) -
        (((l.filter fun e => e.mult = -1).map Entry.tuple).count tuple : M31) := by
    intro l tuple
    induction l with
    | nil => intro _; simp [sumOf]
    | cons e l ih =>
      intro h
      have ih := ih fun x hx => h x (List.mem_cons_of_mem _ hx)
      have hs : sumOf (e :: l) tuple = (if e.tuple = tuple then e.mult else 0) + sumOf l tuple := by
        rw [sumOf, sumOf, List.filter_cons]
        by_cases ht : e.tuple = tuple <;> simp [ht]
      rw [hs, ih]
      rcases h e List.mem_cons_self with he | he
      · by_cases ht : e.tuple = tuple
        · simp [he, ht, hne]; ring
        · simp [he, ht, hne]
      · by_cases ht : e.tuple = tuple
        · simp [he, ht, hne.symm]; ring
        · simp [he, ht, hne.symm]
  rw [List.perm_iff_count]
  intro tuple
  have hk := key l tuple h
  rw [h0 tuple] at hk
  have l1 : ((l.filter fun e => e.mult = 1).map Entry.tuple).count tuple ≤ l.length :=
    List.count_le_length.trans (by rw [List.length_map]; exact List.length_filter_le _ _)
  have l2 : ((l.filter fun e => e.mult = -1).map Entry.tuple).count tuple ≤ l.length :=
    List.count_le_length.trans (by rw [List.length_map]; exact List.length_filter_le _ _)
  exact cast_inj (by omega) (by omega) (sub_eq_zero.1 hk.symm)

/-! ### Memory records -/

/-- A record as a moment in time. -/
def Record.at (r : Record) : M31 × ℕ × QM31 := (r.addr, r.clock.val, r.value)

/-- The record with the given tuple. -/
def decode : List M31 → M31 × ℕ × QM31
  | [a, c, l0, l1, l2, l3] => (a, c.val, ⟨l0, l1, l2, l3⟩)
  | _ => (0, 0, ⟨0, 0, 0, 0⟩)

theorem decode_tuple (a c : M31) (v : QM31) : decode (a :: c :: v.limbs) = (a, c.val, v) := rfl

theorem padded_record (m : M31) (r : Record) : (r.entry m).padded = r.entry m := by
  simp [Record.entry, Entry.padded, Rel.arity, QM31.limbs]

theorem padded_access (clock : M31) (a : Access) : (a.entries clock).map Entry.padded = a.entries clock := by
  simp [Access.entries, Entry.padded, Rel.arity, QM31.limbs]

/-- The memory lookups of a list of timed accesses and of the two ends. -/
def records (accs : List (M31 × Access)) (ini fin : List Record) : List Entry :=
  accs.flatMap (fun a => a.2.entries a.1) ++ (ini.map (Record.entry 1) ++ fin.map (Record.entry (-1)))

theorem records_mult {accs : List (M31 × Access)} {ini fin : List Record} :
    ∀ e ∈ records accs ini fin, e.mult = 1 ∨ e.mult = -1 := by
  intro e he
  simp only [records, List.mem_append, List.mem_flatMap, List.mem_map, Access.entries, List.mem_cons, List.not_mem_nil,
    or_false] at he
  rcases he with ⟨a, _, rfl | rfl⟩ | ⟨r, _, rfl⟩ | ⟨r, _, rfl⟩
  · right; rfl
  · left; rfl
  · left; rfl
  · right; rfl

theorem records_plus (accs : List (M31 × Access)) (ini fin : List Record) :
    ((records accs ini fin).filter fun e => e.mult = 1).map (decode ∘ Entry.tuple) =
      (accs.map fun a => arc a.1 a.2).map Arc.emit ++ ini.map Record.at := by
  have hne : (-1 : M31) ≠ 1 := by decide
  have a1 : ∀ accs : List (M31 × Access), (List.filter (fun e : Entry => decide (e.mult = 1))
      (accs.flatMap fun a => a.2.entries a.1)).map (decode ∘ Entry.tuple) =
        (accs.map fun a => arc a.1 a.2).map Arc.emit := by
    intro accs
    induction accs with
    | nil => rfl
    | cons a l ih =>
      rw [List.flatMap_cons, List.filter_append, List.map_append, ih]
      simp [Access.entries, hne, decode_tuple, arc, Arc.emit]
  have a2 : (ini.map (Record.entry 1)).filter (fun e => e.mult = 1) = ini.map (Record.entry 1) :=
    List.filter_eq_self.2 (by simp [Record.entry])
  have a3 : (fin.map (Record.entry (-1))).filter (fun e => e.mult = 1) = [] :=
    List.filter_eq_nil_iff.2 (by simp [Record.entry, hne])
  rw [records, List.filter_append, List.filter_append, List.map_append, List.map_append, a1,
    a2, a3]
  simp [Function.comp_def, Record.entry, decode_tuple, Record.at]

theorem records_minus (accs : List (M31 × Access)) (ini fin : List Record) :
    ((records accs ini fin).filter fun e => e.mult = -1).map (decode ∘ Entry.tuple) =
      (accs.map fun a => arc a.1 a.2).map Arc.consume ++ fin.map Record.at := by
  have hne : (1 : M31) ≠ -1 := by decide
  have a1 : ∀ accs : List (M31 × Access), (List.filter (fun e : Entry => decide (e.mult = -1))
      (accs.flatMap fun a => a.2.entries a.1)).map (decode ∘ Entry.tuple) =
        (accs.map fun a => arc a.1 a.2).map Arc.consume := by
    intro accs
    induction accs with
    | nil => rfl
    | cons a l ih =>
      rw [List.flatMap_cons, List.filter_append, List.map_append, ih]
      simp [Access.entries, hne, decode_tuple, arc, Arc.consume]
  have a2 : (ini.map (Record.entry 1)).filter (fun e => e.mult = -1) = [] :=
    List.filter_eq_nil_iff.2 (by simp [Record.entry, hne])
  have a3 : (fin.map (Record.entry (-1))).filter (fun e => e.mult = -1) = fin.map (Record.entry (-1)) :=
    List.filter_eq_self.2 (by simp [Record.entry])
  rw [records, List.filter_append, List.filter_append, List.map_append, List.map_append, a1,
    a2, a3]
  simp [Function.comp_def, Record.entry, decode_tuple, Record.at]

theorem records_perm {accs : List (M31 × Access)} {ini fin : List Record}
    (hlen : (records accs ini fin).length < P) (h0 : ∀ tuple, sumOf (records accs ini fin) tuple = 0) :
    ((accs.map fun a => arc a.1 a.2).map Arc.emit ++ ini.map Record.at).Perm
      ((accs.map fun a => arc a.1 a.2).map Arc.consume ++ fin.map Record.at) := by
  have hp := (perm_of_sum records_mult hlen h0).map decode
  rwa [List.map_map, List.map_map, records_plus, records_minus] at hp

/-- Clocks that do not come near the field size: a difference that passes the range check is a difference in time. -/
theorem lt_of_range {c p : M31} (hc : 1 ≤ c.val) (hp : p.val ≤ P - 2 ^ 20) (h : (c - p - 1).val < 2 ^ 20) :
    p.val < c.val := by
  by_contra hle
  have hP : P = 2147483647 := rfl
  have hcl := ZMod.val_lt c
  have hpl := ZMod.val_lt p
  have h1 := val_sub_add (p + 1) c
  have e : c - (p + 1) = c - p - 1 := by ring
  rw [e] at h1
  have h2 : (p + 1).val = p.val + 1 := by
    rw [ZMod.val_add, show (1 : M31).val = 1 from rfl, Nat.mod_eq_of_lt (by omega)]
  rw [h2] at h1
  omega

/-- The balanced set of arcs given by balanced memory lookups. -/
theorem balanced_of {accs : List (M31 × Access)} {ini fin : List Record}
    (hlen : (records accs ini fin).length < P) (h0 : ∀ tuple, sumOf (records accs ini fin) tuple = 0)
    (hord : ∀ a ∈ accs, (a.1 - a.2.prevClock - 1).val < 2 ^ 20)
    (hwrap : ∀ a ∈ accs, 1 ≤ a.1.val ∧ a.1.val ≤ P - 2 ^ 20)
    (hone : (ini.map Record.addr).Nodup) (hzero : ∀ r ∈ ini, r.clock = 0) :
    Balanced (accs.map fun a => arc a.1 a.2) (ini.map Record.at) (fin.map Record.at) := by
  have hp := records_perm hlen h0
  refine ⟨hp, ?_, ?_, ?_⟩
  · intro b hb
    obtain ⟨a, ha, rfl⟩ := List.mem_map.1 hb
    refine lt_of_range (hwrap a ha).1 ?_ (hord a ha)
    have hm : (arc a.1 a.2).consume ∈ (accs.map fun a => arc a.1 a.2).map Arc.emit ++ ini.map Record.at :=
      hp.mem_iff.2 (List.mem_append_left _ (List.mem_map_of_mem hb))
    rcases List.mem_append.1 hm with h | h
    · obtain ⟨b, hb', he⟩ := List.mem_map.1 h
      obtain ⟨a', ha', rfl⟩ := List.mem_map.1 hb'
      simp only [Arc.emit, Arc.consume, arc, Prod.mk.injEq] at he
      rw [← he.2.1]
      exact (hwrap a' ha').2
    · obtain ⟨r, hr, he⟩ := List.mem_map.1 h
      simp only [Record.at, Arc.consume, arc, Prod.mk.injEq] at he
      rw [← he.2.1, hzero r hr, ZMod.val_zero]
      exact Nat.zero_le _
  · intro x
    rw [List.countP_map]
    have := List.nodup_iff_count_le_one.1 hone x
    rw [List.count, List.countP_map] at this
    refine le_trans (le_of_eq ?_) this
    congr 1
  · intro r hr
    obtain ⟨q, hq, rfl⟩ := List.mem_map.1 hr
    simp [Record.at, hzero q hq]

/-! ### Tables -/

theorem range_mem {rel : Rel} {bits : ℕ} {m : ℕ → M31} {e : Entry} (h : e ∈ rangeEntries rel bits m) :
    e.rel = rel ∧ ∃ i : ℕ, i < 2 ^ bits ∧ e.tuple = [(i : M31)] := by
  simp only [rangeEntries, rangeColumn, List.mem_map] at h
  obtain ⟨⟨v, j⟩, hv, rfl⟩ := h
  refine ⟨rfl, ?_⟩
  have := List.fst_mem_of_mem_zipIdx hv
  obtain ⟨i, hi, he⟩ := List.mem_map.1 this
  exact ⟨i, List.mem_range.1 hi, by rw [← he]⟩

/-- All lookups of an opcode row in the tables have multiplicity `-1` and full width. -/
def TableUse (ev : Eval) : Prop :=
  ∀ e ∈ ev.entries, e.rel = .rc8 ∨ e.rel = .rc16 ∨ e.rel = .rc20 ∨ e.rel = .bitwise →
    e.mult = -1 ∧ e.tuple.length = e.rel.arity

theorem AssertEqFpImm.tableUse (r : AssertEqFpImm.Row) : TableUse (AssertEqFpImm.evaluate r) := by
  simp [TableUse, AssertEqFpImm.evaluate, Rel.arity]

theorem CallAbsImm.tableUse (r : CallAbsImm.Row) : TableUse (CallAbsImm.evaluate r) := by
  simp [TableUse, CallAbsImm.evaluate, Rel.arity]

theorem JmpImm.tableUse (r : JmpImm.Row) : TableUse (JmpImm.evaluate r) := by
  simp [TableUse, JmpImm.evaluate, Rel.arity]

theorem JnzFpImm.tableUse (r : JnzFpImm.Row) : TableUse (JnzFpImm.evaluate r) := by
  simp [TableUse, JnzFpImm.evaluate, Rel.arity]

theorem Ret.tableUse (r : Ret.Row) : TableUse (Ret.evaluate r) := by
  simp [TableUse, Ret.evaluate, Rel.arity]

theorem StoreImm.tableUse (r : StoreImm.Row) : TableUse (StoreImm.evaluate r) := by
  simp [TableUse, StoreImm.evaluate, Rel.arity]

theorem StoreFpFp.tableUse (r : StoreFpFp.Row) : TableUse (StoreFpFp.evaluate r) := by
  simp [TableUse, StoreFpFp.evaluate, Rel.arity]

theorem StoreFpImm.tableUse (r : StoreFpImm.Row) : TableUse (StoreFpImm.evaluate r) := by
  simp [TableUse, StoreFpImm.evaluate, Rel.arity]

theorem DoubleDerefFpImm.tableUse (r : DoubleDerefFpImm.Row) : TableUse (DoubleDerefFpImm.evaluate r) := by
  simp [TableUse, DoubleDerefFpImm.evaluate, Rel.arity]

theorem DoubleDerefFpFp.tableUse (r : DoubleDerefFpFp.Row) : TableUse (DoubleDerefFpFp.evaluate r) := by
  simp [TableUse, DoubleDerefFpFp.evaluate, Rel.arity]

theorem StoreFramePointer.tableUse (r : StoreFramePointer.Row) : TableUse (StoreFramePointer.evaluate r) := by
  simp [TableUse, StoreFramePointer.evaluate, Rel.arity]

theorem U32StoreImm.tableUse (r : U32StoreImm.Row) : TableUse (U32StoreImm.evaluate r) := by
  simp [TableUse, U32StoreImm.evaluate, Rel.arity]

theorem U32StoreAddFpImm.tableUse (r : U32StoreAddFpImm.Row) : TableUse (U32StoreAddFpImm.evaluate r) := by
  simp [TableUse, U32StoreAddFpImm.evaluate, Rel.arity]

theorem U32StoreMulFpImm.tableUse (r : U32StoreMulFpImm.Row) : TableUse (U32StoreMulFpImm.evaluate r) := by
  simp [TableUse, U32StoreMulFpImm.evaluate, Rel.arity]

theorem U32StoreDivFpImm.tableUse (r : U32StoreDivFpImm.Row) : TableUse (U32StoreDivFpImm.evaluate r) := by
  simp [TableUse, U32StoreDivFpImm.evaluate, Rel.arity]

theorem U32StoreEqFpFp.tableUse (r : U32StoreEqFpFp.Row) : TableUse (U32StoreEqFpFp.evaluate r) := by
  simp [TableUse, U32StoreEqFpFp.evaluate, Rel.arity]

theorem U32StoreEqFpImm.tableUse (r : U32StoreEqFpImm.Row) : TableUse (U32StoreEqFpImm.evaluate r) := by
  simp [TableUse, U32StoreEqFpImm.evaluate, Rel.arity]

theorem U32StoreLtFpImm.tableUse (r : U32StoreLtFpImm.Row) : TableUse (U32StoreLtFpImm.evaluate r) := by
  simp [TableUse, U32StoreLtFpImm.evaluate, Rel.arity]

theorem U32StoreLtFpFp.tableUse (r : U32StoreLtFpFp.Row) : TableUse (U32StoreLtFpFp.evaluate r) := by
  simp [TableUse, U32StoreLtFpFp.evaluate, Rel.arity]

theorem U32StoreAddFpFp.tableUse (r : U32StoreAddFpFp.Row) : TableUse (U32StoreAddFpFp.evaluate r) := by
  simp [TableUse, U32StoreAddFpFp.evaluate, Rel.arity]

theorem U32StoreSubFpFp.tableUse (r : U32StoreSubFpFp.Row) : TableUse (U32StoreSubFpFp.evaluate r) := by
  simp [TableUse, U32StoreSubFpFp.evaluate, Rel.arity]

theorem U32StoreMulFpFp.tableUse (r : U32StoreMulFpFp.Row) : TableUse (U32StoreMulFpFp.evaluate r) := by
  simp [TableUse, U32StoreMulFpFp.evaluate, Rel.arity]

theorem U32StoreDivFpFp.tableUse (r : U32StoreDivFpFp.Row) : TableUse (U32StoreDivFpFp.evaluate r) := by
  simp [TableUse, U32StoreDivFpFp.evaluate, Rel.arity]

theorem U32StoreBitwiseFpFp.tableUse (r : U32StoreBitwiseFpFp.Row) : TableUse (U32StoreBitwiseFpFp.evaluate r) := by
  simp [TableUse, U32StoreBitwiseFpFp.evaluate, Rel.arity]

theorem U32StoreBitwiseFpImm.tableUse (r : U32StoreBitwiseFpImm.Row) : TableUse (U32StoreBitwiseFpImm.evaluate r) := by
  simp [TableUse, U32StoreBitwiseFpImm.evaluate, Rel.arity]

theorem StoreLeFpImm.tableUse (r : StoreLeFpImm.Row) : TableUse (StoreLeFpImm.evaluate r) := by
  simp [TableUse, StoreLeFpImm.evaluate, Rel.arity]

theorem tableUse (c : Comp) (r : c.Row) : TableUse (c.eval r) := by
  cases c with
  | assertEqFpImm => exact AssertEqFpImm.tableUse r
  | callAbsImm => exact CallAbsImm.tableUse r
  | jmpImm => exact JmpImm.tableUse r
  | jnzFpImm => exact JnzFpImm.tableUse r
  | ret => exact Ret.tableUse r
  | storeImm => exact StoreImm.tableUse r
  | storeFpFp => exact StoreFpFp.tableUse r
  | storeFpImm => exact StoreFpImm.tableUse r
  | doubleDerefFpImm => exact DoubleDerefFpImm.tableUse r
  | doubleDerefFpFp => exact DoubleDerefFpFp.tableUse r
  | storeFramePointer => exact StoreFramePointer.tableUse r
  | u32StoreImm => exact U32StoreImm.tableUse r
  | u32StoreAddFpImm => exact U32StoreAddFpImm.tableUse r
  | u32StoreMulFpImm => exact U32StoreMulFpImm.tableUse r
  | u32StoreDivFpImm => exact U32StoreDivFpImm.tableUse r
  | u32StoreEqFpFp => exact U32StoreEqFpFp.tableUse r
  | u32StoreEqFpImm => exact U32StoreEqFpImm.tableUse r
  | u32StoreLtFpImm => exact U32StoreLtFpImm.tableUse r
  | u32StoreLtFpFp => exact U32StoreLtFpFp.tableUse r
  | u32StoreAddFpFp => exact U32StoreAddFpFp.tableUse r
  | u32StoreSubFpFp => exact U32StoreSubFpFp.tableUse r
  | u32StoreMulFpFp => exact U32StoreMulFpFp.tableUse r
  | u32StoreDivFpFp => exact U32StoreDivFpFp.tableUse r
  | u32StoreBitwiseFpFp => exact U32StoreBitwiseFpFp.tableUse r
  | u32StoreBitwiseFpImm => exact U32StoreBitwiseFpImm.tableUse r
  | storeLeFpImm => exact StoreLeFpImm.tableUse r

/-- The enabler of an opcode row. -/
def Comp.enabler : (c : Comp) → c.Row → M31
  | .assertEqFpImm, r => AssertEqFpImm.Row.enabler r
  | .callAbsImm, r => CallAbsImm.Row.enabler r
  | .jmpImm, r => JmpImm.Row.enabler r
  | .jnzFpImm, r => JnzFpImm.Row.enabler r
  | .ret, r => Ret.Row.enabler r
  | .storeImm, r => StoreImm.Row.enabler r
  | .storeFpFp, r => StoreFpFp.Row.enabler r
  | .storeFpImm, r => StoreFpImm.Row.enabler r
  | .doubleDerefFpImm, r => DoubleDerefFpImm.Row.enabler r
  | .doubleDerefFpFp, r => DoubleDerefFpFp.Row.enabler r
  | .storeFramePointer, r => StoreFramePointer.Row.enabler r
  | .u32StoreImm, r => U32StoreImm.Row.enabler r
  | .u32StoreAddFpImm, r => U32StoreAddFpImm.Row.enabler r
  | .u32StoreMulFpImm, r => U32StoreMulFpImm.Row.enabler r
  | .u32StoreDivFpImm, r => U32StoreDivFpImm.Row.enabler r
  | .u32StoreEqFpFp, r => U32StoreEqFpFp.Row.enabler r
  | .u32StoreEqFpImm, r => U32StoreEqFpImm.Row.enabler r
  | .u32StoreLtFpImm, r => U32StoreLtFpImm.Row.enabler r
  | .u32StoreLtFpFp, r => U32StoreLtFpFp.Row.enabler r
  | .u32StoreAddFpFp, r => U32StoreAddFpFp.Row.enabler r
  | .u32StoreSubFpFp, r => U32StoreSubFpFp.Row.enabler r
  | .u32StoreMulFpFp, r => U32StoreMulFpFp.Row.enabler r
  | .u32StoreDivFpFp, r => U32StoreDivFpFp.Row.enabler r
  | .u32StoreBitwiseFpFp, r => U32StoreBitwiseFpFp.Row.enabler r
  | .u32StoreBitwiseFpImm, r => U32StoreBitwiseFpImm.Row.enabler r
  | .storeLeFpImm, r => StoreLeFpImm.Row.enabler r

theorem enabler_bit (c : Comp) (r : c.Row) (hs : (c.eval r).Satisfied) : c.enabler r = 0 ∨ c.enabler r = 1 := by
  cases c
  case u32StoreBitwiseFpFp =>
    have h := hs _ List.mem_cons_self
    exact bool_of (x := U32StoreBitwiseFpFp.Row.enabler r) (by linear_combination -h)
  case u32StoreBitwiseFpImm =>
    have h := hs _ List.mem_cons_self
    exact bool_of (x := U32StoreBitwiseFpImm.Row.enabler r) (by linear_combination -h)
  all_goals exact bool_of (hs _ List.mem_cons_self)

theorem inert_of (c : Comp) (r : c.Row) (h : c.enabler r = 0) : Inert (c.eval r) := by
  cases c with
  | assertEqFpImm => exact AssertEqFpImm.inert h
  | callAbsImm => exact CallAbsImm.inert h
  | jmpImm => exact JmpImm.inert h
  | jnzFpImm => exact JnzFpImm.inert h
  | ret => exact Ret.inert h
  | storeImm => exact StoreImm.inert h
  | storeFpFp => exact StoreFpFp.inert h
  | storeFpImm => exact StoreFpImm.inert h
  | doubleDerefFpImm => exact DoubleDerefFpImm.inert h
  | doubleDerefFpFp => exact DoubleDerefFpFp.inert h
  | storeFramePointer => exact StoreFramePointer.inert h
  | u32StoreImm => exact U32StoreImm.inert h
  | u32StoreAddFpImm => exact U32StoreAddFpImm.inert h
  | u32StoreMulFpImm => exact U32StoreMulFpImm.inert h
  | u32StoreDivFpImm => exact U32StoreDivFpImm.inert h
  | u32StoreEqFpFp => exact U32StoreEqFpFp.inert h
  | u32StoreEqFpImm => exact U32StoreEqFpImm.inert h
  | u32StoreLtFpImm => exact U32StoreLtFpImm.inert h
  | u32StoreLtFpFp => exact U32StoreLtFpFp.inert h
  | u32StoreAddFpFp => exact U32StoreAddFpFp.inert h
  | u32StoreSubFpFp => exact U32StoreSubFpFp.inert h
  | u32StoreMulFpFp => exact U32StoreMulFpFp.inert h
  | u32StoreDivFpFp => exact U32StoreDivFpFp.inert h
  | u32StoreBitwiseFpFp => exact U32StoreBitwiseFpFp.inert h
  | u32StoreBitwiseFpImm => exact U32StoreBitwiseFpImm.inert h
  | storeLeFpImm => exact StoreLeFpImm.inert h

/-- Every row satisfying its constraints and lookups is a step, outside the exceptions of `Comp.Regular`. -/
theorem sound_of (c : Comp) (r : c.Row) (hs : (c.eval r).Satisfied) (ht : (c.eval r).TablesHold) (hr : c.Regular r) :
    Sound (c.enabler r) (c.eval r) := by
  rcases enabler_bit c r hs with h | h
  · exact .inl ⟨h, inert_of c r h⟩
  cases c with
  | assertEqFpImm => exact AssertEqFpImm.C31_assert_eq r hs ht
  | callAbsImm => exact CallAbsImm.C31_call r hs ht
  | jmpImm => exact JmpImm.C31_jmp r hs ht
  | jnzFpImm => exact JnzFpImm.C31_jnz r hs ht
  | ret => exact Ret.C31_ret r hs ht
  | storeImm => exact StoreImm.C32_store_imm r hs ht
  | storeFpFp => exact StoreFpFp.C30_store_fp_fp_partial r hs ht (hr h)
  | storeFpImm => exact StoreFpImm.C30_store_fp_imm_partial r hs ht (hr h)
  | doubleDerefFpImm => exact DoubleDerefFpImm.C32_double_deref_fp_imm r hs ht
  | doubleDerefFpFp => exact DoubleDerefFpFp.C32_double_deref_fp_fp r hs ht
  | storeFramePointer => exact StoreFramePointer.C32_store_frame_pointer r hs ht
  | u32StoreImm => exact U32StoreImm.C32_u32_store_imm r hs ht
  | u32StoreAddFpImm => exact U32StoreAddFpImm.C33_add_fp_imm r hs ht
  | u32StoreMulFpImm => exact U32StoreMulFpImm.C34_mul_fp_imm r hs ht
  | u32StoreDivFpImm => exact U32StoreDivFpImm.C35_divrem_fp_imm r hs ht
  | u32StoreEqFpFp => exact U32StoreEqFpFp.C36_eq_fp_fp r hs ht
  | u32StoreEqFpImm => exact .inl ⟨hr, inert_of .u32StoreEqFpImm r hr⟩
  | u32StoreLtFpImm => exact U32StoreLtFpImm.C36_lt_fp_imm r hs ht
  | u32StoreLtFpFp => exact U32StoreLtFpFp.C36_lt_fp_fp r hs ht
  | u32StoreAddFpFp => exact U32StoreAddFpFp.C33_add_fp_fp r hs ht
  | u32StoreSubFpFp => exact U32StoreSubFpFp.C33_sub_fp_fp r hs ht
  | u32StoreMulFpFp => exact U32StoreMulFpFp.C34_mul_fp_fp_partial r hs ht (hr h)
  | u32StoreDivFpFp => exact U32StoreDivFpFp.C35_divrem_fp_fp_partial r hs ht (hr h)
  | u32StoreBitwiseFpFp => exact U32StoreBitwiseFpFp.C37_bitwise_fp_fp r hs ht
  | u32StoreBitwiseFpImm => exact U32StoreBitwiseFpImm.C37_bitwise_fp_imm r hs ht
  | storeLeFpImm => exact StoreLeFpImm.C38_store_le_partial r hs ht (hr h)

theorem sumOf_cons (e : Entry) (l : List Entry) (tuple : List M31) :
    sumOf (e :: l) tuple = (if e.tuple = tuple then e.mult else 0) + sumOf l tuple := by
  rw [sumOf, sumOf, List.filter_cons]
  by_cases ht : e.tuple = tuple <;> simp [ht]

theorem sumOf_append (a b : List Entry) (tuple : List M31) : sumOf (a ++ b) tuple = sumOf a tuple + sumOf b tuple := by
  simp [sumOf]

theorem sumOf_perm {a b : List Entry} (h : a.Perm b) (tuple : List M31) : sumOf a tuple = sumOf b tuple :=
  ((h.filter _).map _).sum_eq

/-- A tuple that is only ever looked up, and not in the table, is not looked up. -/
theorem not_mem_of_sum {l : List Entry} {tuple : List M31} (hneg : ∀ e ∈ l, e.tuple = tuple → e.mult = -1)
    (hlen : l.length < P) (h0 : sumOf l tuple = 0) : ∀ e ∈ l, e.tuple ≠ tuple := by
  have key : ∀ l : List Entry, (∀ e ∈ l, e.tuple = tuple → e.mult = -1) →
      sumOf l tuple = -((l.countP fun e => e.tuple = tuple : ℕ) : M31) := by
    intro l
    induction l with
    | nil => intro _; simp [sumOf]
    | cons e l ih =>
      intro h
      rw [sumOf_cons, ih fun x hx => h x (List.mem_cons_of_mem _ hx)]
      by_cases ht : e.tuple = tuple
      · rw [List.countP_cons_of_pos (by simpa using ht), if_pos ht, h e List.mem_cons_self ht]
        push_cast; ring
      · rw [List.countP_cons_of_neg (by simpa using ht), if_neg ht, zero_add]
  rw [key l hneg, neg_eq_zero] at h0
  have hc : l.countP (fun e => e.tuple = tuple) = 0 :=
    cast_inj (lt_of_le_of_lt List.countP_le_length hlen) (by decide) (by rw [h0]; norm_num)
  intro e he ht
  have := List.countP_eq_zero.1 hc e he
  simp [ht] at this

/-- The relations of the preprocessed tables. -/
def Rel.isTable (rel : Rel) : Prop := rel = .rc8 ∨ rel = .rc16 ∨ rel = .rc20 ∨ rel = .bitwise

/-- Who takes part in the table relations. -/
theorem table_source {c : Poseidon2.Consts} {d : PublicData} {t : Trace} {e : Entry}
    (he : e ∈ d.entries ++ t.entries c) (ht : e.rel.isTable) :
    (e.mult = -1 ∧ e.tuple.length = e.rel.arity) ∨ e ∈ t.tableEntries := by
  simp only [Rel.isTable] at ht
  simp only [Trace.entries, Trace.evals, List.mem_append, List.mem_flatMap, List.mem_map] at he
  rcases he with he | ⟨ev, (((((he | ⟨r, _, rfl⟩) | ⟨r, _, rfl⟩) | ⟨r, _, rfl⟩) | ⟨r, _, rfl⟩)), hm⟩ | he
  · exfalso
    simp only [PublicData.entries, PublicEntry.entries, List.mem_append, List.mem_flatMap, List.mem_cons,
      List.not_mem_nil, or_false] at he
    rcases he with ((((rfl | rfl | rfl | rfl) | ⟨p, _, h⟩) | ⟨p, _, h⟩) | ⟨p, _, h⟩) <;>
      first
      | simp at ht
      | (rcases h with rfl | rfl | rfl | rfl | rfl <;> simp at ht)
  · simp only [Trace.opEvals, List.mem_flatMap, List.mem_map] at he
    obtain ⟨c, _, r, _, rfl⟩ := he
    exact .inl (tableUse c r e hm ht)
  · exfalso
    simp only [MemoryBoundary.evaluate, List.mem_cons, List.not_mem_nil, or_false] at hm
    rcases hm with rfl | rfl | rfl | rfl | rfl <;> simp at ht
  · exfalso
    simp only [ClockUpdate.evaluate, List.mem_cons, List.not_mem_nil, or_false] at hm
    rcases hm with rfl | rfl <;> simp at ht
  · exfalso
    simp only [MerkleNode.evaluate, List.mem_cons, List.not_mem_nil, or_false] at hm
    rcases hm with rfl | rfl | rfl | rfl | rfl <;> simp at ht
  · exfalso
    simp only [Poseidon2.evaluate, List.mem_cons, List.not_mem_nil, or_false] at hm
    rcases hm with rfl | rfl <;> simp at ht
  · exact .inr he

theorem padded_full {e : Entry} (h : e.tuple.length = e.rel.arity) : e.padded = e := by
  obtain ⟨rel, m, tuple⟩ := e
  simp only at h
  simp [Entry.padded, h]

theorem table_range {t : Trace} {e : Entry} (he : e ∈ t.tableEntries) :
    (e.rel = .rc8 → ∃ i : ℕ, i < 2 ^ 8 ∧ e.tuple = [(i : M31)]) ∧
    (e.rel = .rc16 → ∃ i : ℕ, i < 2 ^ 16 ∧ e.tuple = [(i : M31)]) ∧
    (e.rel = .rc20 → ∃ i : ℕ, i < 2 ^ 20 ∧ e.tuple = [(i : M31)]) ∧
    (e.rel = .bitwise → ∃ i < 2 ^ 18, bitwiseRow i = e.tuple) := by
  simp only [Trace.tableEntries, List.mem_append] at he
  rcases he with ((he | he) | he) | he
  · obtain ⟨h1, h2⟩ := range_mem he
    simpa [h1] using h2
  · obtain ⟨h1, h2⟩ := range_mem he
    simpa [h1] using h2
  · obtain ⟨h1, h2⟩ := range_mem he
    simpa [h1] using h2
  · simp only [bitwiseEntries, List.mem_map, List.mem_range] at he
    obtain ⟨i, hi, rfl⟩ := he
    simp only [reduceCtorEq, false_implies, true_and, forall_const]
    exact ⟨i, hi, rfl⟩

/-- Balanced lookups: every tuple an opcode row looks up in a table is in the table. -/
theorem looked_up {c : Poseidon2.Consts} {d : PublicData} {t : Trace} (hb : LookupsBalance (d.entries ++ t.entries c))
    (hlen : (d.entries ++ t.entries c).length < P) {e : Entry} (he : e ∈ d.entries ++ t.entries c)
    (ht : e.rel.isTable) (hm : e.mult ≠ 0) : ∃ e' ∈ t.tableEntries, e'.rel = e.rel ∧ e'.padded.tuple = e.padded.tuple := by
  by_contra hne
  push Not at hne
  have h0 := hb e.rel e.padded.tuple
  rw [total_live] at h0
  refine not_mem_of_sum ?_ (lt_of_le_of_lt (length_live _ _) hlen) h0 e.padded
    (mem_live.2 ⟨e, he, rfl, hm, rfl⟩) rfl
  intro x hx htx
  obtain ⟨y, hy, hyr, -, rfl⟩ := mem_live.1 hx
  rcases table_source hy (by rw [hyr]; exact ht) with h | h
  · exact h.1
  · exact absurd htx (hne y h hyr)

theorem tablesHold_of {c : Poseidon2.Consts} {d : PublicData} {t : Trace}
    (hb : LookupsBalance (d.entries ++ t.entries c)) (hlen : (d.entries ++ t.entries c).length < P) {ev : Eval}
    (hev : ev ∈ t.opEvals) : ev.TablesHold := by
  intro e he hm
  have hmem : e ∈ d.entries ++ t.entries c := by
    simp only [Trace.entries, Trace.evals, List.mem_append, List.mem_flatMap]
    exact .inr (.inl ⟨ev, .inl (.inl (.inl (.inl hev))), he⟩)
  have hP : P = 2147483647 := rfl
  simp only [Trace.opEvals, List.mem_flatMap, List.mem_map] at hev
  obtain ⟨k, _, r, _, rfl⟩ := hev
  have range : ∀ n : ℕ, 2 ^ n < P → e.rel.isTable → e.rel.arity = 1 →
      (∀ e' ∈ t.tableEntries, e'.rel = e.rel → ∃ i : ℕ, i < 2 ^ n ∧ e'.tuple = [(i : M31)]) →
      ∀ v ∈ e.tuple, v.val < 2 ^ n := by
    intro n hn ht ha hr v hv
    have hw := (tableUse k r e he ht).2
    obtain ⟨e', he', hr', hp⟩ := looked_up hb hlen hmem ht hm
    obtain ⟨i, hi, hte⟩ := hr e' he' hr'
    rw [padded_full hw, padded_full (by rw [hte, hr', ha]; rfl), hte] at hp
    rw [← hp, List.mem_singleton] at hv
    rw [hv, ZMod.val_natCast_of_lt (lt_trans hi hn)]
    exact hi
  split
  · next h =>
    exact range 8 (by norm_num [hP]) (by simp [Rel.isTable, h]) (by rw [h]; rfl)
      fun e' he' hr => (table_range he').1 (hr.trans h)
  · next h =>
    exact range 16 (by norm_num [hP]) (by simp [Rel.isTable, h]) (by rw [h]; rfl)
      fun e' he' hr => (table_range he').2.1 (hr.trans h)
  · next h =>
    exact range 20 (by norm_num [hP]) (by simp [Rel.isTable, h]) (by rw [h]; rfl)
      fun e' he' hr => (table_range he').2.2.1 (hr.trans h)
  · next h =>
    obtain ⟨e', he', hr', hp⟩ := looked_up hb hlen hmem (by simp [Rel.isTable, h]) hm
    obtain ⟨i, hi, hrow⟩ := (table_range he').2.2.2 (hr'.trans h)
    obtain ⟨op, a, b, h1, h2, h3, h4⟩ := (C58_bitwise_table _).1 ⟨i, hi, hrow⟩
    refine ⟨op, a, b, h1, h2, h3, ?_⟩
    rw [← hp, padded_full (by rw [h4, hr', h]; rfl), h4]
    rfl
  · trivial

/-! ### The steps of a trace -/

/-- The register lookups of a step. -/
def OpStep.regs (s : OpStep) : List Entry :=
  [⟨.registers, -1, [s.pc, s.fp, s.clock]⟩, ⟨.registers, 1, [s.pc', s.fp', s.clock + 1]⟩]

/-- The memory lookups of a step. -/
def OpStep.mems (s : OpStep) : List Entry := s.accs.flatMap (Access.entries s.clock)

theorem live_of {ev : Eval} {rel : Rel} (h : ∀ e ∈ ev.of rel, e.mult ≠ 0) : live ev.entries rel = ev.of rel := by
  rw [live, Eval.of]
  congr 1
  apply List.filter_congr
  intro e he
  by_cases hr : e.rel = rel
  · have := h e.padded (List.mem_map_of_mem (List.mem_filter.2 ⟨he, by simpa using hr⟩))
    have hm : e.mult ≠ 0 := this
    simp [hr, hm]
  · simp [hr]

theorem steps_of (evs : List Eval) (h : ∀ ev ∈ evs, ∃ en, Sound en ev) : ∃ steps : List OpStep,
    live (evs.flatMap Eval.entries) .memory = steps.flatMap OpStep.mems ∧
    live (evs.flatMap Eval.entries) .registers = steps.flatMap OpStep.regs ∧
    (∀ s ∈ steps, Ordered s.clock s.accs ∧ Executes s.pc s.fp s.pc' s.fp' s.accs) ∧ steps.length ≤ evs.length := by
  induction evs with
  | nil => exact ⟨[], rfl, rfl, by simp, le_refl _⟩
  | cons ev evs ih =>
    obtain ⟨steps, h1, h2, h3, h4⟩ := ih fun x hx => h x (List.mem_cons_of_mem _ hx)
    obtain ⟨en, hs⟩ := h ev List.mem_cons_self
    rcases hs with ⟨-, hi⟩ | ⟨-, pc, fp, clock, pc', fp', accs, hp, ho, hx⟩
    · refine ⟨steps, ?_, ?_, h3, by simp; omega⟩
      · rw [List.flatMap_cons, live_append, live_eq_nil fun e he hr => hi e he (.inl hr), h1]; rfl
      · rw [List.flatMap_cons, live_append, live_eq_nil fun e he hr => hi e he (.inr (.inl hr)), h2]; rfl
    · refine ⟨⟨pc, fp, clock, pc', fp', accs⟩ :: steps, ?_, ?_, ?_, by simp; omega⟩
      · rw [List.flatMap_cons, live_append, live_of, hp.memory, h1]
        · rfl
        · rw [hp.memory]
          intro e he
          obtain ⟨a, -, ha⟩ := List.mem_flatMap.1 he
          simp only [Access.entries, List.mem_cons, List.not_mem_nil, or_false] at ha
          rcases ha with rfl | rfl
          · exact neg_one_ne
          · exact one_ne_zero
      · rw [List.flatMap_cons, live_append, live_of, hp.registers, h2]
        · rfl
        · rw [hp.registers]
          intro e he
          simp only [List.mem_cons, List.not_mem_nil, or_false] at he
          rcases he with rfl | rfl
          · exact neg_one_ne
          · exact one_ne_zero
      · intro s hs
        rcases List.mem_cons.1 hs with rfl | hs
        · exact ⟨ho, hx⟩
        · exact h3 s hs

/-- The accesses of the enabled clock-update rows. -/
def updates (rows : List ClockUpdate.Row) : List (M31 × Access) :=
  (rows.filter fun r => r.enabler = 1).map fun r =>
    (r.prev_clk + ClockUpdate.RC20_LIMIT,
      ⟨r.address, r.prev_clk, ⟨r.value0, r.value1, r.value2, r.value3⟩, ⟨r.value0, r.value1, r.value2, r.value3⟩⟩)

theorem live_updates (rows : List ClockUpdate.Row) (h : ∀ r ∈ rows, (ClockUpdate.evaluate r).Satisfied) :
    live (rows.flatMap fun r => (ClockUpdate.evaluate r).entries) .memory =
      (updates rows).flatMap fun a => a.2.entries a.1 := by
  induction rows with
  | nil => rfl
  | cons r rows ih =>
    rw [List.flatMap_cons, live_append, ih fun x hx => h x (List.mem_cons_of_mem _ hx)]
    have hb := bool_of (h r List.mem_cons_self _ List.mem_cons_self)
    rcases hb with hb | hb
    · have : live (ClockUpdate.evaluate r).entries .memory = [] := live_eq_nil (by simp [ClockUpdate.evaluate, hb])
      rw [this]
      simp [updates, hb]
    · have : live (ClockUpdate.evaluate r).entries .memory =
          [⟨.memory, -1, [r.address, r.prev_clk, r.value0, r.value1, r.value2, r.value3]⟩,
            ⟨.memory, 1, [r.address, r.prev_clk + ClockUpdate.RC20_LIMIT, r.value0, r.value1, r.value2, r.value3]⟩] := by
        simp [live, ClockUpdate.evaluate, hb, Entry.padded, Rel.arity]
      rw [this]
      simp [updates, hb, Access.entries, QM31.limbs]

theorem live_records (accs : List (M31 × Access)) (ini fin : List Record) :
    live (records accs ini fin) .memory = records accs ini fin := by
  have h : ∀ e ∈ records accs ini fin, e.rel = .memory ∧ e.padded = e := by
    intro e he
    simp only [records, List.mem_append, List.mem_flatMap, List.mem_map, Access.entries, List.mem_cons, List.not_mem_nil,
      or_false] at he
    rcases he with ⟨a, _, rfl | rfl⟩ | ⟨r, _, rfl⟩ | ⟨r, _, rfl⟩ <;>
      exact ⟨rfl, padded_full (by simp [Record.entry, QM31.limbs, Rel.arity])⟩
  have hm : ∀ e ∈ records accs ini fin, e.mult ≠ 0 := by
    intro e he
    rcases records_mult e he with h | h <;> rw [h]
    · exact one_ne_zero
    · exact neg_one_ne
  rw [live, List.filter_eq_self.2 fun e he => by simpa using ⟨(h e he).1, hm e he⟩]
  calc (records accs ini fin).map Entry.padded = (records accs ini fin).map id := List.map_congr_left fun e he => (h e he).2
    _ = _ := List.map_id _

theorem length_records (accs : List (M31 × Access)) (ini fin : List Record) :
    (records accs ini fin).length = 2 * accs.length + ini.length + fin.length := by
  have : ∀ l : List (M31 × Access), (l.flatMap fun a => a.2.entries a.1).length = 2 * l.length := by
    intro l
    simp [List.length_flatMap, Access.entries, Nat.mul_comm]
  simp only [records, List.length_append, List.length_map, this]
  omega

/-- The accesses of the steps. -/
def timed (steps : List OpStep) : List (M31 × Access) := steps.flatMap fun s => s.accs.map fun a => (s.clock, a)

theorem timed_arcs (steps : List OpStep) : (timed steps).map (fun a => arc a.1 a.2) = steps.flatMap OpStep.arcs := by
  rw [timed, List.map_flatMap]
  congr 1
  funext s
  simp [OpStep.arcs]

theorem timed_entries (steps : List OpStep) :
    (timed steps).flatMap (fun a => a.2.entries a.1) = steps.flatMap OpStep.mems := by
  rw [timed, List.flatMap_assoc]
  congr 1
  funext s
  simp [OpStep.mems, List.flatMap_map]

/-- The memory lookups of a whole trace, reordered. -/
theorem memory_records {c : Poseidon2.Consts} {d : PublicData} {t : Trace} {ini fin : List Record} {steps : List OpStep}
    (hs : ∀ r ∈ t.clockUpdate, (ClockUpdate.evaluate r).Satisfied) (hb : HonestBoundary d t ini fin)
    (h1 : live (t.opEvals.flatMap Eval.entries) .memory = steps.flatMap OpStep.mems) :
    (live (d.entries ++ t.entries c) .memory).Perm (records (timed steps ++ updates t.clockUpdate) ini fin) := by
  have hbd : (live (d.entries ++ t.memory.flatMap fun r => (MemoryBoundary.evaluate r).entries) .memory).Perm
      (ini.map (Record.entry 1) ++ fin.map (Record.entry (-1))) := by
    have := hb.entries.map Entry.padded
    rw [List.map_append, List.map_map, List.map_map] at this
    have e1 : Entry.padded ∘ Record.entry 1 = Record.entry 1 := funext fun r => padded_record 1 r
    have e2 : Entry.padded ∘ Record.entry (-1) = Record.entry (-1) := funext fun r => padded_record (-1) r
    rw [e1, e2] at this
    exact this
  rw [live_append] at hbd
  have hmk : live (t.merkle.flatMap fun r => (MerkleNode.evaluate r).entries) .memory = [] :=
    live_eq_nil (by
      intro e he hr
      obtain ⟨r, -, he⟩ := List.mem_flatMap.1 he
      simp only [MerkleNode.evaluate, List.mem_cons, List.not_mem_nil, or_false] at he
      rcases he with rfl | rfl | rfl | rfl | rfl <;> simp at hr)
  have hpo : live (t.poseidon2.flatMap fun r => (Poseidon2.evaluate c r).entries) .memory = [] :=
    live_eq_nil (by
      intro e he hr
      obtain ⟨r, -, he⟩ := List.mem_flatMap.1 he
      simp only [Poseidon2.evaluate, List.mem_cons, List.not_mem_nil, or_false] at he
      rcases he with rfl | rfl <;> simp at hr)
  have htb : live t.tableEntries .memory = [] :=
    live_eq_nil (by
      intro e he hr
      simp only [Trace.tableEntries, List.mem_append] at he
      rcases he with ((he | he) | he) | he
      · rw [(range_mem he).1] at hr; simp at hr
      · rw [(range_mem he).1] at hr; simp at hr
      · rw [(range_mem he).1] at hr; simp at hr
      · simp only [bitwiseEntries, List.mem_map] at he
        obtain ⟨i, -, rfl⟩ := he
        simp at hr)
  have hfm : ∀ {α : Type} (l : List α) (f : α → Eval), (l.map f).flatMap Eval.entries = l.flatMap fun a => (f a).entries :=
    fun l f => by rw [List.flatMap_map]
  simp only [Trace.entries, Trace.evals, List.flatMap_append, hfm, live_append, hmk, hpo, htb, h1, live_updates _ hs,
    List.append_nil]
  rw [records, List.flatMap_append, timed_entries]
  generalize live d.entries .memory = D at hbd ⊢
  generalize live (t.memory.flatMap fun r => (MemoryBoundary.evaluate r).entries) .memory = M at hbd ⊢
  generalize steps.flatMap OpStep.mems = S
  generalize List.flatMap (fun a : M31 × Access => Access.entries a.1 a.2) (updates t.clockUpdate) = U
  have p1 : (D ++ (S ++ M ++ U)).Perm (S ++ U ++ (D ++ M)) := by
    rw [List.perm_iff_count]
    intro e
    simp only [List.count_append]
    omega
  exact p1.trans (hbd.append_left _)

/-- The register transitions of a whole trace. -/
theorem registers_perm {c : Poseidon2.Consts} {d : PublicData} {t : Trace} {steps : List OpStep}
    (h2 : live (t.opEvals.flatMap Eval.entries) .registers = steps.flatMap OpStep.regs)
    (hb : LookupsBalance (d.entries ++ t.entries c)) (hlen : (d.entries ++ t.entries c).length < P) :
    ((steps.map OpStep.trans).map RegArg.Trans.emit ++ [((d.initialPc, d.initialFp), 1)]).Perm
      ((steps.map OpStep.trans).map RegArg.Trans.consume ++ [((d.finalPc, d.finalFp), d.clock + 1)]) := by
  have hne : (1 : M31) ≠ -1 := by decide
  have hd : live d.entries .registers = [⟨.registers, 1, [d.initialPc, d.initialFp, 1]⟩,
      ⟨.registers, -1, [d.finalPc, d.finalFp, d.clock + 1]⟩] := by
    have hp : ∀ (m r : M31) (l : List PublicEntry), live (l.flatMap (PublicEntry.entries m r)) .registers = [] := by
      intro m r l
      refine live_eq_nil ?_
      intro e he hr
      obtain ⟨p, -, he⟩ := List.mem_flatMap.1 he
      simp only [PublicEntry.entries, List.mem_cons, List.not_mem_nil, or_false] at he
      rcases he with rfl | rfl | rfl | rfl | rfl <;> simp at hr
    simp only [PublicData.entries, live_append, hp, List.append_nil]
    simp [live, Entry.padded, Rel.arity]
  have hmm : live (t.memory.flatMap fun r => (MemoryBoundary.evaluate r).entries) .registers = [] :=
    live_eq_nil (by
      intro e he hr
      obtain ⟨r, -, he⟩ := List.mem_flatMap.1 he
      simp only [MemoryBoundary.evaluate, List.mem_cons, List.not_mem_nil, or_false] at he
      rcases he with rfl | rfl | rfl | rfl | rfl <;> simp at hr)
  have hcu : live (t.clockUpdate.flatMap fun r => (ClockUpdate.evaluate r).entries) .registers = [] :=
    live_eq_nil (by
      intro e he hr
      obtain ⟨r, -, he⟩ := List.mem_flatMap.1 he
      simp only [ClockUpdate.evaluate, List.mem_cons, List.not_mem_nil, or_false] at he
      rcases he with rfl | rfl <;> simp at hr)
  have hmk : live (t.merkle.flatMap fun r => (MerkleNode.evaluate r).entries) .registers = [] :=
    live_eq_nil (by
      intro e he hr
      obtain ⟨r, -, he⟩ := List.mem_flatMap.1 he
      simp only [MerkleNode.evaluate, List.mem_cons, List.not_mem_nil, or_false] at he
      rcases he with rfl | rfl | rfl | rfl | rfl <;> simp at hr)
  have hpo : live (t.poseidon2.flatMap fun r => (Poseidon2.evaluate c r).entries) .registers = [] :=
    live_eq_nil (by
      intro e he hr
      obtain ⟨r, -, he⟩ := List.mem_flatMap.1 he
      simp only [Poseidon2.evaluate, List.mem_cons, List.not_mem_nil, or_false] at he
      rcases he with rfl | rfl <;> simp at hr)
  have htb : live t.tableEntries .registers = [] :=
    live_eq_nil (by
      intro e he hr
      simp only [Trace.tableEntries, List.mem_append] at he
      rcases he with ((he | he) | he) | he
      · rw [(range_mem he).1] at hr; simp at hr
      · rw [(range_mem he).1] at hr; simp at hr
      · rw [(range_mem he).1] at hr; simp at hr
      · simp only [bitwiseEntries, List.mem_map] at he
        obtain ⟨i, -, rfl⟩ := he
        simp at hr)
  have hfm : ∀ {α : Type} (l : List α) (f : α → Eval), (l.map f).flatMap Eval.entries = l.flatMap fun a => (f a).entries :=
    fun l f => by rw [List.flatMap_map]
  have hall : live (d.entries ++ t.entries c) .registers =
      [⟨.registers, 1, [d.initialPc, d.initialFp, 1]⟩, ⟨.registers, -1, [d.finalPc, d.finalFp, d.clock + 1]⟩] ++
        steps.flatMap OpStep.regs := by
    simp only [Trace.entries, Trace.evals, List.flatMap_append, hfm, live_append, hmk, hpo, htb, hmm, hcu, h2, hd,
      List.append_nil]
  have hmult : ∀ e ∈ live (d.entries ++ t.entries c) .registers, e.mult = 1 ∨ e.mult = -1 := by
    rw [hall]
    intro e he
    simp only [List.mem_append, List.mem_flatMap, OpStep.regs, List.mem_cons, List.not_mem_nil, or_false] at he
    rcases he with (rfl | rfl) | ⟨s, -, rfl | rfl⟩ <;> simp
  have hp := perm_of_sum hmult (lt_of_le_of_lt (length_live _ _) hlen)
    fun tuple => by rw [← total_live]; exact hb _ _
  rw [hall] at hp
  have hp := hp.map (fun l : List M31 => ((l.getD 0 0, l.getD 1 0), l.getD 2 0))
  have f1 : ∀ l : List OpStep, ((l.flatMap OpStep.regs).filter fun e => e.mult = 1).map
      ((fun l : List M31 => ((l.getD 0 0, l.getD 1 0), l.getD 2 0)) ∘ Entry.tuple) =
        (l.map OpStep.trans).map RegArg.Trans.emit := by
    intro l
    induction l with
    | nil => rfl
    | cons s l ih =>
      rw [List.flatMap_cons, List.filter_append, List.map_append, ih]
      simp [OpStep.regs, hne.symm, OpStep.trans, RegArg.Trans.emit]
  have f2 : ∀ l : List OpStep, ((l.flatMap OpStep.regs).filter fun e => e.mult = -1).map
      ((fun l : List M31 => ((l.getD 0 0, l.getD 1 0), l.getD 2 0)) ∘ Entry.tuple) =
        (l.map OpStep.trans).map RegArg.Trans.consume := by
    intro l
    induction l with
    | nil => rfl
    | cons s l ih =>
      rw [List.flatMap_cons, List.filter_append, List.map_append, ih]
      simp [OpStep.regs, hne, OpStep.trans, RegArg.Trans.consume]
  rw [List.map_map, List.map_map, List.filter_append, List.filter_append, List.map_append, List.map_append, f1, f2] at hp
  simp only [hne, hne.symm, List.filter_cons, decide_true, decide_false, List.filter_nil, if_true, if_false,
    Bool.false_eq_true, List.map_cons, List.map_nil, Function.comp_apply, List.getD_cons_zero, List.getD_cons_succ] at hp
  exact (List.perm_append_comm.trans hp).trans List.perm_append_comm

end Air
end CairoM
