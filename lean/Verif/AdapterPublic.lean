import Verif.AdapterLemmas

/-!
# Lemmas about the multiplicities of public cells and about clock differences
-/

namespace CairoM

open Abi

namespace Adapter

/-! ### Public cells -/

/-- Keys without repetition in both maps. -/
structure KeysNodup (m : PMemory) : Prop where
  initial : (m.initial.map Prod.fst).Nodup
  final : (m.final.map Prod.fst).Nodup

theorem get_setMult (m : CellMap) (a b : M31) (k : M31) :
    (m.setMult a k).get b = if b = a then (m.get a).map fun c => { c with mult := k } else m.get b := by
  unfold CellMap.setMult
  cases h : m.get a with
  | none =>
    simp only
    split_ifs with hb
    · rw [hb, h]; rfl
    · rfl
  | some c =>
    simp only
    rw [get_insert]
    rfl

theorem nodup_setMult {m : CellMap} (h : (m.map Prod.fst).Nodup) (a : M31) (k : M31) :
    ((m.setMult a k).map Prod.fst).Nodup := by
  unfold CellMap.setMult
  cases m.get a with
  | none => exact h
  | some c => exact nodup_insert h _ _

theorem get_publicInput_final (m : PMemory) (a b : M31) : (m.publicInput a).final.get b =
    if b = a then (m.final.get a).map fun c => if c.mult = 0 then { c with mult := -1 } else c else m.final.get b := by
  unfold PMemory.publicInput
  cases h : m.final.get a with
  | none =>
    simp only
    split_ifs with hb
    · rw [hb, h]; rfl
    · rfl
  | some c =>
    simp only
    by_cases hc : c.mult = 0
    · rw [if_pos hc, get_insert]
      by_cases hb : b = a
      · rw [if_pos hb, if_pos hb]; simp [hc]
      · rw [if_neg hb, if_neg hb]
    · rw [if_neg hc]
      by_cases hb : b = a
      · rw [if_pos hb, hb, h]; simp [hc]
      · rw [if_neg hb]

theorem get_publicInput_initial (m : PMemory) (a b : M31) : (m.publicInput a).initial.get b =
    if b = a then (m.initial.get a).map fun c => { c with mult := 0 } else m.initial.get b :=
  get_setMult _ _ _ _

theorem KeysNodup.publicInput {m : PMemory} (h : KeysNodup m) (a : M31) : KeysNodup (m.publicInput a) := by
  refine ⟨nodup_setMult h.initial _ _, ?_⟩
  unfold PMemory.publicInput
  simp only
  cases m.final.get a with
  | none => exact h.final
  | some c =>
    simp only
    split_ifs
    · exact nodup_insert h.final _ _
    · exact h.final

theorem KeysNodup.publicOutput {m : PMemory} (h : KeysNodup m) (a : M31) : KeysNodup (m.publicOutput a) :=
  ⟨nodup_setMult h.initial _ _, nodup_setMult h.final _ _⟩

/-- The public record of an address. -/
def pub (m : CellMap) (a : M31) : List Rec := ((m.get a).map (Cell.rec' a)).toList

theorem setMult_count {m : CellMap} (hn : (m.map Prod.fst).Nodup) {a : M31} {c : Cell} (h : m.get a = some c)
    (k j : M31) (r : Rec) : (records j (m.setMult a k)).count r + (if c.mult = j then [c.rec' a] else []).count r =
      (records j m).count r + (if k = j then [c.rec' a] else []).count r := by
  unfold CellMap.setMult
  rw [h]
  simp only
  rw [records_insert, List.count_append, records_some hn h]
  simp only [Cell.rec']
  omega

theorem publicInput_count {m : PMemory} (hn : KeysNodup m) {a : M31} (hp : Paired (m.initial.get a) (m.final.get a))
    (r : Rec) : (records 1 (m.publicInput a).initial).count r + (pub m.initial a).count r +
        (records (-1) m.final).count r =
      (records (-1) (m.publicInput a).final).count r + (records 1 m.initial).count r := by
  unfold pub
  cases hp with
  | absent hi hf =>
    have h1 : (m.publicInput a).initial = m.initial := by
      simp [PMemory.publicInput, CellMap.setMult, hi]
    have h2 : (m.publicInput a).final = m.final := by simp [PMemory.publicInput, hf]
    rw [h1, h2, hi]
    simp
    omega
  | untouched v hi hf =>
    have h1 := setMult_count hn.initial hi 0 1 r
    have h2 : (m.publicInput a).final = m.final.setMult a (-1) := by
      simp [PMemory.publicInput, CellMap.setMult, hf]
    have h3 := setMult_count hn.final hf (-1) (-1) r
    rw [h2, hi]
    show (records 1 (m.initial.setMult a 0)).count r + _ + _ = _
    rw [if_neg zero_ne_one'] at h1
    rw [if_pos rfl, if_neg zero_ne_neg] at h3
    simp only [Option.map_some, Option.toList_some, Cell.rec', List.count_nil] at h1 h3 ⊢
    omega
  | accessed o v c hi hf =>
    have h1 := setMult_count hn.initial hi 0 1 r
    have h2 : (m.publicInput a).final = m.final := by
      simp [PMemory.publicInput, hf]
    rw [h2, hi]
    show (records 1 (m.initial.setMult a 0)).count r + _ + _ = _
    rw [if_pos rfl, if_neg zero_ne_one'] at h1
    simp only [Option.map_some, Option.toList_some, Cell.rec', List.count_nil] at h1 ⊢
    omega

theorem publicOutput_count {m : PMemory} (hn : KeysNodup m) {a : M31} (hp : Paired (m.initial.get a) (m.final.get a))
    (r : Rec) : (records 1 (m.publicOutput a).initial).count r + (records (-1) m.final).count r =
      (records (-1) (m.publicOutput a).final).count r + (pub m.final a).count r + (records 1 m.initial).count r := by
  unfold pub
  cases hp with
  | absent hi hf =>
    have h1 : (m.publicOutput a).initial = m.initial := by simp [PMemory.publicOutput, CellMap.setMult, hi]
    have h2 : (m.publicOutput a).final = m.final := by simp [PMemory.publicOutput, CellMap.setMult, hf]
    rw [h1, h2, hf]
    simp
    omega
  | untouched v hi hf =>
    have h1 := setMult_count hn.initial hi 1 1 r
    have h3 := setMult_count hn.final hf 0 (-1) r
    rw [hf]
    show (records 1 (m.initial.setMult a 1)).count r + _ = (records (-1) (m.final.setMult a 0)).count r + _ + _
    rw [if_neg zero_ne_one', if_pos rfl] at h1
    rw [if_neg zero_ne_neg] at h3
    simp only [Option.map_some, Option.toList_some, Cell.rec', List.count_nil] at h1 h3 ⊢
    omega
  | accessed o v c hi hf =>
    have h1 := setMult_count hn.initial hi 1 1 r
    have h3 := setMult_count hn.final hf 0 (-1) r
    rw [hf]
    show (records 1 (m.initial.setMult a 1)).count r + _ = (records (-1) (m.final.setMult a 0)).count r + _ + _
    rw [if_pos rfl] at h1
    rw [if_neg zero_ne_neg, if_pos rfl] at h3
    simp only [Option.map_some, Option.toList_some, Cell.rec', List.count_nil] at h1 h3 ⊢
    omega

theorem pub_setMult (m : CellMap) (a b : M31) (k : M31) : pub (m.setMult a k) b = pub m b := by
  unfold pub
  rw [get_setMult]
  split_ifs with h
  · subst h
    cases m.get b <;> rfl
  · rfl

theorem pub_publicInput_final (m : PMemory) (a b : M31) : pub (m.publicInput a).final b = pub m.final b := by
  unfold pub
  rw [get_publicInput_final]
  split_ifs with h
  · subst h
    cases m.final.get b with
    | none => rfl
    | some c => simp only [Option.map_some]; split_ifs <;> rfl
  · rfl

theorem inputs_count (l : List M31) : ∀ (m : PMemory), KeysNodup m → l.Nodup →
    (∀ a ∈ l, Paired (m.initial.get a) (m.final.get a)) →
    KeysNodup (l.foldl PMemory.publicInput m) ∧ (l.foldl PMemory.publicInput m).updates = m.updates ∧
    (∀ b, pub (l.foldl PMemory.publicInput m).initial b = pub m.initial b) ∧
    (∀ b, pub (l.foldl PMemory.publicInput m).final b = pub m.final b) ∧
    (∀ b, b ∉ l → (l.foldl PMemory.publicInput m).initial.get b = m.initial.get b ∧
      (l.foldl PMemory.publicInput m).final.get b = m.final.get b) ∧
    ∀ r, (records 1 (l.foldl PMemory.publicInput m).initial).count r + (l.flatMap (pub m.initial)).count r +
        (records (-1) m.final).count r =
      (records (-1) (l.foldl PMemory.publicInput m).final).count r + (records 1 m.initial).count r := by
  induction l with
  | nil =>
    intro m h _ _
    exact ⟨h, rfl, fun _ => rfl, fun _ => rfl, fun _ _ => ⟨rfl, rfl⟩, fun r => by simp; omega⟩
  | cons a l ih =>
    intro m h hl hp
    rw [List.nodup_cons] at hl
    have hne : ∀ b ∈ l, b ≠ a := fun b hb h' => hl.1 (h' ▸ hb)
    obtain ⟨i1, i2, i3, i4, i5, i6⟩ := ih (m.publicInput a) (h.publicInput a) hl.2 (fun b hb => by
      rw [get_publicInput_initial, get_publicInput_final, if_neg (hne b hb), if_neg (hne b hb)]
      exact hp b (List.mem_cons_of_mem _ hb))
    simp only [List.foldl_cons]
    refine ⟨i1, i2, fun b => (i3 b).trans (pub_setMult _ _ _ _), fun b => (i4 b).trans (pub_publicInput_final _ _ _),
      ?_, ?_⟩
    · intro b hb
      rw [List.mem_cons, not_or] at hb
      obtain ⟨j1, j2⟩ := i5 b hb.2
      rw [j1, j2, get_publicInput_initial, get_publicInput_final, if_neg hb.1, if_neg hb.1]
      exact ⟨rfl, rfl⟩
    · intro r
      have h1 := i6 r
      have h2 := publicInput_count h (hp a List.mem_cons_self) r
      have h3 : l.flatMap (pub (m.publicInput a).initial) = l.flatMap (pub m.initial) :=
        List.flatMap_congr fun b _ => pub_setMult _ _ _ _
      rw [h3] at h1
      rw [List.flatMap_cons, List.count_append]
      omega

theorem outputs_count (l : List M31) : ∀ (m : PMemory), KeysNodup m → l.Nodup →
    (∀ a ∈ l, Paired (m.initial.get a) (m.final.get a)) →
    KeysNodup (l.foldl PMemory.publicOutput m) ∧ (l.foldl PMemory.publicOutput m).updates = m.updates ∧
    (∀ b, pub (l.foldl PMemory.publicOutput m).initial b = pub m.initial b) ∧
    (∀ b, pub (l.foldl PMemory.publicOutput m).final b = pub m.final b) ∧
    ∀ r, (records 1 (l.foldl PMemory.publicOutput m).initial).count r + (records (-1) m.final).count r =
      (records (-1) (l.foldl PMemory.publicOutput m).final).count r + (l.flatMap (pub m.final)).count r +
        (records 1 m.initial).count r := by
  induction l with
  | nil =>
    intro m h _ _
    exact ⟨h, rfl, fun _ => rfl, fun _ => rfl, fun r => by simp; omega⟩
  | cons a l ih =>
    intro m h hl hp
    rw [List.nodup_cons] at hl
    have hne : ∀ b ∈ l, b ≠ a := fun b hb h' => hl.1 (h' ▸ hb)
    obtain ⟨i1, i2, i3, i4, i6⟩ := ih (m.publicOutput a) (h.publicOutput a) hl.2 (fun b hb => by
      show Paired ((m.initial.setMult a 1).get b) ((m.final.setMult a 0).get b)
      rw [get_setMult, get_setMult, if_neg (hne b hb), if_neg (hne b hb)]
      exact hp b (List.mem_cons_of_mem _ hb))
    simp only [List.foldl_cons]
    refine ⟨i1, i2, fun b => (i3 b).trans (pub_setMult _ _ _ _), fun b => (i4 b).trans (pub_setMult _ _ _ _), ?_⟩
    intro r
    have h1 := i6 r
    have h2 := publicOutput_count h (hp a List.mem_cons_self) r
    have h3 : l.flatMap (pub (m.publicOutput a).final) = l.flatMap (pub m.final) :=
      List.flatMap_congr fun b _ => pub_setMult _ _ _ _
    rw [h3] at h1
    rw [List.flatMap_cons, List.count_append]
    omega

theorem publicRecords_eq (m : CellMap) (r : ℕ × ℕ) : publicRecords m r = (addresses r).flatMap (pub m) := by
  unfold publicRecords pub
  induction addresses r with
  | nil => rfl
  | cons a l ih =>
    rw [List.filterMap_cons, List.flatMap_cons, ih]
    cases (m.get a).map (Cell.rec' a) <;> rfl

/-! ### Multiplicities stay in range -/

/-- Multiplicities are 0 or 1 initially, 0 or −1 finally. -/
structure Signs (m : PMemory) : Prop where
  initial : ∀ a c, m.initial.get a = some c → c.mult = 0 ∨ c.mult = 1
  final : ∀ a c, m.final.get a = some c → c.mult = 0 ∨ c.mult = -1

theorem Signs.of_paired {m : PMemory} (h : ∀ a, Paired (m.initial.get a) (m.final.get a)) : Signs m := by
  constructor
  · intro a c hc
    cases h a with
    | absent hi hf => rw [hi] at hc; cases hc
    | untouched v hi hf => rw [hi] at hc; injection hc with hc; subst hc; exact .inl rfl
    | accessed o v c' hi hf => rw [hi] at hc; injection hc with hc; subst hc; exact .inr rfl
  · intro a c hc
    cases h a with
    | absent hi hf => rw [hf] at hc; cases hc
    | untouched v hi hf => rw [hf] at hc; injection hc with hc; subst hc; exact .inl rfl
    | accessed o v c' hi hf => rw [hf] at hc; injection hc with hc; subst hc; exact .inr rfl

theorem Signs.publicInput {m : PMemory} (h : Signs m) (a : M31) : Signs (m.publicInput a) := by
  constructor
  · intro b c hc
    rw [get_publicInput_initial] at hc
    split_ifs at hc with hb
    · obtain ⟨d, -, hd⟩ := Option.map_eq_some_iff.1 hc
      rw [← hd]; exact .inl rfl
    · exact h.initial b c hc
  · intro b c hc
    rw [get_publicInput_final] at hc
    split_ifs at hc with hb
    · obtain ⟨d, hd', hd⟩ := Option.map_eq_some_iff.1 hc
      rw [← hd]
      split_ifs with hz
      · exact .inr rfl
      · exact h.final a d hd'
    · exact h.final b c hc

theorem Signs.publicOutput {m : PMemory} (h : Signs m) (a : M31) : Signs (m.publicOutput a) := by
  constructor
  · intro b c hc
    have hc : (m.initial.setMult a 1).get b = some c := hc
    rw [get_setMult] at hc
    split_ifs at hc with hb
    · obtain ⟨d, -, hd⟩ := Option.map_eq_some_iff.1 hc
      rw [← hd]; exact .inr rfl
    · exact h.initial b c hc
  · intro b c hc
    have hc : (m.final.setMult a 0).get b = some c := hc
    rw [get_setMult] at hc
    split_ifs at hc with hb
    · obtain ⟨d, -, hd⟩ := Option.map_eq_some_iff.1 hc
      rw [← hd]; exact .inl rfl
    · exact h.final b c hc

theorem Signs.foldl {f : PMemory → M31 → PMemory} (hf : ∀ m a, Signs m → Signs (f m a)) (l : List M31) :
    ∀ m, Signs m → Signs (l.foldl f m) := by
  induction l with
  | nil => exact fun _ h => h
  | cons a l ih => exact fun m h => ih _ (hf m a h)

theorem Signs.update {m : PMemory} (h : Signs m) (r : PublicAddressRanges) : Signs (m.updateMultiplicities r) :=
  Signs.foldl (fun _ a h => h.publicOutput a) _ _ (Signs.foldl (fun _ a h => h.publicInput a) _ _ h)

/-! ### The records returned -/

theorem pushAll_get {m0 : CellMap} (h0 : RunnerMap m0) (es : List Access) : ∀ (pre : List Access) (m m' : PMemory)
    (args : List MemoryArg), Tracks m0 pre m → m.pushAll es = some (m', args) → ∀ (i : ℕ) (e : Access), es[i]? = some e →
    ∃ w c, (holds m0 (pre ++ es.take i) e.address).getD (e.value, 0) = (w, c) ∧
      args[i]? = some ⟨e.address, w, e.value, c + numUpdates e.clock c * (RC20_LIMIT : M31), e.clock⟩ := by
  induction es with
  | nil => intro pre m m' args _ _ i e he; simp at he
  | cons x es ih =>
    intro pre m m' args h hp i e he
    obtain ⟨o, w, c, -, -, -, -, hw, hpush, htr⟩ := push_some h0 h x
    unfold PMemory.pushAll at hp
    rw [hpush] at hp
    simp only [Option.bind_eq_bind, Option.bind_some] at hp
    obtain ⟨⟨m'', args'⟩, hp', heq⟩ := Option.bind_eq_some_iff.1 hp
    injection heq with heq
    injection heq with he1 he2
    subst he1 he2
    cases i with
    | zero =>
      simp only [List.getElem?_cons_zero, Option.some.injEq] at he
      subst he
      exact ⟨w, c, by simpa using hw, rfl⟩
    | succ i =>
      simp only [List.getElem?_cons_succ] at he
      obtain ⟨w', c', h1, h2⟩ := ih _ _ _ _ htr hp' i e he
      refine ⟨w', c', by simpa using h1, by simpa using h2⟩

theorem RC20_eq : RC20_LIMIT = 1048575 := rfl

/-- The clock handed to the prover, as a number. -/
theorem prevClock_val {cur c : M31} (h : c.val < cur.val) :
    (c + numUpdates cur c * (RC20_LIMIT : M31)).val = c.val + numUpdates cur c * RC20_LIMIT ∧
    c.val + numUpdates cur c * RC20_LIMIT ≤ cur.val := by
  have hle : c.val + numUpdates cur c * RC20_LIMIT ≤ cur.val := by
    unfold numUpdates
    rw [if_pos h]
    split_ifs with h1
    · have := Nat.div_mul_le_self (cur.val - c.val) RC20_LIMIT
      omega
    · omega
  refine ⟨?_, hle⟩
  have hlt := cur.val_lt
  have : c + numUpdates cur c * (RC20_LIMIT : M31) = ((c.val + numUpdates cur c * RC20_LIMIT : ℕ) : M31) := by
    push_cast
    rw [ZMod.natCast_zmod_val]
  rw [this]
  exact ZMod.val_cast_of_lt (lt_of_le_of_lt hle hlt)

end Adapter
end CairoM
