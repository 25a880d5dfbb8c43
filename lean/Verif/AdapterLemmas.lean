import Verif.AdapterSpec
import Mathlib.Data.List.Count
import Mathlib.Data.List.Perm.Basic
import Mathlib.Data.List.Perm.Subperm
import Mathlib.Tactic.LinearCombination

/-!
# Lemmas about the adapter's memory records
-/

namespace CairoM

open Abi

namespace Adapter

/-! ### Maps -/

theorem get_insert (m : CellMap) (a b : M31) (c : Cell) :
    (m.insert a c).get b = if b = a then some c else m.get b := by
  unfold CellMap.get CellMap.insert
  by_cases h : b = a
  · subst h; simp
  · rw [if_neg h, List.find?_cons_of_neg (by simpa using fun h' => h h'.symm), List.find?_filter]
    congr 2
    funext p
    by_cases hp : p.1 = b
    · have : p.1 ≠ a := fun h' => h (hp.symm.trans h')
      simp [hp, h]
    · simp [hp]

theorem nodup_insert {m : CellMap} (h : (m.map Prod.fst).Nodup) (a : M31) (c : Cell) :
    ((m.insert a c).map Prod.fst).Nodup := by
  unfold CellMap.insert
  rw [List.map_cons, List.nodup_cons]
  refine ⟨?_, h.sublist (List.filter_sublist.map _)⟩
  intro hm
  obtain ⟨p, hp, hpa⟩ := List.mem_map.1 hm
  simpa [hpa] using (List.mem_filter.1 hp).2

theorem get_none {m : CellMap} {a : M31} (h : m.get a = none) : m.filter (fun p => p.1 ≠ a) = m := by
  unfold CellMap.get at h
  rw [Option.map_eq_none_iff, List.find?_eq_none] at h
  rw [List.filter_eq_self]
  intro p hp
  simpa using h p hp

theorem get_some_mem {m : CellMap} {a : M31} {c : Cell} (h : m.get a = some c) : (a, c) ∈ m := by
  unfold CellMap.get at h
  obtain ⟨p, hp, hpc⟩ := Option.map_eq_some_iff.1 h
  have h1 := List.mem_of_find?_eq_some hp
  have h2 := List.find?_some hp
  have h3 : p.1 = a := by simpa using h2
  rw [← h3, ← hpc]; exact h1

theorem perm_of_get {m : CellMap} (hn : (m.map Prod.fst).Nodup) {a : M31} {c : Cell} (h : m.get a = some c) :
    m.Perm ((a, c) :: m.filter fun p => p.1 ≠ a) := by
  induction m with
  | nil => simp [CellMap.get] at h
  | cons p m ih =>
    rw [List.map_cons, List.nodup_cons] at hn
    by_cases hp : p.1 = a
    · have h1 : p.2 = c := by
        simp only [CellMap.get, List.find?_cons, hp, decide_true, Option.map_some, Option.some.injEq] at h
        exact h
      have h2 : m.filter (fun p => decide (p.1 ≠ a)) = m := by
        rw [List.filter_eq_self]
        intro q hq
        have : q.1 ≠ a := fun h' => hn.1 (by rw [hp, ← h']; exact List.mem_map_of_mem hq)
        simpa using this
      rw [List.filter_cons_of_neg (by simp [hp]), h2]
      obtain ⟨p1, p2⟩ := p
      simp only at hp h1
      rw [hp, h1]
    · have h1 : CellMap.get m a = some c := by
        simpa [CellMap.get, List.find?_cons, hp] using h
      rw [List.filter_cons_of_pos (by simp [hp])]
      exact ((ih hn.2 h1).cons p).trans (List.Perm.swap _ _ _)

theorem records_insert (k : M31) (m : CellMap) (a : M31) (c : Cell) :
    records k (m.insert a c) =
      (if c.mult = k then [c.rec' a] else []) ++ records k (m.filter fun p => p.1 ≠ a) := by
  unfold records CellMap.insert
  by_cases h : c.mult = k <;> simp [h]

theorem records_none {k : M31} {m : CellMap} {a : M31} (h : m.get a = none) :
    records k (m.filter fun p => p.1 ≠ a) = records k m := by rw [get_none h]

theorem records_some {k : M31} {m : CellMap} (hn : (m.map Prod.fst).Nodup) {a : M31} {c : Cell}
    (h : m.get a = some c) (r : Rec) : (records k m).count r =
      (if c.mult = k then [c.rec' a] else []).count r + (records k (m.filter fun p => p.1 ≠ a)).count r := by
  have hp : (records k m).Perm (records k ((a, c) :: m.filter fun p => p.1 ≠ a)) := by
    unfold records
    exact ((perm_of_get hn h).filter _).map _
  rw [hp.count_eq]
  show (records k (CellMap.insert m a c)).count r = _
  rw [records_insert, List.count_append]

/-! ### Clock updates -/

theorem telescope (a : M31) (v : QM31) (n : ℕ) (c : M31) (r : Rec) :
    ((clockUpdates a v n c).map ClockUpdate.emit).count r + [((a, c, v) : Rec)].count r =
      ((clockUpdates a v n c).map ClockUpdate.consume).count r +
        [((a, c + n * (RC20_LIMIT : M31), v) : Rec)].count r := by
  induction n generalizing c with
  | zero => simp [clockUpdates]
  | succ n ih =>
    have h := ih (c + (RC20_LIMIT : M31))
    have hc : c + (RC20_LIMIT : M31) + n * (RC20_LIMIT : M31) = c + ((n + 1 : ℕ) : M31) * (RC20_LIMIT : M31) := by
      push_cast; ring
    rw [hc] at h
    simp only [clockUpdates, List.map_cons, ClockUpdate.emit, ClockUpdate.consume]
    simp only [List.count_cons, List.count_nil] at h ⊢
    omega

/-! ### The invariant -/

/-- The state of the two entries of an address: never accessed (and absent or untouched), or accessed. -/
inductive Paired (i f : Option Cell) : Prop
  | absent (hi : i = none) (hf : f = none)
  | untouched (v : QM31) (hi : i = some ⟨v, 0, 0⟩) (hf : f = some ⟨v, 0, 0⟩)
  | accessed (o v : QM31) (c : M31) (hi : i = some ⟨o, 0, 1⟩) (hf : f = some ⟨v, c, -1⟩)

theorem one_ne_zero' : (1 : M31) ≠ 0 := by decide
theorem zero_ne_one' : ¬ (0 : M31) = 1 := by decide
theorem zero_ne_neg : ¬ (0 : M31) = -1 := by decide
theorem one_ne_neg : ¬ (1 : M31) = -1 := by decide

/-- Well-formed and balanced. -/
structure Inv (m : PMemory) (args : List MemoryArg) : Prop where
  nodupI : (m.initial.map Prod.fst).Nodup
  nodupF : (m.final.map Prod.fst).Nodup
  paired : ∀ a, Paired (m.initial.get a) (m.final.get a)

/-- The state after some accesses, in terms of the accesses. -/
structure Tracks (m0 : CellMap) (es : List Access) (m : PMemory) : Prop where
  nodupI : (m.initial.map Prod.fst).Nodup
  nodupF : (m.final.map Prod.fst).Nodup
  final : ∀ a, m.final.get a = match lastAccess es a with
    | some e => some ⟨e.value, e.clock, -1⟩
    | none => m0.get a
  initial : ∀ a, m.initial.get a = match lastAccess es a with
    | some _ => (origin m0 es a).map fun v => ⟨v, 0, 1⟩
    | none => m0.get a

theorem lastAccess_snoc (es : List Access) (e : Access) (a : M31) :
    lastAccess (es ++ [e]) a = if e.address = a then some e else lastAccess es a := by
  unfold lastAccess
  rw [List.reverse_append, List.reverse_singleton, List.singleton_append, List.find?_cons]
  by_cases h : e.address = a <;> simp [h]

theorem lastAccess_none {es : List Access} {a : M31} (h : lastAccess es a = none) :
    es.find? (fun e => e.address = a) = none := by
  unfold lastAccess at h
  rw [List.find?_eq_none] at h ⊢
  intro x hx
  exact h x (List.mem_reverse.2 hx)

theorem find_of_lastAccess {es : List Access} {a : M31} {e : Access} (h : lastAccess es a = some e) :
    ∃ f, es.find? (fun e => e.address = a) = some f := by
  cases hf : es.find? (fun e => decide (e.address = a)) with
  | some f => exact ⟨f, rfl⟩
  | none =>
    rw [List.find?_eq_none] at hf
    have h1 := List.mem_of_find?_eq_some h
    exact absurd (List.find?_some h) (hf e (List.mem_reverse.1 h1))

theorem origin_snoc (m0 : CellMap) (es : List Access) (e : Access) (a : M31) :
    origin m0 (es ++ [e]) a = (origin m0 es a).or (if e.address = a then some e.value else none) := by
  unfold origin
  cases m0.get a with
  | some c => simp
  | none =>
    simp only
    rw [List.find?_append]
    cases es.find? (fun e => decide (e.address = a)) with
    | some f => simp
    | none => by_cases h : e.address = a <;> simp [h]

theorem origin_some {m0 : CellMap} {es : List Access} {a : M31} {e : Access} (h : lastAccess es a = some e) :
    ∃ o, origin m0 es a = some o := by
  unfold origin
  cases m0.get a with
  | some c => exact ⟨_, rfl⟩
  | none =>
    obtain ⟨f, hf⟩ := find_of_lastAccess h
    exact ⟨f.value, by rw [hf]; rfl⟩

theorem runner_get {m0 : CellMap} (h : RunnerMap m0) {a : M31} {c : Cell} (hc : m0.get a = some c) :
    c = ⟨c.value, 0, 0⟩ := by
  obtain ⟨h1, h2⟩ := h.fresh _ (get_some_mem hc)
  simp only at h1 h2
  obtain ⟨v, cl, mu⟩ := c
  simp only at h1 h2
  rw [h1, h2]

theorem Tracks.start {m0 : CellMap} (h : RunnerMap m0) : Tracks m0 [] (.new m0) :=
  ⟨h.nodup, h.nodup, fun _ => rfl, fun _ => rfl⟩

theorem Tracks.paired {m0 : CellMap} (h0 : RunnerMap m0) {es : List Access} {m : PMemory} (h : Tracks m0 es m)
    (a : M31) : Paired (m.initial.get a) (m.final.get a) := by
  have h1 := h.initial a
  have h2 := h.final a
  cases hl : lastAccess es a with
  | some e =>
    obtain ⟨o, ho⟩ := origin_some (m0 := m0) hl
    rw [hl] at h1 h2
    simp only [ho] at h1 h2
    exact .accessed o e.value e.clock h1 h2
  | none =>
    rw [hl] at h1 h2
    simp only at h1 h2
    cases hc : m0.get a with
    | none => rw [hc] at h1 h2; exact .absent h1 h2
    | some c =>
      rw [runner_get h0 hc] at hc
      rw [hc] at h1 h2
      exact .untouched c.value h1 h2

theorem neg_one_ne_zero' : ¬ (-1 : M31) = 0 := by decide

/-- `push` never panics, and keeps track. -/
theorem push_some {m0 : CellMap} (h0 : RunnerMap m0) {es : List Access} {m : PMemory} (h : Tracks m0 es m)
    (e : Access) : ∃ o w c, (firstAccess m e).get e.address = some o ∧ o.clock = 0 ∧ o.mult = 1 ∧
      origin m0 (es ++ [e]) e.address = some o.value ∧
      (holds m0 es e.address).getD (e.value, 0) = (w, c) ∧
      m.push e = some (⟨firstAccess m e, m.final.insert e.address ⟨e.value, e.clock, -1⟩,
          m.updates ++ clockUpdates e.address o.value (numUpdates e.clock c) c⟩,
        ⟨e.address, w, e.value, c + numUpdates e.clock c * (RC20_LIMIT : M31), e.clock⟩) ∧
      Tracks m0 (es ++ [e]) ⟨firstAccess m e, m.final.insert e.address ⟨e.value, e.clock, -1⟩,
          m.updates ++ clockUpdates e.address o.value (numUpdates e.clock c) c⟩ := by
  have hprev : ((previous m e).value, (previous m e).clock) = (holds m0 es e.address).getD (e.value, 0) := by
    unfold previous holds
    rw [h.final e.address]
    cases lastAccess es e.address with
    | some l => rfl
    | none => cases m0.get e.address <;> rfl
  -- the initial entry
  have hinit : ∃ o, (firstAccess m e).get e.address = some o ∧ o.clock = 0 ∧ o.mult = 1 ∧
      origin m0 (es ++ [e]) e.address = some o.value := by
    have hp := h.paired h0 e.address
    have h1 := h.initial e.address
    have ho := origin_snoc m0 es e e.address
    rw [if_pos rfl] at ho
    unfold firstAccess previous
    cases hp with
    | absent hi hf =>
      rw [hf, hi]
      simp only [Option.getD_none, if_true, get_insert]
      refine ⟨_, rfl, rfl, rfl, ?_⟩
      cases hl : lastAccess es e.address with
      | some l =>
        rw [hl, hi] at h1
        obtain ⟨o, ho'⟩ := origin_some (m0 := m0) hl
        rw [ho'] at h1; cases h1
      | none =>
        rw [hl, hi] at h1
        simp only at h1
        have : origin m0 es e.address = none := by
          unfold origin
          rw [← h1, lastAccess_none hl]; rfl
        rw [ho, this]; rfl
    | untouched v hi hf =>
      rw [hf, hi]
      simp only [Option.getD_some, if_true, get_insert]
      refine ⟨_, rfl, rfl, rfl, ?_⟩
      cases hl : lastAccess es e.address with
      | some l =>
        rw [hl, hi] at h1
        obtain ⟨o, ho'⟩ := origin_some (m0 := m0) hl
        rw [ho'] at h1
        simp only [Option.map_some, Option.some.injEq, Cell.mk.injEq] at h1
        exact absurd h1.2.2 zero_ne_one'
      | none =>
        rw [hl, hi] at h1
        simp only at h1
        have : origin m0 es e.address = some v := by
          unfold origin
          rw [← h1]
        rw [ho, this]; rfl
    | accessed o v c hi hf =>
      have ho' : origin m0 es e.address = some o := by
        cases hl : lastAccess es e.address with
        | some l =>
          rw [hl, hi] at h1
          obtain ⟨o', ho'⟩ := origin_some (m0 := m0) hl
          rw [ho'] at h1 ⊢
          simp only [Option.map_some, Option.some.injEq, Cell.mk.injEq] at h1
          rw [h1.1]
        | none =>
          rw [hl, hi] at h1
          simp only at h1
          have := (h0.fresh _ (get_some_mem h1.symm)).2
          exact absurd this one_ne_zero'
      refine ⟨⟨o, 0, 1⟩, ?_, rfl, rfl, by rw [ho, ho']; rfl⟩
      rw [hf, hi]
      simp only [Option.getD_some]
      split_ifs with hc
      · rw [get_insert, if_pos rfl]
      · exact hi
  obtain ⟨o, ho1, ho2, ho3, ho4⟩ := hinit
  refine ⟨o, (previous m e).value, (previous m e).clock, ho1, ho2, ho3, ho4, hprev.symm, ?_, ?_⟩
  · unfold PMemory.push
    simp only
    by_cases hn : numUpdates e.clock (previous m e).clock = 0
    · rw [if_pos hn, hn]; simp [clockUpdates]
    · rw [if_neg hn, ho1]
  · constructor
    · show ((firstAccess m e).map Prod.fst).Nodup
      unfold firstAccess
      split_ifs
      · split
        · exact nodup_insert h.nodupI _ _
        · exact nodup_insert h.nodupI _ _
      · exact h.nodupI
    · exact nodup_insert h.nodupF _ _
    · intro a
      show (m.final.insert _ _).get a = _
      rw [get_insert, lastAccess_snoc]
      by_cases ha : a = e.address
      · subst ha; simp
      · rw [if_neg ha, if_neg fun h' => ha h'.symm]; exact h.final a
    · intro a
      show (firstAccess m e).get a = _
      rw [lastAccess_snoc]
      by_cases ha : a = e.address
      · subst ha
        rw [if_pos rfl, ho1]
        simp only
        rw [ho4]
        obtain ⟨v, c, k⟩ := o
        simp only at ho2 ho3
        rw [ho2, ho3]; rfl
      · have hne : (firstAccess m e).get a = m.initial.get a := by
          unfold firstAccess
          split_ifs
          · split <;> rw [get_insert, if_neg ha]
          · rfl
        rw [hne, if_neg fun h' => ha h'.symm, h.initial a]
        cases lastAccess es a with
        | none => rfl
        | some l =>
          simp only
          rw [origin_snoc, if_neg fun h' => ha h'.symm, Option.or_none]

theorem numUpdates_pos {a b : M31} (h : numUpdates a b ≠ 0) : b.val + RC20_LIMIT < a.val := by
  unfold numUpdates at h
  split_ifs at h with h1 h2
  · omega
  · exact absurd rfl h
  · exact absurd rfl h

/-- One access keeps the records balanced. -/
theorem push_count {m0 : CellMap} (h0 : RunnerMap m0) {es : List Access} {m : PMemory} (h : Tracks m0 es m)
    (e : Access) {m' : PMemory} {arg : MemoryArg} (hp : m.push e = some (m', arg))
    (hs : ∀ v c, holds m0 es e.address = some (v, c) → c.val + RC20_LIMIT < e.clock.val →
      origin m0 es e.address = some v) (r : Rec) :
    (records 1 m'.initial).count r + [arg.emit].count r + (m'.updates.map ClockUpdate.emit).count r +
        ((records (-1) m.final).count r + (m.updates.map ClockUpdate.consume).count r) =
      (records (-1) m'.final).count r + [arg.consume].count r + (m'.updates.map ClockUpdate.consume).count r +
        ((records 1 m.initial).count r + (m.updates.map ClockUpdate.emit).count r) := by
  obtain ⟨o, w, c, ho1, ho2, ho3, ho4, hw, hpush, -⟩ := push_some h0 h e
  rw [hpush] at hp
  injection hp with hp
  injection hp with hp1 hp2
  subst hp1 hp2
  simp only [MemoryArg.emit, MemoryArg.consume, List.map_append, List.count_append]
  have hfin : (records (-1) (m.final.insert e.address ⟨e.value, e.clock, -1⟩)).count r =
      [((e.address, e.clock, e.value) : Rec)].count r + (records (-1) (m.final.filter fun p => p.1 ≠ e.address)).count r := by
    rw [records_insert, if_pos rfl, List.count_append]; rfl
  rw [hfin]
  -- the value of the clock updates is the previous value
  have htel : ((clockUpdates e.address o.value (numUpdates e.clock c) c).map ClockUpdate.emit).count r +
      [((e.address, c, w) : Rec)].count r =
      ((clockUpdates e.address o.value (numUpdates e.clock c) c).map ClockUpdate.consume).count r +
        [((e.address, c + numUpdates e.clock c * (RC20_LIMIT : M31), w) : Rec)].count r := by
    by_cases hn : numUpdates e.clock c = 0
    · rw [hn]; simp [clockUpdates]
    · have : o.value = w := by
        have hlt := numUpdates_pos hn
        cases hh : holds m0 es e.address with
        | none =>
          rw [hh] at hw
          simp only [Option.getD_none, Prod.mk.injEq] at hw
          rw [origin_snoc, if_pos rfl] at ho4
          have : origin m0 es e.address = none := by
            unfold holds at hh
            cases hl : lastAccess es e.address with
            | some l => rw [hl] at hh; cases hh
            | none =>
              rw [hl] at hh
              simp only [Option.map_eq_none_iff] at hh
              unfold origin
              rw [hh, lastAccess_none hl]; rfl
          rw [this] at ho4
          simp only [Option.none_or, Option.some.injEq] at ho4
          rw [← ho4, hw.1]
        | some p =>
          rw [hh] at hw
          simp only [Option.getD_some] at hw
          subst hw
          have := hs w c hh hlt
          rw [origin_snoc, this] at ho4
          simp only [Option.some_or, Option.some.injEq] at ho4
          exact ho4.symm
      rw [this]
      exact telescope _ _ _ _ _
  -- the boundary entries
  have hbd : (records 1 (firstAccess m e)).count r + (records (-1) m.final).count r =
      [((e.address, c, w) : Rec)].count r + (records (-1) (m.final.filter fun p => p.1 ≠ e.address)).count r +
        (records 1 m.initial).count r := by
    have hprev : ((previous m e).value, (previous m e).clock) = (w, c) := by
      rw [← hw]
      unfold previous holds
      rw [h.final e.address]
      cases lastAccess es e.address with
      | some l => rfl
      | none => cases m0.get e.address <;> rfl
    injection hprev with hv hc
    have hpd := h.paired h0 e.address
    unfold firstAccess
    cases hpd with
    | absent hi hf =>
      have hpe : previous m e = ⟨e.value, 0, -1⟩ := by unfold previous; rw [hf]; rfl
      rw [hpe] at hv hc ⊢
      subst hv hc
      simp only [if_true, hi]
      rw [records_insert, if_pos rfl, List.count_append, records_none hi, records_none hf]
      simp only [Cell.rec']
      omega
    | untouched v hi hf =>
      have hpe : previous m e = ⟨v, 0, 0⟩ := by unfold previous; rw [hf]; rfl
      rw [hpe] at hv hc ⊢
      subst hv hc
      simp only [if_true, hi]
      rw [records_insert, if_pos rfl, List.count_append, records_some h.nodupI hi, records_some h.nodupF hf,
        if_neg zero_ne_one', if_neg zero_ne_neg]
      simp only [Cell.rec', List.count_nil]
      omega
    | accessed o' v c' hi hf =>
      have hpe : previous m e = ⟨v, c', -1⟩ := by unfold previous; rw [hf]; rfl
      rw [hpe] at hv hc ⊢
      subst hv hc
      rw [records_some h.nodupF hf, if_pos rfl]
      simp only [hi]
      split_ifs with hcz
      · rw [records_insert, if_pos rfl, List.count_append, records_some h.nodupI hi, if_pos rfl]
        simp only [Cell.rec']
        omega
      · simp only [Cell.rec']
        omega
  omega

/-- A sequence of accesses: no panic, tracked and balanced. -/
theorem pushAll_from {m0 : CellMap} (h0 : RunnerMap m0) (es : List Access) : ∀ (pre : List Access) (m : PMemory),
    Tracks m0 pre m → ∃ m' args, m.pushAll es = some (m', args) ∧ Tracks m0 (pre ++ es) m' ∧
      args.length = es.length := by
  induction es with
  | nil => intro pre m h; exact ⟨m, [], rfl, by simpa using h, rfl⟩
  | cons e es ih =>
    intro pre m h
    obtain ⟨o, w, c, -, -, -, -, -, hpush, htr⟩ := push_some h0 h e
    obtain ⟨m', args, h1, h2, h3⟩ := ih _ _ htr
    refine ⟨m', ⟨e.address, w, e.value, c + numUpdates e.clock c * (RC20_LIMIT : M31), e.clock⟩ :: args, ?_, by simpa using h2, by rw [List.length_cons, List.length_cons, h3]⟩
    unfold PMemory.pushAll
    rw [hpush]
    simp only [Option.bind_eq_bind, Option.bind_some, h1]
    rfl

theorem pushAll_count {m0 : CellMap} (h0 : RunnerMap m0) (es : List Access) : ∀ (pre : List Access) (m m' : PMemory)
    (args : List MemoryArg), Tracks m0 pre m → m.pushAll es = some (m', args) →
    (∀ p e q, es = p ++ e :: q → ∀ v c, holds m0 (pre ++ p) e.address = some (v, c) →
      c.val + RC20_LIMIT < e.clock.val → origin m0 (pre ++ p) e.address = some v) → ∀ r,
    (records 1 m'.initial).count r + (args.map MemoryArg.emit).count r + (m'.updates.map ClockUpdate.emit).count r +
        ((records (-1) m.final).count r + (m.updates.map ClockUpdate.consume).count r) =
      (records (-1) m'.final).count r + (args.map MemoryArg.consume).count r +
        (m'.updates.map ClockUpdate.consume).count r +
        ((records 1 m.initial).count r + (m.updates.map ClockUpdate.emit).count r) := by
  induction es with
  | nil =>
    intro pre m m' args h hp _ r
    injection hp with hp
    injection hp with hp1 hp2
    subst hp1 hp2
    simp only [List.map_nil, List.count_nil]
    omega
  | cons e es ih =>
    intro pre m m' args h hp hs r
    obtain ⟨o, w, c, -, -, -, -, -, hpush, htr⟩ := push_some h0 h e
    have hcnt := push_count h0 h e hpush (fun v c => by simpa using hs [] e es rfl v c) r
    unfold PMemory.pushAll at hp
    rw [hpush] at hp
    simp only [Option.bind_eq_bind, Option.bind_some] at hp
    obtain ⟨⟨m'', args'⟩, hp', heq⟩ := Option.bind_eq_some_iff.1 hp
    injection heq with heq
    injection heq with he1 he2
    subst he1 he2
    have := ih (pre ++ [e]) _ _ _ htr hp' (fun p x q hx v c => by
      have := hs (e :: p) x q (by rw [hx]; rfl) v c
      simpa using this) r
    simp only [List.map_cons, List.count_cons, List.count_nil, zero_add] at this hcnt ⊢
    omega

theorem records_runner {m0 : CellMap} (h0 : RunnerMap m0) {k : M31} (hk : ¬ (0 : M31) = k) : records k m0 = [] := by
  unfold records
  rw [List.map_eq_nil_iff, List.filter_eq_nil_iff]
  intro p hp
  rw [(h0.fresh p hp).2]
  simpa using hk

end Adapter
end CairoM
