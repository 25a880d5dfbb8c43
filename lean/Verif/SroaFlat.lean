import Verif.SroaBlock

/-!
# Replacement of aggregates: functions whose aggregates contain no aggregates

For these functions the pass succeeds and no name whose definition it removes is used in the result.
-/

namespace CairoM
namespace Mir
namespace Sroa

open Agg Lang

section
variable {N : ℕ} {T : ValueId → Option MirType} {cross : List ValueId} {rts U : List ValueId}

/-- The static invariant within a block: `S` are the names seen so far, `done` the instructions so far, `rts` the roots and
`U` the uses of the block. -/
structure Flat (N : ℕ) (T : ValueId → Option MirType) (cross rts U S : List ValueId) (done : List Instr) (st : St) : Prop where
  types : ∀ v, v < N → st.types v = T v
  next : N ≤ st.next
  seen : ∀ v ∈ S, v < N
  tracked : ∀ id es, st.states.lookup id = some es → id ∈ S ∧ ∃ ty ts, T id = some ty ∧ elementTys ty = some ts ∧
    es.length = ts.length ∧ (∀ u ∈ valuesIds es, plainB T u = true ∧ u ∈ U) ∧
    ∃ r ∈ rts, r ∉ cross ∧ sameKind (T r) ty = true ∧ id ∈ done.foldl (familyStep (T r)) [r]

theorem elementTys_isTS {ty : MirType} {ts : List MirType} (h : elementTys ty = some ts) : isTS ty = true := by
  cases ty <;> simp_all [elementTys, isTS]

theorem Flat.plain {S : List ValueId} {done : List Instr} {st : St} (h : Flat N T cross rts U S done st) {v : ValueId}
    (hp : plainB T v = true) : st.states.lookup v = none := by
  cases hl : st.states.lookup v with
  | none => rfl
  | some es =>
    obtain ⟨_, ty, ts, h1, h2, _⟩ := h.tracked v es hl
    simp [plainB, h1, elementTys_isTS h2] at hp

theorem familyStep_mono {t : Option MirType} {fam : List ValueId} (i : Instr) {v : ValueId} (h : v ∈ fam) :
    v ∈ familyStep t fam i := by
  unfold familyStep
  split <;> (try split_ifs) <;> simp [h]

theorem family_mono {t : Option MirType} : ∀ (is : List Instr) {fam : List ValueId} {v : ValueId}, v ∈ fam →
    v ∈ is.foldl (familyStep t) fam
  | [], _, _, h => h
  | i :: is, _, _, h => family_mono is (familyStep_mono i h)

theorem iterate_mono {t : Option MirType} {instrs : List Instr} : ∀ (n : ℕ) {fam : List ValueId} {v : ValueId}, v ∈ fam →
    v ∈ (fun fam => instrs.foldl (familyStep t) fam)^[n] fam
  | 0, _, _, h => h
  | n + 1, _, _, h => by
    rw [Function.iterate_succ_apply]
    exact iterate_mono n (family_mono instrs h)

theorem Flat.fresh {S : List ValueId} {done : List Instr} {st : St} (h : Flat N T cross rts U S done st) (ty : MirType) :
    Flat N T cross rts U S done (st.fresh ty) where
  types v hv := by
    have : v ≠ st.next := Nat.ne_of_lt (Nat.lt_of_lt_of_le hv h.next)
    simp [St.fresh, this, h.types v hv]
  next := Nat.le_succ_of_le h.next
  seen := h.seen
  tracked := h.tracked

theorem Flat.modified {S : List ValueId} {done : List Instr} {st : St} (h : Flat N T cross rts U S done st) (b : Bool) :
    Flat N T cross rts U S done { st with modified := b } where
  types := h.types
  next := h.next
  seen := h.seen
  tracked := h.tracked

theorem Flat.advance {S S' : List ValueId} {done : List Instr} {st : St} (h : Flat N T cross rts U S done st) (i : Instr)
    (hs : ∀ v ∈ S, v ∈ S') (hS : ∀ v ∈ S', v < N) : Flat N T cross rts U S' (done ++ [i]) st where
  types := h.types
  next := h.next
  seen := hS
  tracked id es hl := by
    obtain ⟨a, ty, ts, b, c, d, e, r, h1, h2, h3, h4⟩ := h.tracked id es hl
    refine ⟨hs _ a, ty, ts, b, c, d, e, r, h1, h2, h3, ?_⟩
    rw [List.foldl_append]
    exact familyStep_mono i h4

theorem Flat.track {S : List ValueId} {done : List Instr} {st : St} (h : Flat N T cross rts U S done st) {d : ValueId}
    {es : List Value} {ty : MirType} {ts : List MirType} (hd : d ∈ S) (h1 : T d = some ty) (h2 : elementTys ty = some ts)
    (h3 : es.length = ts.length) (h4 : ∀ u ∈ valuesIds es, plainB T u = true ∧ u ∈ U)
    (h5 : ∃ r ∈ rts, r ∉ cross ∧ sameKind (T r) ty = true ∧ d ∈ done.foldl (familyStep (T r)) [r]) :
    Flat N T cross rts U S done (st.track d es) where
  types := h.types
  next := h.next
  seen := h.seen
  tracked id es' hl := by
    simp only [St.track, List.lookup_cons] at hl
    by_cases e : id = d
    · subst e
      simp only [beq_self_eq_true, Option.some.injEq] at hl
      subst hl
      exact ⟨hd, ty, ts, h1, h2, h3, h4, h5⟩
    · simp only [beq_eq_false_iff_ne.2 e] at hl
      exact h.tracked id es' hl

theorem lookup_track {st : St} {d : ValueId} {es : List Value} {u : ValueId} (h : u ≠ d) :
    (st.track d es).states.lookup u = st.states.lookup u := by
  simp [St.track, List.lookup_cons, beq_eq_false_iff_ne.2 h]

theorem materialize_flat (st : St) (es : List Value) {ty : MirType} (h : isTS ty = true) :
    ∃ is, materialize st es ty = some (is, st.fresh ty) ∧ ∀ j ∈ is, ∀ u ∈ usesOf j, u ∈ valuesIds es := by
  cases ty with
  | Tuple ts =>
    refine ⟨_, rfl, ?_⟩
    intro j hj u hu
    rw [List.mem_singleton] at hj
    subst hj
    simp only [usesOf, Instr.uses, valuesIds, List.flatMap_append, List.mem_append, List.mem_flatMap, List.mem_replicate] at hu ⊢
    rcases hu with ⟨v, hv, hu⟩ | ⟨v, ⟨_, rfl⟩, hu⟩
    · exact ⟨v, List.mem_of_mem_take hv, hu⟩
    · simp [Value.ids] at hu
  | Struct n fs =>
    refine ⟨_, rfl, ?_⟩
    intro j hj u hu
    rw [List.mem_singleton] at hj
    subst hj
    simp only [usesOf, Instr.uses, valuesIds, nameFields, List.mem_flatMap, List.mem_map, Prod.exists] at hu ⊢
    obtain ⟨v, ⟨_, w, ⟨_, _, k, _, e⟩, rfl⟩, hu⟩ := hu
    simp only [Prod.mk.injEq] at e
    obtain ⟨_, rfl⟩ := e
    cases hk : es[k]? with
    | none => simp [hk, Value.ids] at hu
    | some w => rw [hk] at hu; exact ⟨w, List.mem_of_getElem? hk, hu⟩
  | _ => simp [isTS] at h

/-- What is known of a name used by the new instructions: it was used by the block, and it is not tracked. -/
def Clean (N : ℕ) (T : ValueId → Option MirType) (U S : List ValueId) (st : St) (u : ℕ) : Prop :=
  u < N → u ∈ U ∧ (plainB T u = true ∨ (u ∈ S ∧ st.states.lookup u = none))

theorem callArgs_flat {S : List ValueId} {done : List Instr} : ∀ {as : List Value} {ps : List MirType} {st : St},
    Flat N T cross rts U S done st → argsB T ps as = true → (∀ u ∈ plainArgs as ps, plainB T u = true) →
    (∀ u ∈ valuesIds as, u ∈ U) →
    ∃ is bs st', callArgs st as ps = some (is, bs, st') ∧ st'.states = st.states ∧ Flat N T cross rts U S done st' ∧
      (∀ j ∈ is, ∀ u ∈ usesOf j, plainB T u = true ∧ u ∈ U) ∧
      ∀ u ∈ valuesIds bs, u < N → u ∈ valuesIds as ∧ st.states.lookup u = none
  | [], ps, st, h, _, _, _ => ⟨[], [], st, by simp [callArgs], rfl, h, by simp, by simp [valuesIds]⟩
  | a :: as, [], st, h, _, hp, _ => by
    refine ⟨[], a :: as, st, by simp [callArgs], rfl, h, by simp, ?_⟩
    intro u hu _
    exact ⟨hu, h.plain (hp u (by simpa [plainArgs] using hu))⟩
  | a :: as, p :: ps, st, h, hb, hp, hU => by
    simp only [argsB, Bool.and_eq_true, Bool.or_eq_true, Bool.not_eq_true'] at hb
    simp only [plainArgs, List.mem_append] at hp
    simp only [valuesIds, List.flatMap_cons, List.mem_append] at hU
    cases hl : (if isAgg p then st.look a else none) with
    | some es =>
      split_ifs at hl with hagg
      obtain ⟨id, rfl, hl'⟩ := St.look_some hl
      have hty : T id = some p := by
        rcases hb.1 with hb | hb
        · rw [hagg] at hb; simp at hb
        · exact hasTyB_operand hb.1
      obtain ⟨_, ty, ts, h1, h2, h3, h4, _⟩ := h.tracked id es hl'
      rw [hty, Option.some.injEq] at h1
      subst h1
      obtain ⟨is, hm, hu⟩ := materialize_flat st es (elementTys_isTS h2)
      obtain ⟨js, bs, st', e1, e2, e3, e4, e5⟩ := callArgs_flat (h.fresh p) hb.2 (fun u hu => hp u (.inr hu))
        (fun u hu => hU u (.inr hu))
      refine ⟨is ++ js, .Operand st.next :: bs, st', ?_, e2, e3, ?_, ?_⟩
      · simp [callArgs, hagg, hl, hm, e1]
      · intro j hj u hu'
        rw [List.mem_append] at hj
        rcases hj with hj | hj
        · exact h4 u (hu j hj u hu')
        · exact e4 j hj u hu'
      · intro u hu' hN
        simp only [valuesIds, List.flatMap_cons, List.mem_append] at hu' ⊢
        rcases hu' with hu' | hu'
        · simp only [Value.ids, List.mem_singleton] at hu'
          exact absurd hN (by rw [hu']; exact Nat.not_lt.2 h.next)
        · obtain ⟨g1, g2⟩ := e5 u hu' hN
          exact ⟨.inr g1, g2⟩
    | none =>
      obtain ⟨js, bs, st', e1, e2, e3, e4, e5⟩ := callArgs_flat h hb.2 (fun u hu => hp u (.inr hu)) (fun u hu => hU u (.inr hu))
      refine ⟨js, a :: bs, st', ?_, e2, e3, e4, ?_⟩
      · simp [callArgs, hl, e1]
      · intro u hu' hN
        simp only [valuesIds, List.flatMap_cons, List.mem_append] at hu' ⊢
        rcases hu' with hu' | hu'
        · refine ⟨.inl hu', ?_⟩
          split_ifs at hl with hagg
          · cases a with
            | Operand id =>
              simp only [Value.ids, List.mem_singleton] at hu'
              subst hu'
              exact hl
            | Literal l => simp [Value.ids] at hu'
            | Error => simp [Value.ids] at hu'
          · exact h.plain (hp u (.inl (by simpa [hagg] using hu')))
        · obtain ⟨g1, g2⟩ := e5 u hu' hN
          exact ⟨.inr g1, g2⟩

theorem askUses_find {types : ValueId → Option MirType} {instrs : List Instr} {d : ValueId}
    (h : can types cross instrs d = true) : ∃ mk ∈ instrs, builds d mk = true ∧ basicOk types cross d mk = true := by
  simp only [can, canScalarize, List.not_mem_nil, if_false] at h
  split at h
  · simp at h
  · rename_i mk hmk
    split_ifs at h with hb
    · exact ⟨mk, List.mem_of_find?_eq_some hmk, List.find?_some hmk, hb⟩
    · simp at h

theorem mem_roots {types : ValueId → Option MirType} {ty : MirType} {d : ValueId} (ht : types d = some ty)
    (hs : isScalarizable ty = true) : ∀ {instrs : List Instr} {i : Instr}, i ∈ instrs → builds d i = true → d ∈ roots types instrs
  | [], _, h, _ => by simp at h
  | j :: is, i, h, hb => by
    rw [List.mem_cons] at h
    rcases h with rfl | h
    · cases i with
      | MakeTuple e _ => simp only [builds, decide_eq_true_eq] at hb; subst hb; simp [roots, ht, hs]
      | MakeStruct e _ _ => simp only [builds, decide_eq_true_eq] at hb; subst hb; simp [roots, ht, hs]
      | MakeFixedArray e _ _ _ => simp only [builds, decide_eq_true_eq] at hb; subst hb; simp [roots, ht, hs]
      | _ => simp [builds] at hb
    · have := mem_roots ht hs h hb
      unfold roots
      split <;> (try split) <;> (try split_ifs) <;> simp [this]

theorem sameKind_self {ty : MirType} (h : isTS ty = true) : sameKind (some ty) ty = true := by
  cases ty <;> simp_all [isTS, sameKind]

theorem haveTysB_length {types : ValueId → Option MirType} : ∀ {ts : List MirType} {vs : List Value}, haveTysB types ts vs = true →
    vs.length = ts.length
  | [], [], _ => rfl
  | [], _ :: _, h => by simp [haveTysB] at h
  | _ :: _, [], h => by simp [haveTysB] at h
  | _ :: _, _ :: _, h => by
    simp only [haveTysB, Bool.and_eq_true] at h
    simp [haveTysB_length h.2]

theorem inOrder_ids {given : List (Name × Value)} : ∀ {fs : List (Name × MirType)} {vs : List Value}, inOrder given fs = some vs →
    ∀ x ∈ valuesIds vs, x ∈ valuesIds (given.map Prod.snd)
  | [], vs, hv => by simp only [inOrder, Option.some.injEq] at hv; subst hv; simp [valuesIds]
  | f :: fs, vs, hv => by
    simp only [inOrder, Option.bind_eq_some_iff, Option.map_eq_some_iff] at hv
    obtain ⟨w, hw, ws, hws, rfl⟩ := hv
    intro x hx
    simp only [valuesIds, List.flatMap_cons, List.mem_append] at hx
    rcases hx with hx | hx
    · simp only [valuesIds, List.mem_flatMap, List.mem_map]
      rw [List.lookup_eq_some_iff] at hw
      obtain ⟨l₁, l₂, hl, _⟩ := hw
      exact ⟨w, ⟨(f.1, w), by rw [hl]; simp, rfl⟩, hx⟩
    · exact inOrder_ids hws x hx

theorem mem_usesOf {i : Instr} {u : ValueId} (h : u ∈ usesOf i) : u ∈ i.uses := by
  cases i <;> first | exact h | simp [usesOf] at h

/-- The conditions on an instruction of the block. -/
structure FlatInstr (N : ℕ) (T : ValueId → Option MirType) (U S : List ValueId) (i : Instr) : Prop where
  below : ∀ v ∈ i.uses ++ i.destinations, v < N
  fresh : ∀ d ∈ i.destinations, d ∉ S ∧ d ∉ i.uses
  typed : typedB T i = true
  flat : flatB T i = true
  uses : ∀ u ∈ usesOf i, u ∈ U
  noPhi : isPhi i = false

theorem FlatInstr.advance {S : List ValueId} {done : List Instr} {st : St} {i : Instr} (hi : FlatInstr N T U S i)
    (h : Flat N T cross rts U S done st) : Flat N T cross rts U (after i S) (done ++ [i]) st :=
  h.advance i (fun v hv => List.mem_append_right _ hv) (by
    intro v hv
    simp only [after, List.mem_append] at hv
    rcases hv with hv | hv
    · exact hi.below v (List.mem_append.2 hv)
    · exact h.seen v hv)

/-- The result of a step. -/
structure FlatStep (N : ℕ) (T : ValueId → Option MirType) (cross rts U S : List ValueId) (done : List Instr) (st : St) (i : Instr)
    (js : List Instr) (st' : St) : Prop where
  inv : Flat N T cross rts U (after i S) (done ++ [i]) st'
  clean : ∀ j ∈ js, ∀ u ∈ usesOf j, Clean N T U (after i S) st' u
  lookup : ∀ u, u ∉ i.destinations → st'.states.lookup u = st.states.lookup u

theorem keep_flat {S : List ValueId} {done : List Instr} {st : St} {i : Instr} (h : Flat N T cross rts U S done st)
    (hi : FlatInstr N T U S i) (hu : ∀ u ∈ usesOf i, st.states.lookup u = none) :
    FlatStep N T cross rts U S done st i [i] st where
  inv := hi.advance h
  clean j hj u hu' _ := by
    rw [List.mem_singleton] at hj
    subst hj
    exact ⟨hi.uses u hu', .inr ⟨by simp [after, mem_usesOf hu'], hu u hu'⟩⟩
  lookup _ _ := rfl

theorem drop_flat {S : List ValueId} {done : List Instr} {st : St} {i : Instr} {d : ValueId} {es : List Value} {ty : MirType}
    {ts : List MirType} (h : Flat N T cross rts U S done st) (hi : FlatInstr N T U S i) (hd : i.destinations = [d])
    (h1 : T d = some ty) (h2 : elementTys ty = some ts) (h3 : es.length = ts.length)
    (h4 : ∀ u ∈ valuesIds es, plainB T u = true ∧ u ∈ U)
    (h5 : ∃ r ∈ rts, r ∉ cross ∧ sameKind (T r) ty = true ∧ d ∈ (done ++ [i]).foldl (familyStep (T r)) [r]) :
    FlatStep N T cross rts U S done st i [] (st.track d es) where
  inv := (hi.advance h).track (by simp [after, hd]) h1 h2 h3 h4 h5
  clean j hj := by simp at hj
  lookup u hu := lookup_track (by simpa [hd] using hu)

/-- The names in the components of a tracked value. -/
theorem look_none {S : List ValueId} {done : List Instr} {st : St} (h : Flat N T cross rts U S done st) {v : Value}
    (hp : ∀ u ∈ v.ids, plainB T u = true) : st.look v = none := by
  cases v with
  | Operand u => exact h.plain (hp u (by simp [Value.ids]))
  | Literal l => rfl
  | Error => rfl

theorem look_none_ids {st : St} {v : Value} (h : st.look v = none) : ∀ u ∈ v.ids, st.states.lookup u = none := by
  cases v with
  | Operand u => intro w hw; simp only [Value.ids, List.mem_singleton] at hw; subst hw; exact h
  | Literal l => simp [Value.ids]
  | Error => simp [Value.ids]

theorem extract_flat {S : List ValueId} {done : List Instr} {st : St} {i : Instr} {d s : ValueId} {es : List Value} {k : ℕ}
    {v : Value} {ty : MirType} (h : Flat N T cross rts U S done st) (hi : FlatInstr N T U S i)
    (hl : st.states.lookup s = some es) (hv : es[k]? = some v) :
    FlatStep N T cross rts U S done st i (extract st d v ty).1 (extract st d v ty).2 := by
  obtain ⟨_, _, _, _, _, _, h4, _⟩ := h.tracked s es hl
  have hp : ∀ u ∈ v.ids, plainB T u = true ∧ u ∈ U := fun u hu => h4 u (valuesIds_get hv hu)
  have e : extract st d v ty = ([.Assign d v ty], { st with modified := true }) := by
    simp [extract, look_none h (fun u hu => (hp u hu).1)]
  rw [e]
  exact
    { inv := (hi.advance h).modified true
      clean := by
        intro j hj u hu _
        rw [List.mem_singleton] at hj
        subst hj
        have := hp u (by simpa [usesOf, Instr.uses] using hu)
        exact ⟨this.2, .inl this.1⟩
      lookup := fun _ _ => rfl }

theorem tryStore_flat {S : List ValueId} {done : List Instr} {st : St} {p : Place} {v : Value} (h : Flat N T cross rts U S done st)
    (hp : plainB T p.base = true) : tryStore st p v = none := by
  unfold tryStore
  split
  · simp [h.plain hp]
  · rfl

/-- One instruction. -/
theorem step_flat {instrs : List Instr} {S : List ValueId} {done : List Instr} {st : St} {i : Instr}
    (h : Flat N T cross rts U S done st) (hi : FlatInstr N T U S i) (hmem : i ∈ instrs)
    (hall : ∀ j ∈ instrs, typedB T j = true ∧ flatB T j = true)
    (hrts : ∀ d ty, T d = some ty → isScalarizable ty = true → ∀ j ∈ instrs, builds d j = true → d ∈ rts) :
    ∃ js st', step cross instrs st i = some (js, st') ∧ FlatStep N T cross rts U S done st i js st' := by
  have hfl := hi.flat
  simp only [flatB, Bool.and_eq_true, List.all_eq_true] at hfl
  obtain ⟨hpl, hfl⟩ := hfl
  have root : ∀ (d : ValueId) (ty : MirType), T d = some ty → isTS ty = true → isScalarizable ty = true → d ∉ cross →
      builds d i = true → ∃ r ∈ rts, r ∉ cross ∧ sameKind (T r) ty = true ∧ d ∈ (done ++ [i]).foldl (familyStep (T r)) [r] := by
    intro d ty h1 h2 h3 h4 h5
    exact ⟨d, hrts d ty h1 h3 i hmem h5, h4, by rw [h1]; exact sameKind_self h2, family_mono _ (by simp)⟩
  cases i with
  | MakeTuple d es =>
    have hdN : d < N := hi.below d (by simp [Instr.destinations])
    have ht := hi.typed
    simp only [step]
    split_ifs with hok
    · refine ⟨_, _, rfl, ?_⟩
      simp only [tupleOk, h.types d hdN] at hok
      split at hok
      · rename_i ts hts
        simp only [Bool.and_eq_true, decide_eq_true_eq] at hok
        simp only [typedB, hts] at ht
        refine drop_flat h hi rfl hts rfl (haveTysB_length ht) (fun u hu => ⟨hpl u ?_, hi.uses u ?_⟩)
          (root d _ hts rfl hok.1.1 hok.1.2 (by simp [builds]))
        · simpa [plainUses, Instr.uses] using hu
        · simpa [usesOf, Instr.uses] using hu
      · simp at hok
    · refine ⟨_, _, rfl, keep_flat h hi fun u hu => h.plain (hpl u ?_)⟩
      simpa [plainUses, Instr.uses, usesOf] using hu
  | MakeStruct d given ty =>
    have hdN : d < N := hi.below d (by simp [Instr.destinations])
    have ht := hi.typed
    have keep : ∃ js st', some ([Instr.MakeStruct d given ty], st) = some (js, st') ∧
        FlatStep N T cross rts U S done st (.MakeStruct d given ty) js st' :=
      ⟨_, _, rfl, keep_flat h hi fun u hu => h.plain (hpl u (by simpa [plainUses, Instr.uses, usesOf] using hu))⟩
    simp only [step]
    split_ifs with hok
    · split
      · rename_i es hes
        refine ⟨_, _, rfl, ?_⟩
        cases ty with
        | Struct n fs =>
          simp only [typedB, Bool.and_eq_true] at ht
          have hd : T d = some (.Struct n fs) := hasTyB_operand ht.1
          rw [h.types d hdN, hd] at hes
          simp only [structFields, Option.getD_some, Option.bind_some, fromStructFields_eq] at hes
          rw [hes] at ht
          obtain ⟨mk, hmk, hb, hbo⟩ := askUses_find hok
          have hsc : isScalarizable (.Struct n fs) = true ∧ d ∉ cross := by
            cases mk with
            | MakeStruct e gv t =>
              simp only [builds, decide_eq_true_eq] at hb
              subst hb
              simp only [basicOk, Bool.and_eq_true, decide_eq_true_eq] at hbo
              have hj := hall _ hmk
              cases t with
              | Struct n' fs' =>
                have hj1 := hj.1
                simp only [typedB, Bool.and_eq_true] at hj1
                have := hasTyB_operand hj1.1
                rw [hd, Option.some.injEq] at this
                rw [this]
                exact ⟨hbo.1.1, hbo.1.2⟩
              | _ => simp [flatB] at hj
            | MakeTuple e es' =>
              simp only [basicOk, h.types d hdN, hd] at hbo
              simp at hbo
            | MakeFixedArray e es' t c =>
              simp only [basicOk, h.types d hdN, hd] at hbo
              simp at hbo
            | _ => simp [builds] at hb
          refine drop_flat h hi rfl hd rfl (haveTysB_length ht.2) (fun u hu => ?_)
            (root d _ hd rfl hsc.1 hsc.2 (by simp [builds]))
          have := inOrder_ids hes u hu
          exact ⟨hpl u (by simpa [plainUses, Instr.uses] using this), hi.uses u (by simpa [usesOf, Instr.uses] using this)⟩
        | _ => simp at hfl
      · exact keep
    · exact keep
  | MakeFixedArray d es ty c => simp at hfl
  | InsertTuple d t k v ty =>
    have ht := hi.typed
    simp only [typedB, Bool.and_eq_true] at ht
    obtain ⟨⟨ht1, ht2⟩, ht3⟩ := ht
    simp only [step]
    cases hl : st.look t with
    | some es =>
      obtain ⟨id, rfl, hl'⟩ := St.look_some hl
      obtain ⟨_, ty', ts, g1, g2, g3, g4, r, r1, r2, r3, r4⟩ := h.tracked id es hl'
      rw [hasTyB_operand ht2, Option.some.injEq] at g1
      subst g1
      have hk : k < es.length := by
        rw [g3]
        simp only [g2, Option.bind_some] at ht3
        split at ht3
        · rename_i het; exact (List.getElem?_eq_some_iff.1 het).1
        · simp at ht3
      simp only [hk, if_true]
      refine ⟨_, _, rfl, drop_flat h hi rfl (hasTyB_operand ht1) g2 (by simpa using g3) (fun u hu => ?_)
        ⟨r, r1, r2, r3, ?_⟩⟩
      · rcases valuesIds_set hu with hu | hu
        · exact g4 u hu
        · exact ⟨hpl u (by simpa [plainUses] using hu), hi.uses u (by simp [usesOf, Instr.uses, hu])⟩
      · rw [List.foldl_append]
        simp only [List.foldl_cons, List.foldl_nil, familyStep]
        split_ifs with hc
        · exact List.mem_cons_self
        · by_contra hn
          exact hc ⟨r4, hn⟩
    | none =>
      refine ⟨_, _, rfl, keep_flat h hi fun u hu => ?_⟩
      simp only [usesOf, Instr.uses, List.mem_append] at hu
      rcases hu with hu | hu
      · exact look_none_ids hl u hu
      · exact h.plain (hpl u (by simpa [plainUses] using hu))
  | InsertField d s name v ty =>
    have ht := hi.typed
    simp only [typedB, Bool.and_eq_true] at ht
    obtain ⟨⟨ht1, ht2⟩, ht3⟩ := ht
    simp only [step]
    cases hl : st.look s with
    | some es =>
      obtain ⟨id, rfl, hl'⟩ := St.look_some hl
      obtain ⟨_, ty', ts, g1, g2, g3, g4, r, r1, r2, r3, r4⟩ := h.tracked id es hl'
      rw [hasTyB_operand ht2, Option.some.injEq] at g1
      subst g1
      obtain ⟨k, hk0, hk⟩ : ∃ k, fieldIndex ty name = some k ∧ k < es.length := by
        rw [g3]
        cases hf : fieldIndex ty name with
        | none => simp [hf] at ht3
        | some k =>
          simp only [hf, g2, Option.bind_some] at ht3
          split at ht3
          · rename_i het; exact ⟨k, rfl, (List.getElem?_eq_some_iff.1 het).1⟩
          · simp at ht3
      simp only [structFieldIndex_eq, hk0, hk, if_true]
      refine ⟨_, _, rfl, drop_flat h hi rfl (hasTyB_operand ht1) g2 (by simpa using g3) (fun u hu => ?_)
        ⟨r, r1, r2, r3, ?_⟩⟩
      · rcases valuesIds_set hu with hu | hu
        · exact g4 u hu
        · exact ⟨hpl u (by simpa [plainUses] using hu), hi.uses u (by simp [usesOf, Instr.uses, hu])⟩
      · rw [List.foldl_append]
        simp only [List.foldl_cons, List.foldl_nil, familyStep]
        split_ifs with hc
        · exact List.mem_cons_self
        · by_contra hn
          exact hc ⟨r4, hn⟩
    | none =>
      refine ⟨_, _, rfl, keep_flat h hi fun u hu => ?_⟩
      simp only [usesOf, Instr.uses, List.mem_append] at hu
      rcases hu with hu | hu
      · exact look_none_ids hl u hu
      · exact h.plain (hpl u (by simpa [plainUses] using hu))
  | ExtractTupleElement d t k ty =>
    have ht := hi.typed
    simp only [typedB, Bool.and_eq_true] at ht
    simp only [step]
    cases hl : st.look t with
    | some es =>
      obtain ⟨id, rfl, hl'⟩ := St.look_some hl
      obtain ⟨_, ty', ts, g1, g2, g3, _⟩ := h.tracked id es hl'
      obtain ⟨sty, k', s1, s2, s3⟩ := sourceB_some ht.2
      simp only [Option.some.injEq] at s2
      subst s2
      rw [g1, Option.some.injEq] at s1
      subst s1
      have hk : k < es.length := by
        rw [g3]
        simp only [componentB, g2] at s3
        split at s3
        · rename_i het; exact (List.getElem?_eq_some_iff.1 het).1
        · simp at s3
      simp only [List.getElem?_eq_getElem hk]
      exact ⟨_, _, rfl, extract_flat h hi hl' (List.getElem?_eq_getElem hk)⟩
    | none =>
      refine ⟨_, _, rfl, keep_flat h hi fun u hu => ?_⟩
      exact look_none_ids hl u (by simpa [usesOf, Instr.uses] using hu)
  | ExtractStructField d s name ty =>
    have ht := hi.typed
    simp only [typedB, Bool.and_eq_true] at ht
    cases s with
    | Operand id =>
      have hidN : id < N := hi.below id (by simp [Instr.uses, Value.ids])
      simp only [step]
      obtain ⟨sty, k, s1, s2, s3⟩ := sourceB_some ht.2
      rw [h.types id hidN, s1, Option.bind_some, structFieldIndex_eq, s2]
      cases hl : st.look (.Operand id) with
      | some es =>
        simp only [St.look] at hl
        obtain ⟨_, ty', ts, g1, g2, g3, _⟩ := h.tracked id es hl
        rw [g1, Option.some.injEq] at s1
        subst s1
        have hk : k < es.length := by
          rw [g3]
          simp only [componentB, g2] at s3
          split at s3
          · rename_i het; exact (List.getElem?_eq_some_iff.1 het).1
          · simp at s3
        simp only [List.getElem?_eq_getElem hk]
        exact ⟨_, _, rfl, extract_flat h hi hl (List.getElem?_eq_getElem hk)⟩
      | none =>
        refine ⟨_, _, rfl, keep_flat h hi fun u hu => ?_⟩
        exact look_none_ids hl u (by simpa [usesOf, Instr.uses] using hu)
    | Literal l => simp [sourceB] at ht
    | Error => simp [sourceB] at ht
  | Load d p ty =>
    have hb : st.states.lookup p.base = none := h.plain (hpl p.base (by simp [plainUses, Instr.uses, Place.ids]))
    have keep : ∃ js st', some ([Instr.Load d p ty], st) = some (js, st') ∧
        FlatStep N T cross rts U S done st (.Load d p ty) js st' :=
      ⟨_, _, rfl, keep_flat h hi fun u hu => h.plain (hpl u (by simpa [plainUses, Instr.uses, usesOf] using hu))⟩
    simp only [step, hb]
    split
    · exact keep
    · exact keep
  | Store p v ty =>
    have hb := tryStore_flat (v := v) h (hpl p.base (by simp [plainUses, Instr.uses, Place.ids]))
    have hv := look_none h (v := v) (fun u hu => hpl u (by simp [plainUses, Instr.uses, hu]))
    simp only [step, hb, hv, ite_self]
    exact ⟨_, _, rfl, keep_flat h hi fun u hu => h.plain (hpl u (by simpa [plainUses, Instr.uses, usesOf] using hu))⟩
  | Assign d v ty =>
    have ht := hi.typed
    simp only [step]
    cases hl : (if isAgg ty then st.look v else none) with
    | some es =>
      split_ifs at hl with hagg
      obtain ⟨id, rfl, hl'⟩ := St.look_some hl
      simp only [typedB, hagg, Bool.not_true, Bool.false_or, Bool.and_eq_true] at ht
      obtain ⟨_, ty', ts, g1, g2, g3, g4, r, r1, r2, r3, r4⟩ := h.tracked id es hl'
      rw [hasTyB_operand ht.2, Option.some.injEq] at g1
      subst g1
      refine ⟨_, _, rfl, drop_flat h hi rfl (hasTyB_operand ht.1) g2 g3 g4 ⟨r, r1, r2, r3, ?_⟩⟩
      rw [List.foldl_append]
      simp only [List.foldl_cons, List.foldl_nil, familyStep]
      split_ifs with hc
      · exact List.mem_cons_self
      · by_contra hn
        exact hc ⟨r3, r4, hn⟩
    | none =>
      refine ⟨_, _, rfl, keep_flat h hi fun u hu => ?_⟩
      simp only [usesOf, Instr.uses] at hu
      split_ifs at hl with hagg
      · exact look_none_ids hl u hu
      · exact h.plain (hpl u (by simpa [plainUses, hagg] using hu))
  | Call ds callee args sig =>
    obtain ⟨is, bs, st', e1, e2, e3, e4, e5⟩ := callArgs_flat h hi.typed (fun u hu => hpl u (by simpa [plainUses] using hu))
      (fun u hu => hi.uses u (by simpa [usesOf, Instr.uses] using hu))
    refine ⟨is ++ [.Call ds callee bs sig], st', by simp [step, e1], hi.advance e3, ?_, fun u _ => by rw [e2]⟩
    intro j hj u hu hN
    rw [List.mem_append, List.mem_singleton] at hj
    rcases hj with hj | rfl
    · have := e4 j hj u hu
      exact ⟨this.2, .inl this.1⟩
    · obtain ⟨g1, g2⟩ := e5 u (by simpa [usesOf, Instr.uses] using hu) hN
      refine ⟨hi.uses u (by simpa [usesOf, Instr.uses] using g1), .inr ⟨?_, by rw [e2]; exact g2⟩⟩
      simp [after, Instr.uses, g1]
  | Phi d ty ss => exact absurd hi.noPhi (by simp [isPhi])
  | Debug vs => exact ⟨_, _, rfl, keep_flat h hi fun u hu => by simp [usesOf] at hu⟩
  | Nop => exact ⟨_, _, rfl, keep_flat h hi fun u hu => by simp [usesOf, Instr.uses] at hu⟩
  | UnaryOp op d v => exact ⟨_, _, rfl, keep_flat h hi fun u hu => h.plain (hpl u (by simpa [plainUses, usesOf] using hu))⟩
  | BinaryOp op d l r => exact ⟨_, _, rfl, keep_flat h hi fun u hu => h.plain (hpl u (by simpa [plainUses, usesOf] using hu))⟩
  | Cast d v s t => exact ⟨_, _, rfl, keep_flat h hi fun u hu => h.plain (hpl u (by simpa [plainUses, usesOf] using hu))⟩
  | AssertEq l r => exact ⟨_, _, rfl, keep_flat h hi fun u hu => h.plain (hpl u (by simpa [plainUses, usesOf] using hu))⟩
  | HeapAllocCells d v => exact ⟨_, _, rfl, keep_flat h hi fun u hu => h.plain (hpl u (by simpa [plainUses, usesOf] using hu))⟩

theorem Clean.mono {S S' : List ValueId} {st st' : St} {u : ℕ} (h : Clean N T U S st u) (hs : ∀ v ∈ S, v ∈ S')
    (hl : u ∈ S → st'.states.lookup u = st.states.lookup u) : Clean N T U S' st' u := by
  intro hu
  obtain ⟨h1, h2⟩ := h hu
  refine ⟨h1, h2.imp id fun h2 => ⟨hs _ h2.1, ?_⟩⟩
  rw [hl h2.1]
  exact h2.2

theorem steps_flat {instrs : List Instr} (hall : ∀ j ∈ instrs, typedB T j = true ∧ flatB T j = true)
    (hrts : ∀ d ty, T d = some ty → isScalarizable ty = true → ∀ j ∈ instrs, builds d j = true → d ∈ rts) :
    ∀ {is : List Instr} {S : List ValueId} {done : List Instr} {st : St}, Flat N T cross rts U S done st →
    freshB S is = true → (∀ i ∈ is, i ∈ instrs ∧ belowB N i = true ∧ isPhi i = false ∧ ∀ u ∈ usesOf i, u ∈ U) →
    ∃ js st' S', steps cross instrs is st = some (js, st') ∧ Flat N T cross rts U S' (done ++ is) st' ∧
      (∀ v ∈ S, v ∈ S') ∧ (∀ u ∈ S, st'.states.lookup u = st.states.lookup u) ∧
      ∀ j ∈ js, ∀ u ∈ usesOf j, Clean N T U S' st' u
  | [], S, done, st, h, _, _ => ⟨[], st, S, rfl, by simpa using h, fun _ h => h, fun _ _ => rfl, by simp⟩
  | i :: is, S, done, st, h, hf, hi => by
    simp only [freshB, Bool.and_eq_true, List.all_eq_true, decide_eq_true_eq] at hf
    obtain ⟨a1, a2, a3, a4⟩ := hi i List.mem_cons_self
    simp only [belowB, List.all_eq_true, decide_eq_true_eq] at a2
    have fi : FlatInstr N T U S i := ⟨a2, hf.1, (hall i a1).1, (hall i a1).2, a4, a3⟩
    obtain ⟨js, st₁, e1, e2⟩ := step_flat h fi a1 hall hrts
    obtain ⟨ks, st₂, S', f1, f2, f3, f4, f5⟩ := steps_flat hall hrts e2.inv hf.2 (fun j hj => hi j (List.mem_cons_of_mem _ hj))
    refine ⟨js ++ ks, st₂, S', by simp [steps, e1, f1], by simpa using f2, fun v hv => f3 v (List.mem_append_right _ hv), ?_, ?_⟩
    · intro u hu
      rw [f4 u (List.mem_append_right _ hu)]
      exact e2.lookup u fun hd => (hf.1 u hd).1 hu
    · intro j hj u hu
      rw [List.mem_append] at hj
      rcases hj with hj | hj
      · exact (e2.clean j hj u hu).mono f3 (f4 u)
      · exact f5 j hj u hu

theorem returnValues_flat {S : List ValueId} {done : List Instr} {types : ValueId → Option MirType}
    (hty : ∀ v, v < N → types v = T v) : ∀ {vs : List Value} {st : St}, Flat N T cross rts U S done st →
    (∀ u ∈ valuesIds vs, u < N ∧ u ∈ U) →
    ∃ is ws st', returnValues types st vs = some (is, ws, st') ∧ st'.states = st.states ∧ Flat N T cross rts U S done st' ∧
      (∀ j ∈ is, ∀ u ∈ usesOf j, plainB T u = true ∧ u ∈ U) ∧
      ∀ u ∈ valuesIds ws, u < N → u ∈ U ∧ st.states.lookup u = none
  | [], st, h, _ => ⟨[], [], st, rfl, rfl, h, by simp, by simp [valuesIds]⟩
  | v :: vs, st, h, hU => by
    simp only [valuesIds, List.flatMap_cons, List.mem_append] at hU
    cases hl : st.look v with
    | some es =>
      obtain ⟨id, rfl, hl'⟩ := St.look_some hl
      obtain ⟨_, ty, ts, h1, h2, h3, h4, _⟩ := h.tracked id es hl'
      have hid := hU id (.inl (by simp [Value.ids]))
      obtain ⟨is, hm, hu⟩ := materialize_flat st es (elementTys_isTS h2)
      obtain ⟨js, bs, st', e1, e2, e3, e4, e5⟩ := returnValues_flat hty (h.fresh ty) (fun u hu => hU u (.inr hu))
      refine ⟨is ++ js, .Operand st.next :: bs, st', ?_, e2, e3, ?_, ?_⟩
      · simp [returnValues, hl, hty id hid.1, h1, hm, e1]
      · intro j hj u hu'
        rw [List.mem_append] at hj
        rcases hj with hj | hj
        · exact h4 u (hu j hj u hu')
        · exact e4 j hj u hu'
      · intro u hu' hN
        simp only [valuesIds, List.flatMap_cons, List.mem_append] at hu'
        rcases hu' with hu' | hu'
        · simp only [Value.ids, List.mem_singleton] at hu'
          exact absurd hN (by rw [hu']; exact Nat.not_lt.2 h.next)
        · exact e5 u hu' hN
    | none =>
      obtain ⟨js, bs, st', e1, e2, e3, e4, e5⟩ := returnValues_flat hty h (fun u hu => hU u (.inr hu))
      refine ⟨js, v :: bs, st', ?_, e2, e3, e4, ?_⟩
      · simp [returnValues, hl, e1]
      · intro u hu' hN
        simp only [valuesIds, List.flatMap_cons, List.mem_append] at hu'
        rcases hu' with hu' | hu'
        · exact ⟨(hU u (.inl hu')).2, look_none_ids hl u hu'⟩
        · exact e5 u hu' hN

theorem terminator_flat {S : List ValueId} {done : List Instr} {st : St} {t : Terminator} (h : Flat N T cross rts U S done st)
    (ht : flatTermB T t = true) (hu : ∀ u ∈ t.uses, u < N ∧ u ∈ U) :
    ∃ js t' st', terminator st t = some (js, t', st') ∧ st'.states = st.states ∧ Flat N T cross rts U S done st' ∧
      (∀ j ∈ js, ∀ u ∈ usesOf j, plainB T u = true ∧ u ∈ U) ∧
      ∀ u ∈ t'.uses, u < N → u ∈ U ∧ st.states.lookup u = none := by
  have other : flatTermB T t = true → t.uses.all (plainB T) = true → ∀ u ∈ t.uses, u < N → u ∈ U ∧ st.states.lookup u = none := by
    intro _ hp u hu' _
    simp only [List.all_eq_true] at hp
    exact ⟨(hu u hu').2, h.plain (hp u hu')⟩
  cases t with
  | Return vs =>
    obtain ⟨is, ws, st', e1, e2, e3, e4, e5⟩ := returnValues_flat h.types h (vs := vs) (fun u hu' => hu u (by simpa [Terminator.uses] using hu'))
    exact ⟨is, .Return ws, st', by simp [terminator, e1], e2, e3, e4, fun u hu' => e5 u (by simpa [Terminator.uses] using hu')⟩
  | _ => exact ⟨[], _, st, rfl, rfl, h, by simp, other ht (by simpa [flatTermB] using ht)⟩

/-- What the pass does to a block: names used afterwards were used before, and a removed name belongs to a family that is not
used in other blocks, and is no longer used in this one. -/
theorem block_flat {types : ValueId → Option MirType} {next : ℕ} {b : Block} (hty : ∀ v, v < N → types v = T v) (hnx : N ≤ next)
    (hb : blockB N T b = true) (hf : b.instrs.all (flatB T) = true) (hp : (b.instrs.dropWhile isPhi).all (fun i => !isPhi i) = true)
    (ht : flatTermB T b.term = true) :
    ∃ b' st, block cross types next b = some (b', st) ∧ (∀ v ∈ blockUses b', v < N → v ∈ blockUses b) ∧
      (st.modified = true → ∀ v ∈ st.states.map Prod.fst, v < N ∧ v ∉ blockUses b' ∧
        ∃ r ∈ roots T b.instrs, r ∉ cross ∧ v ∈ family T r b.instrs) := by
  simp only [blockB, Bool.and_eq_true, List.all_eq_true, decide_eq_true_eq] at hb
  obtain ⟨⟨⟨⟨hb1, hb2⟩, hb3⟩, hb4⟩, _⟩ := hb
  simp only [List.all_eq_true, Bool.not_eq_true'] at hf hp
  simp only [block]
  split_ifs with hagg
  · exact ⟨b, _, rfl, fun v hv _ => hv, by simp [start]⟩
  · have hbody : ∀ i ∈ b.instrs.dropWhile isPhi, i ∈ b.instrs := fun i hi => List.dropWhile_subset _ hi
    have h0 : Flat N T cross (roots T b.instrs) (blockUses b) [] (b.instrs.takeWhile isPhi) (start types next) :=
      { types := hty, next := hnx, seen := by simp, tracked := by simp [start] }
    obtain ⟨js, st₁, S, e1, e2, _, _, e5⟩ := steps_flat (fun j hj => ⟨hb3 j (hbody j hj), hf j (hbody j hj)⟩)
      (fun d ty h1 h2 j hj hbu => mem_roots h1 h2 (hbody j hj) hbu) h0 hb4
      (fun i hi => ⟨hi, hb1 i (hbody i hi), hp i hi, fun u hu => by
        simp only [blockUses, List.mem_append, List.mem_flatMap]
        exact .inl ⟨i, hbody i hi, hu⟩⟩)
    rw [List.takeWhile_append_dropWhile] at e2
    obtain ⟨ks, t', st₂, f1, f2, f3, f4, f5⟩ := terminator_flat e2 ht (fun u hu => ⟨hb2 u hu, by simp [blockUses, hu]⟩)
    simp only [e1, f1]
    split_ifs with hm
    · have key : ∀ v ∈ blockUses ⟨b.instrs.takeWhile isPhi ++ js ++ ks, t'⟩, v < N →
          v ∈ blockUses b ∧ st₂.states.lookup v = none := by
        intro v hv hN
        simp only [blockUses, List.mem_append, List.mem_flatMap] at hv
        rcases hv with ⟨j, (hj | hj) | hj, hv⟩ | hv
        · have hj' : j ∈ b.instrs := List.takeWhile_subset _ hj
          refine ⟨by simp only [blockUses, List.mem_append, List.mem_flatMap]; exact .inl ⟨j, hj', hv⟩, f3.plain ?_⟩
          cases j with
          | Phi d ty ss =>
            have hd : types d = T d := hty d (by
              have := hb1 _ hj'
              simp only [belowB, List.all_eq_true, decide_eq_true_eq] at this
              exact this d (by simp [Instr.destinations]))
            have hna : isAggPhi types (.Phi d ty ss) = false := by
              simp only [List.any_eq_true, not_exists, not_and, Bool.not_eq_true] at hagg
              exact hagg _ hj
            have := hf _ hj'
            simp only [flatB, Bool.and_eq_true, List.all_eq_true] at this
            obtain ⟨_, g1, g2⟩ := this
            have hT : T d = some ty := hasTyB_operand g1
            simp only [isAggPhi, hd, hT] at hna
            simp only [usesOf, Instr.uses, valuesIds, List.mem_flatMap] at hv
            obtain ⟨p, hp', hv⟩ := hv
            have g := g2 p hp'
            cases hp2 : p with
            | Operand w =>
              rw [hp2] at g hv
              simp only [Value.ids, List.mem_singleton] at hv
              subst hv
              rw [plainB, hasTyB_operand g]
              cases ty <;> simp_all [isTS]
            | Literal l => rw [hp2] at hv; simp [Value.ids] at hv
            | Error => rw [hp2] at hv; simp [Value.ids] at hv
          | _ => exact absurd (mem_takeWhile_isPhi hj) (by simp [isPhi])
        · obtain ⟨g1, g2⟩ := e5 j hj v hv hN
          refine ⟨g1, ?_⟩
          rcases g2 with g2 | g2
          · exact f3.plain g2
          · rw [f2]; exact g2.2
        · have := f4 j hj v hv
          exact ⟨this.2, f3.plain this.1⟩
        · have := f5 v hv hN
          exact ⟨this.1, by rw [f2]; exact this.2⟩
      refine ⟨_, _, rfl, fun v hv hN => (key v hv hN).1, fun _ v hv => ?_⟩
      cases hl : st₂.states.lookup v with
      | none =>
        rw [List.lookup_eq_none_iff] at hl
        simp only [List.mem_map] at hv
        obtain ⟨p, hp', rfl⟩ := hv
        exact absurd (hl p hp') (by simp)
      | some es =>
        obtain ⟨g1, ty, ts, _, _, _, _, r, r1, r2, _, r4⟩ := f3.tracked v es hl
        have hN := f3.seen v g1
        refine ⟨hN, fun hv' => ?_, r, r1, r2, ?_⟩
        · have := (key v hv' hN).2
          rw [hl] at this
          simp at this
        · rw [family, Function.iterate_succ_apply]
          exact iterate_mono _ r4
    · exact ⟨b, st₂, rfl, fun v hv _ => hv, fun h => absurd h hm⟩

theorem root_mem_family {types : ValueId → Option MirType} {r : ValueId} {instrs : List Instr} : r ∈ family types r instrs :=
  iterate_mono _ (by simp)

/-- All blocks. -/
theorem blocks_flat : ∀ {bs : List Block} {types : ValueId → Option MirType} {next : ℕ}, (∀ v, v < N → types v = T v) → N ≤ next →
    (∀ b ∈ bs, blockB N T b = true ∧ b.instrs.all (flatB T) = true ∧ (b.instrs.dropWhile isPhi).all (fun i => !isPhi i) = true ∧
      flatTermB T b.term = true) →
    ∃ bs' types' next', blocks cross types next bs = some (bs', types', next') ∧
      (∀ (k : ℕ) (b' : Block), bs'[k]? = some b' → ∃ b, bs[k]? = some b ∧ ∀ v ∈ blockUses b', v < N → v ∈ blockUses b) ∧
      ∀ v ∈ removedFrom cross types next bs, v < N ∧ ∃ (k : ℕ) (b b' : Block), bs[k]? = some b ∧ bs'[k]? = some b' ∧
        v ∉ blockUses b' ∧ ∃ r ∈ roots T b.instrs, r ∉ cross ∧ v ∈ family T r b.instrs
  | [], types, next, _, _, _ => ⟨[], types, next, rfl, by simp, by simp [removedFrom]⟩
  | c :: bs, types, next, ht, hn, hb => by
    obtain ⟨c1, c2, c3, c4⟩ := hb c List.mem_cons_self
    obtain ⟨c', st, e1, e2, e3⟩ := block_flat (cross := cross) ht hn c1 c2 c3 c4
    have hg := grows_block e1
    have hg1 : next ≤ st.next := hg.1
    have hg2 : ∀ v, v < next → st.types v = types v := hg.2.1
    obtain ⟨bs', types', next', f1, f2, f3⟩ := blocks_flat (bs := bs) (types := st.types) (next := st.next)
      (fun v hv => (hg2 v (Nat.lt_of_lt_of_le hv hn)).trans (ht v hv)) (Nat.le_trans hn hg1)
      (fun b h => hb b (List.mem_cons_of_mem _ h))
    refine ⟨c' :: bs', types', next', by simp [blocks, e1, f1], ?_, ?_⟩
    · intro k b' hk
      cases k with
      | zero =>
        simp only [List.getElem?_cons_zero, Option.some.injEq] at hk
        subst hk
        exact ⟨c, rfl, e2⟩
      | succ k =>
        simp only [List.getElem?_cons_succ] at hk
        obtain ⟨b, g1, g2⟩ := f2 k b' hk
        exact ⟨b, by simpa using g1, g2⟩
    · intro v hv
      simp only [removedFrom, e1, List.mem_append] at hv
      rcases hv with hv | hv
      · split_ifs at hv with hm
        · obtain ⟨g1, g2, g3⟩ := e3 hm v hv
          exact ⟨g1, 0, c, c', rfl, rfl, g2, g3⟩
        · simp at hv
      · obtain ⟨g1, k, b, b', g2, g3, g4⟩ := f3 v hv
        exact ⟨g1, k + 1, b, b', by simpa using g2, by simpa using g3, g4⟩

end

/-- For a function whose aggregates contain no aggregates the pass succeeds, and no removed name is used in the result. -/
theorem sroa_flat {f : Function} (hs : sourceOk f = true) (hf : flatOk f = true) :
    ∃ g, sroa f = some g ∧ resultOk (removed f) g = true := by
  have hs' := hs
  simp only [sourceOk, Bool.and_eq_true, List.all_eq_true] at hs'
  simp only [flatOk, List.all_eq_true, Bool.and_eq_true] at hf
  obtain ⟨bs', types', next', e1, e2, e3⟩ := blocks_flat (N := f.nextValue) (T := f.types)
    (cross := crossBlock f.types f.blocks) (bs := f.blocks) (types := f.types) (next := f.nextValue) (fun _ _ => rfl)
    (Nat.le_refl _) (fun b hb => ⟨hs'.1.1 b hb, by simpa [List.all_eq_true] using (hf b hb).1.1,
      by simpa [List.all_eq_true] using (hf b hb).1.2, (hf b hb).2⟩)
  refine ⟨{ f with blocks := bs', types := types', nextValue := next' }, by simp [sroa, e1], ?_⟩
  simp only [resultOk, List.all_eq_true, decide_eq_true_eq]
  intro b' hb' v hv hR
  obtain ⟨j, hj⟩ := List.mem_iff_getElem?.1 hb'
  obtain ⟨hN, k, b, b'', g1, g2, g3, r, r1, r2, r3⟩ := e3 v hR
  by_cases e : j = k
  · subst e
    rw [hj, Option.some.injEq] at g2
    subst g2
    exact g3 hv
  · obtain ⟨c, h1, h2⟩ := e2 j b' hj
    apply r2
    simp only [crossBlock, families, List.mem_flatMap, List.mem_map, Prod.exists]
    refine ⟨k, family f.types r b.instrs, ⟨b, k, ?_, r, r1, rfl⟩, ?_⟩
    · rw [List.mk_mem_zipIdx_iff_getElem?]; exact g1
    · rw [if_pos]
      · exact root_mem_family
      · simp only [List.any_eq_true, Prod.exists]
        refine ⟨c, j, by rw [List.mk_mem_zipIdx_iff_getElem?]; exact h1, ?_⟩
        simp only [Bool.and_eq_true, decide_eq_true_eq, List.any_eq_true]
        exact ⟨e, v, h2 v hv hN, r3⟩

end Sroa
end Mir
end CairoM
