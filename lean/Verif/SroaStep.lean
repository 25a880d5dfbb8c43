import Verif.SroaSim

/-! # Replacement of aggregates: the steps keep the meaning -/

namespace CairoM
namespace Mir
namespace Sroa

open Agg Lang

theorem nameFields_zip (es : List Value) (fs : List (Name × MirType)) (h : es.length = fs.length) :
    nameFields es fs = (fs.map Prod.fst).zip es := by
  apply List.ext_getElem?
  intro k
  simp only [nameFields, List.getElem?_map, List.getElem?_zipIdx, List.zip]
  rw [List.getElem?_zipWith]
  rcases Nat.lt_or_ge k fs.length with hk | hk
  · have hk' : k < es.length := by omega
    simp [List.getElem?_eq_getElem hk, List.getElem?_eq_getElem hk']
  · have hk' : es.length ≤ k := by omega
    simp [hk, hk']

theorem inOrder_cons {n : Name} {v : Value} {given : List (Name × Value)} : ∀ {fs : List (Name × MirType)},
    n ∉ fs.map Prod.fst → inOrder ((n, v) :: given) fs = inOrder given fs
  | [], _ => rfl
  | f :: fs, h => by
    simp only [List.map_cons, List.mem_cons, not_or] at h
    simp only [inOrder, List.lookup_cons, inOrder_cons h.2, beq_eq_false_iff_ne.2 (Ne.symm h.1)]

theorem inOrder_zip : ∀ {fs : List (Name × MirType)} {es : List Value}, (fs.map Prod.fst).Nodup → es.length = fs.length →
    inOrder ((fs.map Prod.fst).zip es) fs = some es
  | [], [], _, _ => rfl
  | [], _ :: _, _, h => by simp at h
  | _ :: _, [], _, h => by simp at h
  | f :: fs, e :: es, hn, h => by
    simp only [List.map_cons, List.nodup_cons] at hn
    simp only [List.length_cons, Nat.add_right_cancel_iff] at h
    simp only [List.map_cons, List.zip_cons_cons, inOrder, List.lookup_cons, beq_self_eq_true, Option.bind_some]
    rw [inOrder_cons hn.1, inOrder_zip hn.2 h]
    rfl

section
variable {N : ℕ} {R : List ValueId} {T T' : ValueId → Option MirType} {calls : ACalls}

/-- Building an aggregate from its components. -/
theorem materialize_sim {S : List ValueId} {st st' : St} {ρ σ : AEnv} {id : ValueId} {es : List Value} {ty : MirType}
    {is : List Instr} (hi : Inv N T S st ρ) (hl : st.states.lookup id = some es) (ht : T id = some ty)
    (hd : distinctB ty = true) (hm : materialize st es ty = some (is, st')) (ha : Agree N R ρ σ)
    (hu : ∀ j ∈ is, ∀ v ∈ usesOf j, v ∉ R) (hT : ∀ v, v < st'.next → T' v = st'.types v) :
    evalAs T' calls is σ = some (Function.update σ st.next (ρ id)) := by
  obtain ⟨hid, hes, ty', ts, xs, h1, h2, h3, h4, h5⟩ := hi.tracked id es hl
  rw [ht, Option.some.injEq] at h1
  subst h1
  have hlen := readAllA_length h4
  have hread : (∀ v ∈ valuesIds es, v ∉ R) → readAllA σ ts es = some xs := by
    intro h
    rw [readAllA_congr (fun v hv => ha v (hi.seen v (hes v hv)) (h v hv))]
    exact h4
  have hst := materialize_st hm
  have hnew : T' st.next = some ty := by
    rw [hT st.next (by rw [hst]; exact Nat.lt_succ_self _), hst]
    simp [St.fresh]
  rw [h3]
  cases ty with
  | Tuple us =>
    simp only [elementTys, Option.some.injEq] at h2
    subst h2
    simp only [materialize, Option.some.injEq, Prod.mk.injEq] at hm
    rw [hlen.1, Nat.sub_self, List.replicate_zero, List.append_nil, ← hlen.1, List.take_length] at hm
    obtain ⟨rfl, _⟩ := hm
    have := hread (fun v hv => hu _ (List.mem_singleton.2 rfl) v (by simpa [usesOf, Instr.uses] using hv))
    simp [evalAs, evalA, hnew, this]
  | Struct n fs =>
    simp only [elementTys, Option.some.injEq] at h2
    subst h2
    simp only [List.length_map] at hlen
    simp only [materialize, Option.some.injEq, Prod.mk.injEq] at hm
    rw [nameFields_zip es fs hlen.1] at hm
    obtain ⟨rfl, _⟩ := hm
    simp only [distinctB, decide_eq_true_eq] at hd
    have hsnd : ((fs.map Prod.fst).zip es).map Prod.snd = es := by
      rw [List.map_snd_zip]; simp [hlen.1]
    have := hread (fun v hv => hu _ (List.mem_singleton.2 rfl) v (by simpa [usesOf, Instr.uses, hsnd] using hv))
    simp [evalAs, evalA, inOrder_zip hd hlen.1, this]
  | _ => simp [elementTys] at h2

/-- The arguments of a call. -/
theorem callArgs_sim {S : List ValueId} {ρ : AEnv} : ∀ {as : List Value} {ps : List MirType} {st st' : St} {is : List Instr}
    {bs : List Value} {σ : AEnv} {xs : List AVal}, Inv N T S st ρ → callArgs st as ps = some (is, bs, st') →
    argsB T ps as = true → readAllA ρ ps as = some xs → Agree N R ρ σ → (∀ v ∈ valuesIds as, v < N) →
    (∀ j ∈ is, ∀ v ∈ usesOf j, v ∉ R) → (∀ v ∈ valuesIds bs, v ∉ R) → (∀ v, v < st'.next → T' v = st'.types v) →
    ∃ σ', evalAs T' calls is σ = some σ' ∧ readAllA σ' ps bs = some xs ∧ Agree N R ρ σ' ∧ Inv N T S st' ρ ∧
      ∀ v, v < st.next → σ' v = σ v
  | [], [], st, st', is, bs, σ, xs, hi, hc, _, hr, ha, _, _, _, _ => by
    simp only [callArgs, Option.some.injEq, Prod.mk.injEq] at hc
    obtain ⟨rfl, rfl, rfl⟩ := hc
    exact ⟨σ, rfl, hr, ha, hi, fun _ _ => rfl⟩
  | [], _ :: _, _, _, _, _, _, _, _, _, _, hr, _, _, _, _, _ => by simp [readAllA] at hr
  | _ :: _, [], _, _, _, _, _, _, _, _, _, hr, _, _, _, _, _ => by simp [readAllA] at hr
  | a :: as, p :: ps, st, st', is, bs, σ, xs, hi, hc, hb, hr, ha, hn, hu, hv, hT => by
    simp only [argsB, Bool.and_eq_true, Bool.or_eq_true, Bool.not_eq_true'] at hb
    simp only [valuesIds, List.flatMap_cons, List.mem_append] at hn
    simp only [readAllA, Option.bind_eq_some_iff, Option.map_eq_some_iff] at hr
    obtain ⟨x, hx, ys, hy, rfl⟩ := hr
    simp only [callArgs] at hc
    split at hc
    · rename_i es hes
      split_ifs at hes with hp
      split at hc
      · simp at hc
      · rename_i is₁ st₁ hm
        simp only [Option.map_eq_some_iff, Prod.exists, Prod.mk.injEq] at hc
        obtain ⟨js, cs, st₂, hr, rfl, rfl, rfl⟩ := hc
        cases a with
        | Operand id =>
          simp only [St.look] at hes
          have hty : T id = some p ∧ distinctB p = true := by
            rcases hb.1 with h | h
            · rw [hp] at h; simp at h
            · exact ⟨hasTyB_operand h.1, h.2⟩
          have hg := grows_callArgs hr
          have hst := materialize_st hm
          simp only [valuesIds, List.flatMap_cons, List.mem_append] at hv
          have hmat := materialize_sim (calls := calls) hi hes hty.1 hty.2 hm ha
            (fun j hj => hu j (List.mem_append_left _ hj)) (T' := T')
            (fun v h => (hT v (Nat.lt_of_lt_of_le h hg.1)).trans (hg.2.1 v h))
          have hi' : Inv N T S st₁ ρ := hst ▸ hi.fresh p
          obtain ⟨σ', h1, h2, h3, h4, h5⟩ := callArgs_sim hi' hr hb.2 hy (agree_new ha hi.next (ρ id))
            (fun v h => hn v (.inr h)) (fun j hj => hu j (List.mem_append_right _ hj)) (fun v h => hv v (.inr h)) hT
          refine ⟨σ', ?_, ?_, h3, h4, ?_⟩
          · rw [evalAs_append, hmat]; exact h1
          · have : σ' st.next = ρ id := by
              rw [h5 st.next (by rw [hst]; exact Nat.lt_succ_self _)]; simp
            simp only [readA] at hx
            simp [readAllA, readA, this, hx, h2]
          · intro v hlt
            rw [h5 v (by rw [hst]; exact Nat.lt_succ_of_lt hlt)]
            exact Function.update_of_ne (Nat.ne_of_lt hlt) _ _
        | Literal l => simp [St.look] at hes
        | Error => simp [St.look] at hes
    · simp only [Option.map_eq_some_iff, Prod.exists, Prod.mk.injEq] at hc
      obtain ⟨js, cs, st₂, hr, rfl, rfl, rfl⟩ := hc
      simp only [valuesIds, List.flatMap_cons, List.mem_append] at hv
      obtain ⟨σ', h1, h2, h3, h4, h5⟩ := callArgs_sim hi hr hb.2 hy ha (fun v h => hn v (.inr h)) hu
        (fun v h => hv v (.inr h)) hT
      refine ⟨σ', h1, ?_, h3, h4, h5⟩
      have : readA σ' p a = some x := by
        rw [readA_congr (fun v h => h3 v (hn v (.inl h)) (hv v (.inl h)))]; exact hx
      simp [readAllA, this, h2]

/-- The names seen after an instruction. -/
def after (i : Instr) (S : List ValueId) : List ValueId := i.uses ++ i.destinations ++ S

/-- What the simulation needs to know about an instruction. -/
structure Step (N : ℕ) (R : List ValueId) (T T' : ValueId → Option MirType) (S : List ValueId) (i : Instr) (js : List Instr) (st' : St) :
    Prop where
  below : ∀ v ∈ i.uses ++ i.destinations, v < N
  fresh : ∀ d ∈ i.destinations, d ∉ S ∧ d ∉ i.uses
  typed : typedB T i = true
  used : ∀ j ∈ js, ∀ v ∈ usesOf j, v ∉ R
  keys : ∀ v ∈ st'.states.map Prod.fst, v ∈ R
  later : ∀ v, v < st'.next → T' v = st'.types v

theorem Step.after_below {S : List ValueId} {i : Instr} {js : List Instr} {st' st : St} {ρ : AEnv}
    (h : Step N R T T' S i js st') (hi : Inv N T S st ρ) : ∀ v ∈ after i S, v < N := by
  intro v hv
  simp only [after, List.mem_append] at hv
  rcases hv with hv | hv
  · exact h.below v (List.mem_append.2 hv)
  · exact hi.seen v hv

theorem Step.stable {S : List ValueId} {i : Instr} {js : List Instr} {st' st : St} {ρ ρ' : AEnv}
    (h : Step N R T T' S i js st') (hi : Inv N T S st ρ) (he : ∀ v, v ∉ i.destinations → ρ' v = ρ v) :
    Inv N T (after i S) st ρ' :=
  hi.stable (fun v hv => List.mem_append_right _ hv) (h.after_below hi) fun v hv => he v fun hd => (h.fresh v hd).1 hv

/-- An instruction that is kept. -/
theorem keep_sim {S : List ValueId} {i : Instr} {st : St} {ρ σ ρ' : AEnv} (h : Step N R T T' S i [i] st) (hi : Inv N T S st ρ)
    (ha : Agree N R ρ σ) (he : evalA T calls i ρ = some ρ') :
    ∃ σ', evalAs T' calls [i] σ = some σ' ∧ Agree N R ρ' σ' ∧ Inv N T (after i S) st ρ' := by
  have hsub : ∀ v ∈ usesOf i, v ∈ i.uses := by
    intro v hv
    cases i <;> first | exact hv | simp [usesOf] at hv
  have htn : ∀ v ∈ typeNames i, v < N := by
    intro v hv
    apply h.below
    cases i <;> simp_all [typeNames, Instr.uses, Instr.destinations]
  obtain ⟨σ', h1, h2⟩ := evalA_agree (calls := calls) (types' := T') ha
    (fun v hv => ⟨h.below v (List.mem_append_left _ (hsub v hv)), h.used i (List.mem_singleton.2 rfl) v hv⟩)
    (fun v hv => by rw [h.later v (Nat.lt_of_lt_of_le (htn v hv) hi.next), hi.types v (htn v hv)]) he
  exact ⟨σ', by simp [evalAs, h1], h2, h.stable hi (evalA_frame he)⟩

/-- An instruction that is removed. -/
theorem drop_sim {S : List ValueId} {i : Instr} {st : St} {ρ σ : AEnv} {d : ValueId} {es : List Value} {xs : List AVal}
    {ty : MirType} {ts : List MirType}
    (h : Step N R T T' S i [] (st.track d es)) (hd : i.destinations = [d]) (hi : Inv N T S st ρ)
    (ha : Agree N R ρ σ) (hes : ∀ v ∈ valuesIds es, v ∈ S ∨ v ∈ i.uses)
    (h1 : T d = some ty) (h2 : elementTys ty = some ts) (h3 : readAllA ρ ts es = some xs) (h4 : haveTysB T ts es = true) :
    ∃ σ', evalAs T' calls [] σ = some σ' ∧ Agree N R (Function.update ρ d (some (.agg xs))) σ' ∧
      Inv N T (after i S) (st.track d es) (Function.update ρ d (some (.agg xs))) := by
  have hfr := h.fresh d (by rw [hd]; exact List.mem_singleton.2 rfl)
  have hmem : ∀ v ∈ valuesIds es, v ∈ after i S := by
    intro v hv
    simp only [after, List.mem_append]
    rcases hes v hv with h | h
    · exact .inr h
    · exact .inl (.inl h)
  refine ⟨σ, rfl, agree_removed ha (h.keys d (by simp [St.track])) _, Inv.track (h.stable hi ?_) ?_ hmem ?_⟩
  · intro v hv
    rw [hd, List.mem_singleton] at hv
    exact Function.update_of_ne hv _ _
  · simp [after, hd]
  · refine ⟨ty, ts, xs, h1, h2, by simp, ?_, h4⟩
    rw [readAllA_congr (ρ := ρ)]
    · exact h3
    · intro v hv
      apply Function.update_of_ne
      rintro rfl
      rcases hes v hv with h | h
      · exact hfr.1 h
      · exact hfr.2 h

theorem St.look_some {st : St} {v : Value} {es : List Value} (h : st.look v = some es) :
    ∃ id, v = .Operand id ∧ st.states.lookup id = some es := by
  cases v with
  | Operand id => exact ⟨id, rfl, h⟩
  | Literal l => simp [St.look] at h
  | Error => simp [St.look] at h

/-- The element of a tracked aggregate. -/
theorem extract_sim {S : List ValueId} {i : Instr} {st : St} {ρ σ : AEnv} {d s : ValueId} {es : List Value} {xs : List AVal}
    {v : Value} {x : AVal} {k : ℕ} {ty sty : MirType} (h : Step N R T T' S i (extract st d v ty).1 (extract st d v ty).2)
    (hd : i.destinations = [d]) (hi : Inv N T S st ρ) (ha : Agree N R ρ σ) (hl : st.states.lookup s = some es)
    (hv : es[k]? = some v) (hs : ρ s = some (.agg xs)) (hx : xs[k]? = some x) (hty : T d = some ty) (hst : T s = some sty)
    (hc : componentB sty k ty = true) :
    ∃ σ', evalAs T' calls (extract st d v ty).1 σ = some σ' ∧ Agree N R (Function.update ρ d (some x)) σ' ∧
      Inv N T (after i S) (extract st d v ty).2 (Function.update ρ d (some x)) := by
  obtain ⟨hsS, hesS, sty', ts, xs', h1, h2, h3, h4, h5⟩ := hi.tracked s es hl
  rw [hst, Option.some.injEq] at h1
  subst h1
  rw [hs, Option.some.injEq, AVal.agg.injEq] at h3
  subst h3
  have htk : ts[k]? = some ty := by
    simp only [componentB, h2] at hc
    split at hc
    · rename_i t ht; rw [ht, tyEq_sound _ _ hc]
    · simp at hc
  have hread : readA ρ ty v = some x := by rw [readAllA_get h4 htk hv, hx]
  have hvS : ∀ w ∈ v.ids, w ∈ S := fun w hw => hesS w (valuesIds_get hv hw)
  cases hlk : st.look v with
  | some es' =>
    obtain ⟨id, rfl, hl'⟩ := St.look_some hlk
    obtain ⟨_, hes', ty', ts', ys, g1, g2, g3, g4, g5⟩ := hi.tracked id es' hl'
    have : T id = some ty := hasTyB_operand (haveTysB_get h5 htk hv)
    rw [this, Option.some.injEq] at g1
    subst g1
    simp only [readA] at hread
    rw [hread, Option.some.injEq] at g3
    subst g3
    have e : extract st d (.Operand id) ty = ([], st.track d es') := by simp [extract, hlk]
    rw [e] at h ⊢
    exact drop_sim h hd hi ha (fun w hw => .inl (hes' w hw)) hty g2 g4 g5
  | none =>
    have e : extract st d v ty = ([.Assign d v ty], { st with modified := true }) := by simp [extract, hlk]
    rw [e] at h ⊢
    have : readA σ ty v = some x := by
      rw [readA_congr (fun w hw => ha w (hi.seen w (hvS w hw))
        (h.used _ (List.mem_singleton.2 rfl) w (by simpa [usesOf, Instr.uses] using hw)))]
      exact hread
    refine ⟨Function.update σ d (some x), by simp [evalAs, evalA, this], agree_update ha _ _, Inv.modified (h.stable hi ?_) _⟩
    intro w hw
    rw [hd, List.mem_singleton] at hw
    exact Function.update_of_ne hw _ _

theorem sourceB_some {types : ValueId → Option MirType} {i : MirType → Option ℕ} {t : MirType} {v : ValueId}
    (h : sourceB types i t (.Operand v) = true) : ∃ ty k, types v = some ty ∧ i ty = some k ∧ componentB ty k t = true := by
  simp only [sourceB] at h
  split at h
  · rename_i ty hty
    split at h
    · rename_i k hk; exact ⟨ty, k, hty, hk, h⟩
    · simp at h
  · simp at h

/-- One instruction. -/
theorem step_sim {cross : List ValueId} {instrs : List Instr} {S : List ValueId} {i : Instr} {js : List Instr} {st st' : St}
    {ρ σ ρ' : AEnv} (hs : step cross instrs st i = some (js, st')) (h : Step N R T T' S i js st') (hi : Inv N T S st ρ)
    (ha : Agree N R ρ σ) (he : evalA T calls i ρ = some ρ') :
    ∃ σ', evalAs T' calls js σ = some σ' ∧ Agree N R ρ' σ' ∧ Inv N T (after i S) st' ρ' := by
  have keep : some ([i], st) = some (js, st') →
      ∃ σ', evalAs T' calls js σ = some σ' ∧ Agree N R ρ' σ' ∧ Inv N T (after i S) st' ρ' := by
    intro e
    simp only [Option.some.injEq, Prod.mk.injEq] at e
    obtain ⟨rfl, rfl⟩ := e
    exact keep_sim h hi ha he
  cases i with
  | MakeTuple d es =>
    simp only [step] at hs
    split_ifs at hs with hok
    · simp only [Option.some.injEq, Prod.mk.injEq] at hs
      obtain ⟨rfl, rfl⟩ := hs
      have ht := h.typed
      simp only [evalA] at he
      simp only [typedB] at ht
      split at he
      · rename_i ts hts
        simp only [hts] at ht
        simp only [Option.map_eq_some_iff] at he
        obtain ⟨xs, hx, rfl⟩ := he
        exact drop_sim h rfl hi ha (fun v hv => .inr (by simpa [Instr.uses] using hv)) hts rfl hx ht
      · simp at he
    · exact keep hs
  | MakeStruct d given ty =>
    simp only [step] at hs
    split_ifs at hs with hok
    · split at hs
      · rename_i es hes
        simp only [Option.some.injEq, Prod.mk.injEq] at hs
        obtain ⟨rfl, rfl⟩ := hs
        have ht := h.typed
        simp only [evalA] at he
        split at he
        · rename_i n fs
          simp only [typedB, Bool.and_eq_true] at ht
          have hd : T d = some (.Struct n fs) := hasTyB_operand ht.1
          have hdN : d < N := h.below d (by simp [Instr.destinations])
          rw [hi.types d hdN, hd] at hes
          simp only [structFields, Option.getD_some, Option.bind_some, fromStructFields_eq] at hes
          simp only [Option.map_eq_some_iff, Option.bind_eq_some_iff] at he
          obtain ⟨es', he1, xs, hx, rfl⟩ := he
          rw [hes, Option.some.injEq] at he1
          subst he1
          rw [hes] at ht
          refine drop_sim h rfl hi ha (fun v hv => .inr ?_) hd rfl hx ht.2
          have hin : ∀ (fs : List (Name × MirType)) (vs : List Value), inOrder given fs = some vs →
              ∀ x ∈ valuesIds vs, x ∈ valuesIds (given.map Prod.snd) := by
            intro fs
            induction fs with
            | nil => intro vs hv; simp only [inOrder, Option.some.injEq] at hv; subst hv; simp [valuesIds]
            | cons f fs ih =>
              intro vs hv
              simp only [inOrder, Option.bind_eq_some_iff, Option.map_eq_some_iff] at hv
              obtain ⟨w, hw, ws, hws, rfl⟩ := hv
              intro x hx
              simp only [valuesIds, List.flatMap_cons, List.mem_append] at hx
              rcases hx with hx | hx
              · simp only [valuesIds, List.mem_flatMap, List.mem_map]
                rw [List.lookup_eq_some_iff] at hw
                obtain ⟨l₁, l₂, hl, _⟩ := hw
                exact ⟨w, ⟨(f.1, w), by rw [hl]; simp, rfl⟩, hx⟩
              · exact ih ws hws x hx
          exact hin fs es hes v hv
        · simp at he
      · exact keep hs
    · exact keep hs
  | MakeFixedArray d es ty c => simp [evalA, evalInstr] at he
  | InsertTuple d t k v ty =>
    simp only [step] at hs
    split at hs
    · rename_i es hes
      split_ifs at hs with hk
      · simp only [Option.some.injEq, Prod.mk.injEq] at hs
        obtain ⟨rfl, rfl⟩ := hs
        have ht := h.typed
        obtain ⟨id, rfl, hl⟩ := St.look_some hes
        simp only [typedB, Bool.and_eq_true] at ht
        obtain ⟨⟨ht1, ht2⟩, ht3⟩ := ht
        obtain ⟨_, hesS, ty', ts, xs, g1, g2, g3, g4, g5⟩ := hi.tracked id es hl
        rw [hasTyB_operand ht2, Option.some.injEq] at g1
        subst g1
        simp only [evalA, Option.bind_eq_some_iff] at he
        obtain ⟨ts', e1, et, e2, xs', e3, x, e4, he⟩ := he
        rw [g2, Option.some.injEq] at e1
        subst e1
        simp only [elements, g3, Option.some.injEq] at e3
        subst e3
        split_ifs at he with hk'
        simp only [Option.some.injEq] at he
        subst he
        simp only [g2, Option.bind_some, e2] at ht3
        refine drop_sim h rfl hi ha (fun w hw => ?_) (hasTyB_operand ht1) g2 (readAllA_set g4 e2 e4) (haveTysB_set g5 e2 ht3)
        rcases valuesIds_set hw with hw | hw
        · exact .inl (hesS w hw)
        · exact .inr (by simp [Instr.uses, hw])
      · exact keep hs
    · exact keep hs
  | InsertField d s name v ty =>
    simp only [step] at hs
    split at hs
    · rename_i es k hes hk
      split_ifs at hs with hlt
      · simp only [Option.some.injEq, Prod.mk.injEq] at hs
        obtain ⟨rfl, rfl⟩ := hs
        have ht := h.typed
        obtain ⟨id, rfl, hl⟩ := St.look_some hes
        simp only [typedB, Bool.and_eq_true] at ht
        obtain ⟨⟨ht1, ht2⟩, ht3⟩ := ht
        obtain ⟨_, hesS, ty', ts, xs, g1, g2, g3, g4, g5⟩ := hi.tracked id es hl
        rw [hasTyB_operand ht2, Option.some.injEq] at g1
        subst g1
        simp only [evalA, Option.bind_eq_some_iff] at he
        obtain ⟨k', e0, ts', e1, et, e2, xs', e3, x, e4, he⟩ := he
        rw [structFieldIndex_eq, e0, Option.some.injEq] at hk
        subst hk
        rw [g2, Option.some.injEq] at e1
        subst e1
        simp only [elements, g3, Option.some.injEq] at e3
        subst e3
        split_ifs at he with hk'
        simp only [Option.some.injEq] at he
        subst he
        simp only [g2, e0, Option.bind_some, e2] at ht3
        refine drop_sim h rfl hi ha (fun w hw => ?_) (hasTyB_operand ht1) g2 (readAllA_set g4 e2 e4) (haveTysB_set g5 e2 ht3)
        rcases valuesIds_set hw with hw | hw
        · exact .inl (hesS w hw)
        · exact .inr (by simp [Instr.uses, hw])
      · exact keep hs
    · exact keep hs
  | ExtractTupleElement d t k ty =>
    simp only [step] at hs
    split at hs
    · rename_i es hes
      split at hs
      · rename_i v hv
        simp only [Option.some.injEq] at hs
        have hjs : js = (extract st d v ty).1 := by rw [hs]
        have hst : st' = (extract st d v ty).2 := by rw [hs]
        subst hjs hst
        have ht := h.typed
        obtain ⟨id, rfl, hl⟩ := St.look_some hes
        simp only [typedB, Bool.and_eq_true] at ht
        obtain ⟨sty, k', s1, s2, s3⟩ := sourceB_some ht.2
        simp only [Option.some.injEq] at s2
        subst s2
        obtain ⟨_, _, _, _, xs, _, _, g3, _, _⟩ := hi.tracked id es hl
        simp only [evalA, elements, g3, Option.bind_some, Option.map_eq_some_iff] at he
        obtain ⟨x, hx, rfl⟩ := he
        exact extract_sim h rfl hi ha hl hv g3 hx (hasTyB_operand ht.1) s1 s3
      · exact keep hs
    · exact keep hs
  | ExtractStructField d s name ty =>
    cases s with
    | Operand id =>
      simp only [step] at hs
      split at hs
      · rename_i k es hk hes
        split at hs
        · rename_i v hv
          simp only [Option.some.injEq] at hs
          have hjs : js = (extract st d v ty).1 := by rw [hs]
          have hst : st' = (extract st d v ty).2 := by rw [hs]
          subst hjs hst
          have ht := h.typed
          simp only [typedB, Bool.and_eq_true] at ht
          obtain ⟨sty, k', s1, s2, s3⟩ := sourceB_some ht.2
          have hidN : id < N := h.below id (by simp [Instr.uses, Value.ids])
          rw [hi.types id hidN, s1, Option.bind_some, structFieldIndex_eq, s2, Option.some.injEq] at hk
          subst hk
          simp only [St.look] at hes
          obtain ⟨_, _, _, _, xs, _, _, g3, _, _⟩ := hi.tracked id es hes
          simp only [evalA, s1, s2, elements, g3, Option.bind_some, Option.map_eq_some_iff] at he
          obtain ⟨x, hx, rfl⟩ := he
          exact extract_sim h rfl hi ha hes hv g3 hx (hasTyB_operand ht.1) s1 s3
        · exact keep hs
      · exact keep hs
    | Literal l => simp [evalA, evalInstr] at he
    | Error => simp [evalA, evalInstr] at he
  | Load d p ty => simp [evalA, evalInstr] at he
  | Store p v ty => simp [evalA, evalInstr] at he
  | Assign d v ty =>
    simp only [step] at hs
    split at hs
    · rename_i es hes
      split_ifs at hes with hagg
      simp only [Option.some.injEq, Prod.mk.injEq] at hs
      obtain ⟨rfl, rfl⟩ := hs
      have ht := h.typed
      obtain ⟨id, rfl, hl⟩ := St.look_some hes
      simp only [typedB, hagg, Bool.not_true, Bool.false_or, Bool.and_eq_true] at ht
      obtain ⟨_, hesS, ty', ts, xs, g1, g2, g3, g4, g5⟩ := hi.tracked id es hl
      rw [hasTyB_operand ht.2, Option.some.injEq] at g1
      subst g1
      simp only [evalA, readA, g3, Option.map_some, Option.some.injEq] at he
      subst he
      exact drop_sim h rfl hi ha (fun w hw => .inl (hesS w hw)) (hasTyB_operand ht.1) g2 g4 g5
    · exact keep hs
  | Call ds callee args sig =>
    simp only [step, Option.map_eq_some_iff, Prod.exists, Prod.mk.injEq] at hs
    obtain ⟨is, bs, st₁, hc, rfl, rfl⟩ := hs
    simp only [evalA, Option.bind_eq_some_iff] at he
    obtain ⟨xs, hx, ys, hy, hb⟩ := he
    obtain ⟨σ₁, h1, h2, h3, h4, h5⟩ := callArgs_sim (calls := calls) (T' := T') hi hc h.typed hx ha
      (fun v hv => h.below v (List.mem_append_left _ (by simpa [Instr.uses] using hv)))
      (fun j hj => h.used j (List.mem_append_left _ hj))
      (fun v hv => h.used _ (List.mem_append_right _ (List.mem_singleton.2 rfl)) v (by simpa [usesOf, Instr.uses] using hv))
      h.later
    obtain ⟨σ', hb', ha'⟩ := bindA_agree h3 hb
    refine ⟨σ', ?_, ha', h.stable h4 (fun v hv => bindA_frame hb v (by simpa [Instr.destinations] using hv))⟩
    rw [evalAs_append, h1]
    simp [evalAs, evalA, h2, hy, hb']
  | UnaryOp op d v => exact keep hs
  | BinaryOp op d l r => exact keep hs
  | Cast d v s t => exact keep hs
  | Debug vs => exact keep hs
  | Nop => exact keep hs
  | Phi d ty ss => exact keep hs
  | AssertEq l r => exact keep hs
  | HeapAllocCells d v => exact keep hs

end

end Sroa
end Mir
end CairoM
