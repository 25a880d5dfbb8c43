import Verif.SroaStep

/-! # Replacement of aggregates: blocks and functions -/

namespace CairoM
namespace Mir
namespace Sroa

open Agg Lang

section
variable {N : ℕ} {R : List ValueId} {T T' : ValueId → Option MirType} {calls : ACalls}

theorem freshB_cons {S : List ValueId} {i : Instr} {is : List Instr} (h : freshB S (i :: is) = true) :
    (∀ d ∈ i.destinations, d ∉ S ∧ d ∉ i.uses) ∧ freshB (after i S) is = true := by
  simp only [freshB, Bool.and_eq_true, List.all_eq_true, decide_eq_true_eq] at h
  exact ⟨h.1, h.2⟩

/-- The instructions after the phi nodes. -/
theorem steps_sim {cross : List ValueId} {instrs : List Instr} : ∀ {is : List Instr} {S : List ValueId} {js : List Instr}
    {st st' : St} {ρ σ ρ' : AEnv}, steps cross instrs is st = some (js, st') → freshB S is = true →
    (∀ i ∈ is, belowB N i = true) → (∀ i ∈ is, typedB T i = true) → (∀ j ∈ js, ∀ v ∈ usesOf j, v ∉ R) →
    (∀ v ∈ st'.states.map Prod.fst, v ∈ R) → (∀ v, v < st'.next → T' v = st'.types v) → Inv N T S st ρ → Agree N R ρ σ →
    evalAs T calls is ρ = some ρ' →
    ∃ σ' S', evalAs T' calls js σ = some σ' ∧ Agree N R ρ' σ' ∧ Inv N T S' st' ρ'
  | [], S, js, st, st', ρ, σ, ρ', hs, _, _, _, _, _, _, hi, ha, he => by
    simp only [steps, Option.some.injEq, Prod.mk.injEq] at hs
    obtain ⟨rfl, rfl⟩ := hs
    simp only [evalAs, Option.some.injEq] at he
    subst he
    exact ⟨σ, S, rfl, ha, hi⟩
  | i :: is, S, js, st, st', ρ, σ, ρ', hs, hf, hb, ht, hu, hk, hl, hi, ha, he => by
    simp only [steps] at hs
    split at hs
    · simp at hs
    · rename_i js₁ st₁ h1
      simp only [Option.map_eq_some_iff, Prod.exists, Prod.mk.injEq] at hs
      obtain ⟨js₂, st₂, h2, rfl, rfl⟩ := hs
      simp only [evalAs, Option.bind_eq_some_iff] at he
      obtain ⟨ρ₁, he1, he2⟩ := he
      have hg := grows_steps h2
      have hf' := freshB_cons hf
      have hstep : Step N R T T' S i js₁ st₁ :=
        { below := by
            have := hb i List.mem_cons_self
            simp only [belowB, List.all_eq_true, decide_eq_true_eq] at this
            exact this
          fresh := hf'.1
          typed := ht i List.mem_cons_self
          used := fun j hj => hu j (List.mem_append_left _ hj)
          keys := fun v hv => hk v (hg.2.2 v hv)
          later := fun v hv => (hl v (Nat.lt_of_lt_of_le hv hg.1)).trans (hg.2.1 v hv) }
      obtain ⟨σ₁, e1, a1, i1⟩ := step_sim h1 hstep hi ha he1
      obtain ⟨σ₂, S₂, e2, a2, i2⟩ := steps_sim h2 hf'.2 (fun i hi => hb i (List.mem_cons_of_mem _ hi))
        (fun i hi => ht i (List.mem_cons_of_mem _ hi)) (fun j hj => hu j (List.mem_append_right _ hj)) hk hl i1 a1 he2
      exact ⟨σ₂, S₂, by rw [evalAs_append, e1]; exact e2, a2, i2⟩

/-- The returned values. -/
theorem returnValues_sim {S : List ValueId} {ρ : AEnv} {types : ValueId → Option MirType} (hty : ∀ v, v < N → types v = T v) :
    ∀ {vs : List Value} {tys : List MirType} {st st' : St} {is : List Instr} {ws : List Value} {σ : AEnv} {xs : List AVal},
    Inv N T S st ρ → returnValues types st vs = some (is, ws, st') → returnsB T (.Return vs) = true →
    readAllA ρ tys vs = some xs → Agree N R ρ σ → (∀ v ∈ valuesIds vs, v < N) →
    (∀ j ∈ is, ∀ v ∈ usesOf j, v ∉ R) → (∀ v ∈ valuesIds ws, v ∉ R) → (∀ v, v < st'.next → T' v = st'.types v) →
    ∃ σ', evalAs T' calls is σ = some σ' ∧ readAllA σ' tys ws = some xs ∧ Agree N R ρ σ' ∧
      ∀ v, v < st.next → σ' v = σ v
  | [], [], st, st', is, ws, σ, xs, hi, hc, _, hr, ha, _, _, _, _ => by
    simp only [returnValues, Option.some.injEq, Prod.mk.injEq] at hc
    obtain ⟨rfl, rfl, rfl⟩ := hc
    exact ⟨σ, rfl, hr, ha, fun _ _ => rfl⟩
  | [], _ :: _, _, _, _, _, _, _, _, _, _, hr, _, _, _, _, _ => by simp [readAllA] at hr
  | _ :: _, [], _, _, _, _, _, _, _, _, _, hr, _, _, _, _, _ => by simp [readAllA] at hr
  | a :: as, p :: ps, st, st', is, ws, σ, xs, hi, hc, hb, hr, ha, hn, hu, hv, hT => by
    have hb' : returnsB T (.Return as) = true := by
      simp only [returnsB, List.all_cons, Bool.and_eq_true] at hb ⊢
      exact hb.2
    simp only [valuesIds, List.flatMap_cons, List.mem_append] at hn
    simp only [readAllA, Option.bind_eq_some_iff, Option.map_eq_some_iff] at hr
    obtain ⟨x, hx, ys, hy, rfl⟩ := hr
    have plain : ∀ {js cs st₂}, returnValues types st as = some (js, cs, st₂) → (js, a :: cs, st₂) = (is, ws, st') →
        ∃ σ', evalAs T' calls is σ = some σ' ∧ readAllA σ' (p :: ps) ws = some (x :: ys) ∧ Agree N R ρ σ' ∧
          ∀ v, v < st.next → σ' v = σ v := by
      intro js cs st₂ hr e
      simp only [Prod.mk.injEq] at e
      obtain ⟨rfl, rfl, rfl⟩ := e
      simp only [valuesIds, List.flatMap_cons, List.mem_append] at hv
      obtain ⟨σ', h1, h2, h3, h4⟩ := returnValues_sim hty hi hr hb' hy ha (fun v h => hn v (.inr h)) hu
        (fun v h => hv v (.inr h)) hT
      refine ⟨σ', h1, ?_, h3, h4⟩
      have : readA σ' p a = some x := by
        rw [readA_congr (fun v h => h3 v (hn v (.inl h)) (hv v (.inl h)))]; exact hx
      simp [readAllA, this, h2]
    simp only [returnValues] at hc
    split at hc
    · rename_i id es hes
      have hidN : id < N := hn id (.inl (by simp [Value.ids]))
      split at hc
      · rename_i ty htyp
        rw [hty id hidN] at htyp
        split at hc
        · simp at hc
        · rename_i is₁ st₁ hm
          simp only [Option.map_eq_some_iff, Prod.exists, Prod.mk.injEq] at hc
          obtain ⟨js, cs, st₂, hr, rfl, rfl, rfl⟩ := hc
          simp only [St.look] at hes
          have hdist : distinctB ty = true := by
            simp only [returnsB, List.all_cons, Bool.and_eq_true, htyp] at hb
            exact hb.1
          have hg := grows_returnValues hr
          have hst := materialize_st hm
          simp only [valuesIds, List.flatMap_cons, List.mem_append] at hv
          have hmat := materialize_sim (calls := calls) hi hes htyp hdist hm ha
            (fun j hj => hu j (List.mem_append_left _ hj)) (T' := T')
            (fun v h => (hT v (Nat.lt_of_lt_of_le h hg.1)).trans (hg.2.1 v h))
          have hi' : Inv N T S st₁ ρ := hst ▸ hi.fresh ty
          obtain ⟨σ', h1, h2, h3, h5⟩ := returnValues_sim hty hi' hr hb' hy (agree_new ha hi.next (ρ id))
            (fun v h => hn v (.inr h)) (fun j hj => hu j (List.mem_append_right _ hj)) (fun v h => hv v (.inr h)) hT
          refine ⟨σ', ?_, ?_, h3, ?_⟩
          · rw [evalAs_append, hmat]; exact h1
          · have : σ' st.next = ρ id := by
              rw [h5 st.next (by rw [hst]; exact Nat.lt_succ_self _)]; simp
            simp only [readA] at hx
            simp [readAllA, readA, this, hx, h2]
          · intro v hlt
            rw [h5 v (by rw [hst]; exact Nat.lt_succ_of_lt hlt)]
            exact Function.update_of_ne (Nat.ne_of_lt hlt) _ _
      · simp only [Option.map_eq_some_iff, Prod.exists] at hc
        obtain ⟨js, cs, st₂, hr, e⟩ := hc
        exact plain hr e
    · simp only [Option.map_eq_some_iff, Prod.exists] at hc
      obtain ⟨js, cs, st₂, hr, e⟩ := hc
      exact plain hr e

/-- A terminator that is kept. -/
theorem evalTermA_agree {tys : List MirType} {t : Terminator} {ρ σ : AEnv} (ha : Agree N R ρ σ)
    (hu : ∀ v ∈ t.uses, v < N ∧ v ∉ R) : evalTermA tys σ t = evalTermA tys ρ t := by
  have hs : ∀ v ∈ t.uses, σ v = ρ v := fun v hv => ha v (hu v hv).1 (hu v hv).2
  cases t with
  | Return vs => simp only [evalTermA]; rw [readAllA_congr (by simpa [Terminator.uses] using hs)]
  | Jump b => rfl
  | If c a b =>
    simp only [Terminator.uses] at hs
    simp only [evalTermA, evalTerm, readPlain_congr hs]
  | BranchCmp op l r a b =>
    simp only [Terminator.uses, List.mem_append] at hs
    simp only [evalTermA, evalTerm, operand_congr (fun x hx => hs x (.inl hx)), operand_congr (fun x hx => hs x (.inr hx))]
  | Unreachable => rfl

/-- Instructions that are all kept. -/
theorem evalAs_agree : ∀ {is : List Instr} {ρ σ ρ' : AEnv}, Agree N R ρ σ → (∀ v, v < N → T' v = T v) →
    (∀ i ∈ is, belowB N i = true) → (∀ i ∈ is, ∀ v ∈ usesOf i, v ∉ R) → evalAs T calls is ρ = some ρ' →
    ∃ σ', evalAs T' calls is σ = some σ' ∧ Agree N R ρ' σ'
  | [], ρ, σ, ρ', ha, _, _, _, h => by
    simp only [evalAs, Option.some.injEq] at h; subst h; exact ⟨σ, rfl, ha⟩
  | i :: is, ρ, σ, ρ', ha, ht, hb, hu, h => by
    simp only [evalAs, Option.bind_eq_some_iff] at h ⊢
    obtain ⟨ρ₁, h1, h2⟩ := h
    have hbi := hb i List.mem_cons_self
    simp only [belowB, List.all_eq_true, decide_eq_true_eq] at hbi
    have hsub : ∀ v ∈ usesOf i, v ∈ i.uses := by
      intro v hv
      cases i <;> first | exact hv | simp [usesOf] at hv
    obtain ⟨σ₁, e1, a1⟩ := evalA_agree (calls := calls) (types' := T') ha
      (fun v hv => ⟨hbi v (List.mem_append_left _ (hsub v hv)), hu i List.mem_cons_self v hv⟩)
      (fun v hv => ht v (by apply hbi; cases i <;> simp_all [typeNames, Instr.uses, Instr.destinations])) h1
    obtain ⟨σ₂, e2, a2⟩ := evalAs_agree a1 ht (fun i hi => hb i (List.mem_cons_of_mem _ hi))
      (fun i hi => hu i (List.mem_cons_of_mem _ hi)) h2
    exact ⟨σ₂, ⟨σ₁, e1, e2⟩, a2⟩

/-! ### Phi nodes -/

theorem lookup_ids {sources : List (BlockId × Value)} {p : BlockId} {v : Value} (h : sources.lookup p = some v) :
    ∀ x ∈ v.ids, x ∈ valuesIds (sources.map Prod.snd) := by
  intro x hx
  rw [List.lookup_eq_some_iff] at h
  obtain ⟨l₁, l₂, hl, _⟩ := h
  simp only [valuesIds, List.mem_flatMap, List.mem_map]
  exact ⟨v, ⟨(p, v), by rw [hl]; simp, rfl⟩, hx⟩

theorem evalPhisA_agree {ρ σ : AEnv} {pred : Option BlockId} (ha : Agree N R ρ σ) : ∀ {is : List Instr} {acc acc' ρ' : AEnv}
    {rest : List Instr}, Agree N R acc acc' → (∀ i ∈ is.takeWhile isPhi, ∀ v ∈ i.uses, v < N ∧ v ∉ R) →
    evalPhisA ρ pred is acc = some (ρ', rest) → rest = is.dropWhile isPhi ∧
    ∃ σ', (∀ tail : List Instr, tail.head?.all (fun i => !isPhi i) → evalPhisA σ pred (is.takeWhile isPhi ++ tail) acc' =
      some (σ', tail)) ∧ Agree N R ρ' σ'
  | [], acc, acc', ρ', rest, h, _, he => by
    simp only [evalPhisA, Option.some.injEq, Prod.mk.injEq] at he
    obtain ⟨rfl, rfl⟩ := he
    refine ⟨rfl, acc', fun tail ht => ?_, h⟩
    cases tail with
    | nil => rfl
    | cons i is => cases i <;> simp_all [evalPhisA, isPhi]
  | i :: is, acc, acc', ρ', rest, h, hu, he => by
    by_cases hp : isPhi i = true
    · cases i with
      | Phi d ty ss =>
        simp only [evalPhisA, Option.bind_eq_some_iff] at he
        obtain ⟨p, rfl, v, hl, x, hx, he⟩ := he
        simp only [List.takeWhile_cons_of_pos hp, List.dropWhile_cons_of_pos hp] at hu ⊢
        have hu0 := hu _ List.mem_cons_self
        have hx' : readA σ ty v = some x := by
          rw [readA_congr (fun w hw => ?_)]
          · exact hx
          · have := hu0 w (by simpa [Instr.uses] using lookup_ids hl w hw)
            exact ha w this.1 this.2
        obtain ⟨h1, σ', h2, h3⟩ := evalPhisA_agree ha (agree_update h d (some x)) (fun i hi => hu i (List.mem_cons_of_mem _ hi)) he
        refine ⟨h1, σ', fun tail ht => ?_, h3⟩
        simp only [List.cons_append, evalPhisA, Option.bind_some, hl, hx']
        exact h2 tail ht
      | _ => simp [isPhi] at hp
    · have he' : evalPhisA ρ pred (i :: is) acc = some (acc, i :: is) := by
        cases i <;> first | rfl | simp [isPhi] at hp
      rw [he', Option.some.injEq, Prod.mk.injEq] at he
      obtain ⟨rfl, rfl⟩ := he
      rw [List.takeWhile_cons_of_neg hp, List.dropWhile_cons_of_neg hp]
      refine ⟨rfl, acc', fun tail ht => ?_, h⟩
      cases tail with
      | nil => rfl
      | cons i is => cases i <;> simp_all [evalPhisA, isPhi]

theorem mem_takeWhile_isPhi {i : Instr} : ∀ {is : List Instr}, i ∈ is.takeWhile isPhi → isPhi i = true
  | [], h => by simp at h
  | j :: is, h => by
    by_cases hp : isPhi j = true
    · rw [List.takeWhile_cons_of_pos hp, List.mem_cons] at h
      rcases h with rfl | h
      · exact hp
      · exact mem_takeWhile_isPhi h
    · rw [List.takeWhile_cons_of_neg hp] at h; simp at h

theorem evalAs_noPhi {types : ValueId → Option MirType} {is : List Instr} {env env' : AEnv}
    (h : evalAs types calls is env = some env') : is.head?.all (fun i => !isPhi i) = true := by
  cases is with
  | nil => rfl
  | cons i is =>
    cases i <;> first | rfl | simp [evalAs, evalA, evalInstr] at h

/-! ### Blocks -/

theorem grows_block {cross : List ValueId} {types : ValueId → Option MirType} {next : ValueId} {b b' : Block} {st : St}
    (h : block cross types next b = some (b', st)) : Grows (start types next) st := by
  simp only [block] at h
  split_ifs at h
  · simp only [Option.some.injEq, Prod.mk.injEq] at h; rw [← h.2]; exact Grows.refl _
  · split at h
    · simp at h
    · rename_i h1
      split at h
      · simp at h
      · rename_i h2
        have hg := (grows_steps h1).trans (grows_terminator h2)
        split_ifs at h <;> simp only [Option.some.injEq, Prod.mk.injEq] at h <;> rw [← h.2] <;> exact hg

theorem block_sim {cross : List ValueId} {types : ValueId → Option MirType} {next : ℕ} {b b' : Block} {st : St}
    {tys : List MirType} {pred : Option BlockId} {ρ σ ρ' : AEnv} {x : AExit} (h : block cross types next b = some (b', st))
    (hty : ∀ v, v < N → types v = T v) (hnx : N ≤ next) (hb : blockB N T b = true) (hu : ∀ v ∈ blockUses b', v ∉ R)
    (hk : st.modified = true → ∀ v ∈ st.states.map Prod.fst, v ∈ R) (hl : ∀ v, v < st.next → T' v = st.types v)
    (ha : Agree N R ρ σ) (he : evalBlockA T calls tys b pred ρ = some (x, ρ')) :
    ∃ σ', evalBlockA T' calls tys b' pred σ = some (x, σ') ∧ Agree N R ρ' σ' := by
  have hg := grows_block h
  have hT : ∀ v, v < N → T' v = T v := fun v hv => by
    rw [hl v (Nat.lt_of_lt_of_le hv (Nat.le_trans hnx hg.1)), hg.2.1 v (Nat.lt_of_lt_of_le hv hnx)]
    exact hty v hv
  simp only [blockB, Bool.and_eq_true, List.all_eq_true, decide_eq_true_eq] at hb
  obtain ⟨⟨⟨⟨hb1, hb2⟩, hb3⟩, hb4⟩, hb5⟩ := hb
  simp only [evalBlockA, Option.bind_eq_some_iff, Option.map_eq_some_iff, Prod.exists, Prod.mk.injEq] at he
  obtain ⟨ρ₁, rest, hp, ρ₂, he2, x', he3, rfl, rfl⟩ := he
  simp only [blockUses, List.mem_append, List.mem_flatMap] at hu
  have huses : ∀ i ∈ b.instrs, ∀ v ∈ i.uses, v < N := by
    intro i hi v hv
    have := hb1 i hi
    simp only [belowB, List.all_eq_true, decide_eq_true_eq] at this
    exact this v (List.mem_append_left _ hv)
  have hphi : ∀ i : Instr, isPhi i = true → usesOf i = i.uses := by
    intro i hi; cases i <;> first | rfl | simp [isPhi] at hi
  have htake : ∀ i ∈ b.instrs.takeWhile isPhi, isPhi i = true ∧ i ∈ b.instrs := fun i hi =>
    ⟨mem_takeWhile_isPhi hi, List.takeWhile_subset _ hi⟩
  -- a block that is left as it is
  have same : b' = b → ∃ σ', evalBlockA T' calls tys b' pred σ = some (x', σ') ∧ Agree N R ρ₂ σ' := by
    rintro rfl
    obtain ⟨hrest, σ₁, hs1, ha1⟩ := evalPhisA_agree ha ha (fun i hi v hv => ⟨huses i (htake i hi).2 v hv,
      hu v (.inl ⟨i, (htake i hi).2, by rw [hphi i (htake i hi).1]; exact hv⟩)⟩) hp
    subst hrest
    obtain ⟨σ₂, hs2, ha2⟩ := evalAs_agree (T' := T') ha1 hT (fun i hi => hb1 i (List.dropWhile_subset _ hi))
      (fun i hi v hv => hu v (.inl ⟨i, List.dropWhile_subset _ hi, hv⟩)) he2
    refine ⟨σ₂, ?_, ha2⟩
    have := hs1 _ (evalAs_noPhi hs2)
    rw [List.takeWhile_append_dropWhile] at this
    simp only [evalBlockA, this, Option.bind_some, hs2]
    rw [evalTermA_agree ha2 (fun v hv => ⟨hb2 v hv, hu v (.inr hv)⟩), he3]
    rfl
  simp only [block] at h
  split_ifs at h with hagg
  · simp only [Option.some.injEq, Prod.mk.injEq] at h
    exact same h.1.symm
  · split at h
    · simp at h
    · rename_i is st₁ h1
      split at h
      · simp at h
      · rename_i js t st₂ h2
        split_ifs at h with hm
        · simp only [Option.some.injEq, Prod.mk.injEq] at h
          obtain ⟨rfl, rfl⟩ := h
          have hk := hk hm
          have hg2 := grows_terminator h2
          simp only [List.mem_append] at hu
          obtain ⟨hrest, σ₁, hs1, ha1⟩ := evalPhisA_agree ha ha (fun i hi v hv => ⟨huses i (htake i hi).2 v hv,
            hu v (.inl ⟨i, .inl (.inl hi), by rw [hphi i (htake i hi).1]; exact hv⟩)⟩) hp
          subst hrest
          have hi0 : Inv N T [] (start types next) ρ₁ :=
            { types := hty, next := hnx, seen := by simp, tracked := by simp [start] }
          obtain ⟨σ₂, S, hs2, ha2, hi2⟩ := steps_sim (T' := T') h1 hb4 (fun i hi => hb1 i (List.dropWhile_subset _ hi))
            (fun i hi => hb3 i (List.dropWhile_subset _ hi)) (fun j hj v hv => hu v (.inl ⟨j, .inl (.inr hj), hv⟩))
            (fun v hv => hk v (hg2.2.2 v hv)) (fun v hv => (hl v (Nat.lt_of_lt_of_le hv hg2.1)).trans (hg2.2.1 v hv))
            hi0 ha1 he2
          have finish : ∀ σ₃, evalAs T' calls js σ₂ = some σ₃ → evalTermA tys σ₃ t = some x' → Agree N R ρ₂ σ₃ →
              ∃ σ', evalBlockA T' calls tys ⟨b.instrs.takeWhile isPhi ++ is ++ js, t⟩ pred σ = some (x', σ') ∧ Agree N R ρ₂ σ' := by
            intro σ₃ e1 e2 a3
            have e : evalAs T' calls (is ++ js) σ₁ = some σ₃ := by rw [evalAs_append, hs2]; exact e1
            refine ⟨σ₃, ?_, a3⟩
            simp only [evalBlockA, List.append_assoc, hs1 _ (evalAs_noPhi e), Option.bind_some, e, e2, Option.map_some]
          cases hbt : b.term with
          | Return vs =>
            rw [hbt] at h2 hb2 hb5 he3
            simp only [terminator, Option.map_eq_some_iff, Prod.exists, Prod.mk.injEq] at h2
            obtain ⟨js', ws, st₃, hr, rfl, rfl, rfl⟩ := h2
            simp only [evalTermA, Option.map_eq_some_iff] at he3
            obtain ⟨xs, hx, rfl⟩ := he3
            obtain ⟨σ₃, e1, e2, a3, _⟩ := returnValues_sim (calls := calls) (T' := T') hi2.types hi2 hr hb5 hx ha2
              (fun v hv => hb2 v (by simpa [Terminator.uses] using hv))
              (fun j hj v hv => hu v (.inl ⟨j, .inr hj, hv⟩))
              (fun v hv => hu v (.inr (by simpa [Terminator.uses] using hv))) hl
            exact finish σ₃ e1 (by simp [evalTermA, e2]) a3
          | _ =>
            rw [hbt] at h2 hb2 he3
            simp only [terminator, Option.some.injEq, Prod.mk.injEq] at h2
            obtain ⟨rfl, rfl, rfl⟩ := h2
            exact finish σ₂ rfl (by rw [evalTermA_agree ha2 (fun v hv => ⟨hb2 v hv, hu v (.inr hv)⟩)]; exact he3) ha2
        · simp only [Option.some.injEq, Prod.mk.injEq] at h
          exact same h.1.symm

/-! ### Functions -/

theorem blocks_get {cross : List ValueId} : ∀ {bs bs' : List Block} {types types' : ValueId → Option MirType} {next next' : ℕ},
    blocks cross types next bs = some (bs', types', next') → N ≤ next → (∀ v, v < N → types v = T v) →
    next ≤ next' ∧ (∀ v, v < next → types' v = types v) ∧ bs'.length = bs.length ∧
    ∀ (k : ℕ) (b : Block), bs[k]? = some b → ∃ b' st types₀ next₀, bs'[k]? = some b' ∧ block cross types₀ next₀ b = some (b', st) ∧
      (∀ v, v < N → types₀ v = T v) ∧ N ≤ next₀ ∧ (∀ v, v < st.next → types' v = st.types v) ∧
      (st.modified = true → ∀ v ∈ st.states.map Prod.fst, v ∈ removedFrom cross types next bs)
  | [], bs', types, types', next, next', h, hn, ht => by
    simp only [blocks, Option.some.injEq, Prod.mk.injEq] at h
    obtain ⟨rfl, rfl, rfl⟩ := h
    exact ⟨Nat.le_refl _, fun _ _ => rfl, rfl, fun k b hb => by simp at hb⟩
  | c :: bs, bs', types, types', next, next', h, hn, ht => by
    simp only [blocks] at h
    split at h
    · simp at h
    · rename_i c' st hc
      simp only [Option.map_eq_some_iff, Prod.exists, Prod.mk.injEq] at h
      obtain ⟨bs'', types'', next'', hr, rfl, rfl, rfl⟩ := h
      have hg := grows_block hc
      have hg1 : next ≤ st.next := hg.1
      have hg2 : ∀ v, v < next → st.types v = types v := hg.2.1
      obtain ⟨r1, r2, r3, r4⟩ := blocks_get hr (Nat.le_trans hn hg1)
        (fun v hv => (hg2 v (Nat.lt_of_lt_of_le hv hn)).trans (ht v hv))
      refine ⟨Nat.le_trans hg1 r1, fun v hv => (r2 v (Nat.lt_of_lt_of_le hv hg1)).trans (hg2 v hv), by simp [r3], ?_⟩
      intro k b hb
      cases k with
      | zero =>
        simp only [List.getElem?_cons_zero, Option.some.injEq] at hb
        subst hb
        refine ⟨c', st, types, next, rfl, hc, ht, hn, r2, fun hm v hv => ?_⟩
        simp only [removedFrom, hc, hm, if_true]
        exact List.mem_append_left _ hv
      | succ k =>
        simp only [List.getElem?_cons_succ] at hb
        obtain ⟨b', st', t₀, n₀, a1, a2, a3, a4, a5, a6⟩ := r4 k b hb
        refine ⟨b', st', t₀, n₀, by simpa using a1, a2, a3, a4, a5, fun hm v hv => ?_⟩
        simp only [removedFrom, hc]
        exact List.mem_append_right _ (a6 hm v hv)

end

/-- The replacement of aggregates keeps what a function returns. -/
theorem sroa_run {f g : Function} (h : sroa f = some g) (hs : sourceOk f = true) (hr : resultOk (removed f) g = true)
    {calls : ACalls} {n : ℕ} {args vs : List AVal} (he : runA calls f n args = .returned vs) :
    runA calls g n args = .returned vs := by
  simp only [sroa, Option.map_eq_some_iff, Prod.exists] at h
  obtain ⟨bs, types, next, hb, rfl⟩ := h
  simp only [sourceOk, Bool.and_eq_true, List.all_eq_true, decide_eq_true_eq] at hs
  obtain ⟨⟨hs1, hs2⟩, hs3⟩ := hs
  simp only [resultOk, List.all_eq_true, decide_eq_true_eq] at hr
  obtain ⟨h1, h2, h3, h4⟩ := blocks_get (N := f.nextValue) (T := f.types) hb (Nat.le_refl _) (fun _ _ => rfl)
  have htys : typesOf types f.returns = typesOf f.types f.returns := by
    simp only [typesOf]
    exact List.map_congr_left fun v hv => by rw [h2 v (hs3 v hv)]
  have main : ∀ (n : ℕ) (pred : Option BlockId) (id : BlockId) (ρ σ : AEnv), Agree f.nextValue (removed f) ρ σ →
      execA calls f n pred id ρ = .returned vs →
      execA calls { f with blocks := bs, types := types, nextValue := next } n pred id σ = .returned vs := by
    intro n
    induction n with
    | zero => intro pred id ρ σ _ h; simp [execA] at h
    | succ n ih =>
      intro pred id ρ σ ha h
      simp only [execA] at h ⊢
      cases hbk : f.blocks[id]? with
      | none => simp [hbk] at h
      | some b =>
        simp only [hbk] at h
        obtain ⟨b', st, t₀, n₀, a1, a2, a3, a4, a5, a6⟩ := h4 id b hbk
        simp only [a1, htys]
        cases he : evalBlockA f.types calls (typesOf f.types f.returns) b pred ρ with
        | none => simp [he] at h
        | some p =>
          obtain ⟨x, ρ'⟩ := p
          simp only [he] at h
          obtain ⟨σ', e1, e2⟩ := block_sim a2 a3 a4 (hs1 b (List.mem_of_getElem? hbk)) (hr b' (List.mem_of_getElem? a1))
            a6 a5 ha he
          simp only [e1]
          cases x with
          | ret ws => exact h
          | goto t => exact ih _ _ _ _ e2 h
  simp only [runA] at he ⊢
  cases hbd : bindA (fun _ => none) f.params args with
  | none => simp [hbd] at he
  | some env =>
    simp only [hbd] at he ⊢
    exact main n none 0 env env (fun _ _ _ => rfl) he

end Sroa
end Mir
end CairoM
