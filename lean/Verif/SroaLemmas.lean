import Verif.SroaCheck

/-! # Replacement of aggregates: lemmas -/

namespace CairoM
namespace Mir
namespace Sroa

open Agg Lang

/-! ### Reading -/

/-- Environments that agree on the names below `N` that were not removed. -/
def Agree (N : ℕ) (R : List ValueId) (ρ σ : AEnv) : Prop := ∀ v, v < N → v ∉ R → σ v = ρ v

theorem readA_congr {ρ σ : AEnv} {t : MirType} {v : Value} (h : ∀ x ∈ v.ids, σ x = ρ x) : readA σ t v = readA ρ t v := by
  cases v <;> simp_all [readA, Value.ids]

theorem readAllA_congr {ρ σ : AEnv} : ∀ {ts : List MirType} {vs : List Value}, (∀ x ∈ valuesIds vs, σ x = ρ x) →
    readAllA σ ts vs = readAllA ρ ts vs
  | [], [], _ => rfl
  | [], _ :: _, _ => rfl
  | _ :: _, [], _ => rfl
  | t :: ts, v :: vs, h => by
    simp only [valuesIds, List.flatMap_cons, List.mem_append] at h
    simp only [readAllA]
    rw [readA_congr (fun x hx => h x (.inl hx)), readAllA_congr (fun x hx => h x (.inr hx))]

theorem elements_congr {ρ σ : AEnv} {v : Value} (h : ∀ x ∈ v.ids, σ x = ρ x) : elements σ v = elements ρ v := by
  cases v <;> simp_all [elements, Value.ids]

theorem scalars_congr {ρ σ : AEnv} {v : ValueId} (h : σ v = ρ v) : scalars σ v = scalars ρ v := by
  simp [scalars, h]

theorem readAt_congr {ρ σ : AEnv} {t : Ty} {v : Value} (h : ∀ x ∈ v.ids, σ x = ρ x) :
    readAt (scalars σ) t v = readAt (scalars ρ) t v := by
  cases v <;> simp_all [readAt, Value.ids, scalars]

theorem readPlain_congr {ρ σ : AEnv} {v : Value} (h : ∀ x ∈ v.ids, σ x = ρ x) :
    readPlain (scalars σ) v = readPlain (scalars ρ) v := by
  cases v <;> simp_all [readPlain, Value.ids, scalars]

theorem operand_congr {ρ σ : AEnv} {op : BinaryOp} {v : Value} (h : ∀ x ∈ v.ids, σ x = ρ x) :
    operand (scalars σ) op v = operand (scalars ρ) op v := by
  cases v <;> simp_all [operand, Value.ids, scalars]

theorem agree_update {N : ℕ} {R : List ValueId} {ρ σ : AEnv} (h : Agree N R ρ σ) (d : ValueId) (x : Option AVal) :
    Agree N R (Function.update ρ d x) (Function.update σ d x) := by
  intro v hv hr
  by_cases e : v = d
  · subst e; simp
  · simp [Function.update_of_ne e, h v hv hr]

theorem agree_removed {N : ℕ} {R : List ValueId} {ρ σ : AEnv} (h : Agree N R ρ σ) {d : ValueId} (hd : d ∈ R) (x : Option AVal) :
    Agree N R (Function.update ρ d x) σ := by
  intro v hv hr
  have : v ≠ d := fun e => hr (e ▸ hd)
  simp [Function.update_of_ne this, h v hv hr]

theorem agree_new {N : ℕ} {R : List ValueId} {ρ σ : AEnv} (h : Agree N R ρ σ) {d : ℕ} (hd : N ≤ d) (x : Option AVal) :
    Agree N R ρ (Function.update σ d x) := by
  intro v hv hr
  have : v ≠ d := Nat.ne_of_lt (Nat.lt_of_lt_of_le hv hd)
  simp [Function.update_of_ne this, h v hv hr]

theorem bindA_agree {N : ℕ} {R : List ValueId} : ∀ {ds : List ValueId} {xs : List AVal} {ρ σ ρ' : AEnv}, Agree N R ρ σ →
    bindA ρ ds xs = some ρ' → ∃ σ', bindA σ ds xs = some σ' ∧ Agree N R ρ' σ'
  | [], [], ρ, σ, ρ', h, e => by simp only [bindA, Option.some.injEq] at e; subst e; exact ⟨σ, rfl, h⟩
  | [], _ :: _, _, _, _, _, e => by simp [bindA] at e
  | _ :: _, [], _, _, _, _, e => by simp [bindA] at e
  | d :: ds, x :: xs, ρ, σ, ρ', h, e => by
    simp only [bindA] at e ⊢
    exact bindA_agree (agree_update h d (some x)) e

theorem bindA_frame : ∀ {ds : List ValueId} {xs : List AVal} {ρ ρ' : AEnv}, bindA ρ ds xs = some ρ' →
    ∀ v, v ∉ ds → ρ' v = ρ v
  | [], [], ρ, ρ', e, v, _ => by simp only [bindA, Option.some.injEq] at e; subst e; rfl
  | [], _ :: _, _, _, e, _, _ => by simp [bindA] at e
  | _ :: _, [], _, _, e, _, _ => by simp [bindA] at e
  | d :: ds, x :: xs, ρ, ρ', e, v, hv => by
    simp only [bindA] at e
    rw [List.mem_cons, not_or] at hv
    rw [bindA_frame e v hv.2, Function.update_of_ne hv.1]

/-- The dependence of an instruction on the types. -/
def typeNames : Instr → List ValueId
  | .MakeTuple d _ => [d]
  | .ExtractStructField _ s _ _ => s.ids
  | _ => []

theorem evalA_frame {types : ValueId → Option MirType} {calls : ACalls} {i : Instr} {ρ ρ' : AEnv}
    (h : evalA types calls i ρ = some ρ') : ∀ v, v ∉ i.destinations → ρ' v = ρ v := by
  intro v hv
  cases i with
  | Assign d x ty =>
    simp only [evalA, Option.map_eq_some_iff] at h
    obtain ⟨a, _, rfl⟩ := h
    exact Function.update_of_ne (by simpa [Instr.destinations] using hv) _ _
  | Call ds c args sig =>
    simp only [evalA, Option.bind_eq_some_iff] at h
    obtain ⟨_, _, _, _, h⟩ := h
    exact bindA_frame h v hv
  | MakeTuple d es =>
    simp only [evalA] at h
    split at h
    · simp only [Option.map_eq_some_iff] at h
      obtain ⟨a, _, rfl⟩ := h
      exact Function.update_of_ne (by simpa [Instr.destinations] using hv) _ _
    · simp at h
  | MakeStruct d es ty =>
    simp only [evalA] at h
    split at h
    · simp only [Option.map_eq_some_iff, Option.bind_eq_some_iff] at h
      obtain ⟨_, _, a, _, rfl⟩ := h
      exact Function.update_of_ne (by simpa [Instr.destinations] using hv) _ _
    · simp at h
  | ExtractTupleElement d t k ty =>
    simp only [evalA, Option.map_eq_some_iff, Option.bind_eq_some_iff] at h
    obtain ⟨_, _, a, _, rfl⟩ := h
    exact Function.update_of_ne (by simpa [Instr.destinations] using hv) _ _
  | ExtractStructField d s name ty =>
    cases s with
    | Operand s =>
      simp only [evalA, Option.map_eq_some_iff, Option.bind_eq_some_iff] at h
      obtain ⟨_, _, _, _, _, _, a, _, rfl⟩ := h
      exact Function.update_of_ne (by simpa [Instr.destinations] using hv) _ _
    | Literal l => simp [evalA, evalInstr] at h
    | Error => simp [evalA, evalInstr] at h
  | InsertTuple d t k x ty =>
    simp only [evalA, Option.bind_eq_some_iff] at h
    obtain ⟨_, _, _, _, _, _, _, _, h⟩ := h
    split_ifs at h
    simp only [Option.some.injEq] at h
    subst h
    exact Function.update_of_ne (by simpa [Instr.destinations] using hv) _ _
  | InsertField d s name x ty =>
    simp only [evalA, Option.bind_eq_some_iff] at h
    obtain ⟨_, _, _, _, _, _, _, _, _, _, h⟩ := h
    split_ifs at h
    simp only [Option.some.injEq] at h
    subst h
    exact Function.update_of_ne (by simpa [Instr.destinations] using hv) _ _
  | _ =>
    simp only [evalA, Option.map_eq_some_iff] at h
    obtain ⟨a, _, rfl⟩ := h
    simp [hv]

/-- An instruction that is kept. -/
theorem evalA_agree {N : ℕ} {R : List ValueId} {types types' : ValueId → Option MirType} {calls : ACalls} {i : Instr}
    {ρ σ ρ' : AEnv} (ha : Agree N R ρ σ) (hu : ∀ v ∈ usesOf i, v < N ∧ v ∉ R) (ht : ∀ v ∈ typeNames i, types' v = types v)
    (h : evalA types calls i ρ = some ρ') : ∃ σ', evalA types' calls i σ = some σ' ∧ Agree N R ρ' σ' := by
  have hs : ∀ v ∈ usesOf i, σ v = ρ v := fun v hv => ha v (hu v hv).1 (hu v hv).2
  cases i with
  | Assign d x ty =>
    simp only [evalA, Option.map_eq_some_iff] at h ⊢
    obtain ⟨a, h, rfl⟩ := h
    rw [← readA_congr (σ := σ) (ρ := ρ) (by simpa [usesOf, Instr.uses] using hs)] at h
    exact ⟨_, ⟨a, h, rfl⟩, agree_update ha _ _⟩
  | Call ds c args sig =>
    simp only [evalA, Option.bind_eq_some_iff] at h ⊢
    obtain ⟨xs, h, ys, hc, hb⟩ := h
    rw [← readAllA_congr (σ := σ) (ρ := ρ) (by simpa [usesOf, Instr.uses] using hs)] at h
    obtain ⟨σ', hb', ha'⟩ := bindA_agree ha hb
    exact ⟨σ', ⟨xs, h, ys, hc, hb'⟩, ha'⟩
  | MakeTuple d es =>
    simp only [evalA] at h ⊢
    rw [ht d (by simp [typeNames])]
    split at h
    · simp only [Option.map_eq_some_iff] at h ⊢
      obtain ⟨a, h, rfl⟩ := h
      rw [← readAllA_congr (σ := σ) (ρ := ρ) (by simpa [usesOf, Instr.uses] using hs)] at h
      exact ⟨_, ⟨a, h, rfl⟩, agree_update ha _ _⟩
    · simp at h
  | MakeStruct d es ty =>
    simp only [evalA] at h ⊢
    split at h
    · rename_i n fs
      simp only [Option.map_eq_some_iff, Option.bind_eq_some_iff] at h ⊢
      obtain ⟨vs, hv, a, h, rfl⟩ := h
      have hin : ∀ (fs : List (Name × MirType)) (vs : List Value), inOrder es fs = some vs →
          ∀ x ∈ valuesIds vs, x ∈ valuesIds (es.map Prod.snd) := by
        intro fs
        induction fs with
        | nil => intro vs hv; simp only [inOrder, Option.some.injEq] at hv; subst hv; simp [valuesIds]
        | cons f fs ih =>
          intro vs hv
          simp only [inOrder, Option.bind_eq_some_iff, Option.map_eq_some_iff] at hv
          obtain ⟨w, hw, ws, hws, rfl⟩ := hv
          intro x hx
          simp only [valuesIds, List.flatMap_cons, List.mem_append] at hx
          rcases hx with hx | hx
          · simp only [valuesIds, List.mem_flatMap, List.mem_map]
            rw [List.lookup_eq_some_iff] at hw
            obtain ⟨l₁, l₂, hl, _⟩ := hw
            exact ⟨w, ⟨(f.1, w), by rw [hl]; simp, rfl⟩, hx⟩
          · exact ih ws hws x hx
      rw [← readAllA_congr (σ := σ) (ρ := ρ) (fun x hx => hs x (by simpa [usesOf, Instr.uses] using hin fs vs hv x hx))] at h
      exact ⟨_, ⟨vs, hv, a, h, rfl⟩, agree_update ha _ _⟩
    · simp at h
  | ExtractTupleElement d t k ty =>
    simp only [evalA, Option.map_eq_some_iff, Option.bind_eq_some_iff] at h ⊢
    obtain ⟨xs, h, a, hx, rfl⟩ := h
    rw [← elements_congr (σ := σ) (ρ := ρ) (by simpa [usesOf, Instr.uses] using hs)] at h
    exact ⟨_, ⟨xs, h, a, hx, rfl⟩, agree_update ha _ _⟩
  | ExtractStructField d s name ty =>
    cases s with
    | Operand s =>
      simp only [evalA, Option.map_eq_some_iff, Option.bind_eq_some_iff] at h ⊢
      rw [ht s (by simp [typeNames, Value.ids])]
      obtain ⟨t, htt, k, hk, xs, h, a, hx, rfl⟩ := h
      rw [← elements_congr (σ := σ) (ρ := ρ) (by simpa [usesOf, Instr.uses] using hs)] at h
      exact ⟨_, ⟨t, htt, k, hk, xs, h, a, hx, rfl⟩, agree_update ha _ _⟩
    | Literal l => simp [evalA, evalInstr] at h
    | Error => simp [evalA, evalInstr] at h
  | InsertTuple d t k x ty =>
    simp only [usesOf, Instr.uses, List.mem_append] at hs
    simp only [evalA, Option.bind_eq_some_iff] at h ⊢
    obtain ⟨ts, h1, et, h2, xs, h3, a, h4, h⟩ := h
    rw [← elements_congr (σ := σ) (ρ := ρ) (fun x hx => hs x (.inl hx))] at h3
    rw [← readA_congr (σ := σ) (ρ := ρ) (fun x hx => hs x (.inr hx))] at h4
    split_ifs at h with hk
    simp only [Option.some.injEq] at h
    subst h
    exact ⟨_, ⟨ts, h1, et, h2, xs, h3, a, h4, by simp only [hk, if_true]⟩, agree_update ha _ _⟩
  | InsertField d s name x ty =>
    simp only [usesOf, Instr.uses, List.mem_append] at hs
    simp only [evalA, Option.bind_eq_some_iff] at h ⊢
    obtain ⟨k, h0, ts, h1, et, h2, xs, h3, a, h4, h⟩ := h
    rw [← elements_congr (σ := σ) (ρ := ρ) (fun x hx => hs x (.inl hx))] at h3
    rw [← readA_congr (σ := σ) (ρ := ρ) (fun x hx => hs x (.inr hx))] at h4
    split_ifs at h with hk
    simp only [Option.some.injEq] at h
    subst h
    exact ⟨_, ⟨k, h0, ts, h1, et, h2, xs, h3, a, h4, by simp only [hk, if_true]⟩, agree_update ha _ _⟩
  | UnaryOp op d x =>
    simp only [usesOf, Instr.uses] at hs
    simp only [evalA, evalInstr, Option.bind_eq_bind, Option.map_eq_some_iff, Option.bind_eq_some_iff] at h ⊢
    obtain ⟨e, ⟨a, h1, b, h2, he⟩, rfl⟩ := h
    rw [← readPlain_congr (σ := σ) (ρ := ρ) hs] at h1
    refine ⟨_, ⟨_, ⟨a, h1, b, h2, rfl⟩, rfl⟩, ?_⟩
    simp only [Option.some.injEq] at he
    subst he
    intro v hv hr
    beta_reduce
    split_ifs with hd
    · simp only [Instr.destinations, List.mem_singleton] at hd
      subst hd; simp
    · exact ha v hv hr
  | BinaryOp op d x y =>
    simp only [usesOf, Instr.uses, List.mem_append] at hs
    simp only [evalA, evalInstr, Option.bind_eq_bind, Option.map_eq_some_iff, Option.bind_eq_some_iff] at h ⊢
    obtain ⟨e, ⟨a, h1, b, h2, c, h3, he⟩, rfl⟩ := h
    rw [← operand_congr (σ := σ) (ρ := ρ) (fun x hx => hs x (.inl hx))] at h1
    rw [← operand_congr (σ := σ) (ρ := ρ) (fun x hx => hs x (.inr hx))] at h2
    refine ⟨_, ⟨_, ⟨a, h1, b, h2, c, h3, rfl⟩, rfl⟩, ?_⟩
    simp only [Option.some.injEq] at he
    subst he
    intro v hv hr
    beta_reduce
    split_ifs with hd
    · simp only [Instr.destinations, List.mem_singleton] at hd
      subst hd; simp
    · exact ha v hv hr
  | Cast d x s t =>
    simp only [usesOf, Instr.uses] at hs
    simp only [evalA, evalInstr, Option.bind_eq_bind, Option.map_eq_some_iff, Option.bind_eq_some_iff] at h ⊢
    obtain ⟨e, ⟨s', h0, t', h1, a, h2, b, h3, he⟩, rfl⟩ := h
    rw [← readAt_congr (σ := σ) (ρ := ρ) hs] at h2
    refine ⟨_, ⟨_, ⟨s', h0, t', h1, a, h2, b, h3, rfl⟩, rfl⟩, ?_⟩
    simp only [Option.some.injEq] at he
    subst he
    intro v hv hr
    beta_reduce
    split_ifs with hd
    · simp only [Instr.destinations, List.mem_singleton] at hd
      subst hd; simp
    · exact ha v hv hr
  | AssertEq x y =>
    simp only [usesOf, Instr.uses, List.mem_append] at hs
    simp only [evalA, evalInstr, Option.bind_eq_bind, Option.map_eq_some_iff, Option.bind_eq_some_iff] at h ⊢
    obtain ⟨e, ⟨a, h1, b, h2, he⟩, rfl⟩ := h
    rw [← readPlain_congr (σ := σ) (ρ := ρ) (fun x hx => hs x (.inl hx))] at h1
    rw [← readPlain_congr (σ := σ) (ρ := ρ) (fun x hx => hs x (.inr hx))] at h2
    split_ifs at he with hq
    refine ⟨_, ⟨_, ⟨a, h1, b, h2, by rw [if_pos hq]⟩, rfl⟩, ?_⟩
    intro v hv hr
    simp [Instr.destinations, ha v hv hr]
  | Debug vs =>
    simp only [evalA, evalInstr, Option.map_eq_some_iff] at h ⊢
    obtain ⟨e, he, rfl⟩ := h
    refine ⟨_, ⟨_, rfl, rfl⟩, ?_⟩
    intro v hv hr
    simp [Instr.destinations, ha v hv hr]
  | Nop =>
    simp only [evalA, evalInstr, Option.map_eq_some_iff] at h ⊢
    obtain ⟨e, he, rfl⟩ := h
    refine ⟨_, ⟨_, rfl, rfl⟩, ?_⟩
    intro v hv hr
    simp [Instr.destinations, ha v hv hr]
  | _ => simp [evalA, evalInstr] at h

theorem evalAs_append {types : ValueId → Option MirType} {calls : ACalls} : ∀ (is js : List Instr) (env : AEnv),
    evalAs types calls (is ++ js) env = (evalAs types calls is env).bind (evalAs types calls js)
  | [], _, _ => rfl
  | i :: is, js, env => by
    simp only [List.cons_append, evalAs]
    cases evalA types calls i env with
    | none => rfl
    | some e => simp [evalAs_append is js e]

end Sroa
end Mir
end CairoM
