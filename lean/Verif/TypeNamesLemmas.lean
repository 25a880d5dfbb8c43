import Verif.TypeNamesSpec

/-!
# Lemmas on the types of declarations
-/

namespace CairoM
namespace TypeNames

open Mir Syntax Relation

theorem map_ok {f : MirType → MirType} {r : Except Stop MirType} {u : MirType} (h : r.map f = .ok u) : ∃ t, r = .ok t ∧ f t = u := by
  cases r with
  | error e => simp [Except.map] at h
  | ok t => exact ⟨t, rfl, by simpa [Except.map] using h⟩

theorem map_error {α β : Type} {f : α → β} {r : Except Stop α} {e : Stop} : r.map f = .error e ↔ r = .error e := by
  cases r <;> simp [Except.map]

theorem map_ok' {α β : Type} {f : α → β} {r : Except Stop α} {u : β} (h : r.map f = .ok u) : ∃ t, r = .ok t ∧ f t = u := by
  cases r with
  | error e => simp [Except.map] at h
  | ok t => exact ⟨t, rfl, by simpa [Except.map] using h⟩

theorem sequence_ok : ∀ {rs : List (Except Stop MirType)} {us : List MirType}, sequence rs = .ok us → ∀ r ∈ rs, ∃ u, r = .ok u
  | [], _, _, _, hr => by simp at hr
  | .error e :: rs, us, h, _, _ => by simp [sequence, Except.bind] at h
  | .ok t :: rs, us, h, r, hr => by
    rcases List.mem_cons.1 hr with rfl | hr
    · exact ⟨t, rfl⟩
    · simp only [sequence, Except.bind] at h
      obtain ⟨ts, h1, -⟩ := map_ok' h
      exact sequence_ok h1 r hr

theorem sequence_error : ∀ {rs : List (Except Stop MirType)} {e : Stop}, sequence rs = .error e → .error e ∈ rs
  | [], _, h => by simp [sequence] at h
  | .error e :: rs, e', h => by
    simp only [sequence, Except.bind, Except.error.injEq] at h
    simp [h]
  | .ok t :: rs, e, h => by
    simp only [sequence, Except.bind, map_error] at h
    exact List.mem_cons_of_mem _ (sequence_error h)

theorem mem_resolves {ask : String → Except Stop MirType} : ∀ {ts : List TypeExpr} {r : Except Stop MirType}, r ∈ resolves ask ts ↔
    ∃ t ∈ ts, resolve ask t = r
  | [], r => by simp [resolves]
  | t :: ts, r => by simp [resolves, mem_resolves (ts := ts), eq_comm]

/-- A failure comes from a name. -/
theorem resolve_error {ask : String → Except Stop MirType} {e : Stop} : ∀ (t : TypeExpr), resolve ask t = .error e →
    ∃ x, Names x t ∧ ask x = .error e
  | .named .felt, h | .named .bool, h | .named .u32, h => by simp [resolve] at h
  | .named (.custom x), h => by
    simp only [resolve, map_error] at h
    exact ⟨x, .named, h⟩
  | .pointer t, h => by
    simp only [resolve, map_error] at h
    obtain ⟨x, h1, h2⟩ := resolve_error t h
    exact ⟨x, .pointer h1, h2⟩
  | .tuple ts, h => by
    simp only [resolve, map_error] at h
    obtain ⟨t, ht, hr⟩ := mem_resolves.1 (sequence_error h)
    obtain ⟨x, h1, h2⟩ := resolve_error t hr
    exact ⟨x, .tuple ht h1, h2⟩
  | .fixedArray t n, h => by
    simp only [resolve] at h
    split at h
    · simp at h
    · rename_i hn
      simp only [map_error] at h
      obtain ⟨x, h1, h2⟩ := resolve_error t h
      exact ⟨x, .array (by simpa using hn) h1, h2⟩

/-- Every name in a type expression that has a type has one. -/
theorem resolve_ok {ask : String → Except Stop MirType} {x : String} {t : TypeExpr} (hn : Names x t) : ∀ {u : MirType}, resolve ask t = .ok u →
    ∃ v, ask x = .ok v := by
  induction hn with
  | named =>
    intro u h
    simp only [resolve] at h
    obtain ⟨v, h1, -⟩ := map_ok' h
    exact ⟨v, h1⟩
  | pointer _ ih =>
    intro u h
    simp only [resolve] at h
    obtain ⟨v, h1, -⟩ := map_ok' h
    exact ih h1
  | tuple ht _ ih =>
    intro u h
    simp only [resolve] at h
    obtain ⟨v, h1, -⟩ := map_ok' h
    obtain ⟨w, h2⟩ := sequence_ok h1 _ (mem_resolves.2 ⟨_, ht, rfl⟩)
    exact ih h2
  | array ha _ ih =>
    intro u h
    simp only [resolve, ha, Bool.false_eq_true, if_false] at h
    obtain ⟨v, h1, -⟩ := map_ok' h
    exact ih h1

/-- What a declaration asks for. -/
theorem typeOf_ok {P : Project} {n : ℕ} {active : List Key} {k k' : Key} {u : MirType} (h : typeOf P (n + 1) active k = .ok u)
    (hu : Uses P k k') : ∃ v, typeOf P n (k :: active) k' = .ok v := by
  simp only [typeOf] at h
  split at h
  · simp at h
  · cases hu with
    | field hd hf hn =>
      simp only [hd] at h
      obtain ⟨ts, h1, -⟩ := map_ok' h
      obtain ⟨w, h2⟩ := sequence_ok h1 _ (mem_resolves.2 ⟨_, List.mem_map_of_mem hf, rfl⟩)
      exact resolve_ok hn h2
    | function hd ht hn =>
      simp only [hd] at h
      obtain ⟨ts, h1, -⟩ := map_ok' h
      obtain ⟨w, h2⟩ := sequence_ok h1 _ (mem_resolves.2 ⟨_, ht, rfl⟩)
      exact resolve_ok hn h2
    | const hd hn =>
      simp only [hd] at h
      exact resolve_ok hn h
    | use hd hs =>
      simp only [hd, hs, if_true] at h
      exact ⟨u, h⟩

/-- Where a failure comes from. -/
theorem typeOf_error {P : Project} {n : ℕ} {active : List Key} {k : Key} {e : Stop} (h : typeOf P (n + 1) active k = .error e)
    (hk : k ∉ active) : ∃ k', Uses P k k' ∧ typeOf P n (k :: active) k' = .error e := by
  obtain ⟨m, x⟩ := k
  simp only [typeOf, if_neg hk] at h
  cases hd : declOf P (m, x) with
  | none => simp [hd] at h
  | some d =>
    cases d with
    | struct fs =>
      simp only [hd, map_error] at h
      obtain ⟨t, ht, hr⟩ := mem_resolves.1 (sequence_error h)
      obtain ⟨f, hf, rfl⟩ := List.mem_map.1 ht
      obtain ⟨y, h1, h2⟩ := resolve_error _ hr
      exact ⟨(m, y), .field hd hf h1, h2⟩
    | function ts =>
      simp only [hd, map_error] at h
      obtain ⟨t, ht, hr⟩ := mem_resolves.1 (sequence_error h)
      obtain ⟨y, h1, h2⟩ := resolve_error _ hr
      exact ⟨(m, y), .function hd ht h1, h2⟩
    | const t =>
      simp only [hd] at h
      obtain ⟨y, h1, h2⟩ := resolve_error _ h
      exact ⟨(m, y), .const hd h1, h2⟩
    | use target =>
      simp only [hd] at h
      split at h
      · rename_i hs
        exact ⟨target, .use hd hs, h⟩
      · simp at h

/-- A declaration with a type depends on no cycle. -/
theorem typeOf_acc {P : Project} : ∀ {n : ℕ} {active : List Key} {k : Key} {u : MirType}, typeOf P n active k = .ok u →
    Acc (fun a b => Uses P b a) k
  | 0, _, _, _, h => by simp [typeOf] at h
  | _ + 1, _, _, _, h => ⟨_, fun _ hu => by
      obtain ⟨v, hv⟩ := typeOf_ok h hu
      exact typeOf_acc hv⟩

theorem not_circular {P : Project} {k : Key} (h : Acc (fun a b => Uses P b a) k) : ¬ Circular P k := by
  rintro ⟨c, h1, h2⟩
  have hc : Acc (fun a b => Uses P b a) c := by
    clear h2
    induction h1 with
    | refl => exact h
    | tail _ hu ih => exact ih.inv hu
  clear h1 h
  induction hc with
  | intro c _ ih =>
    obtain ⟨d, h3, h4⟩ := TransGen.head'_iff.1 h2
    exact ih d h3 (TransGen.tail' h4 h3)

/-- A panic comes from a cycle. -/
theorem typeOf_cycle {P : Project} : ∀ {n : ℕ} {active : List Key} {k : Key}, (∀ a ∈ active, TransGen (Uses P) a k) →
    typeOf P n active k = .error .cycle → Circular P k
  | 0, _, _, _, h => by simp [typeOf] at h
  | n + 1, active, k, ha, h => by
    by_cases hk : k ∈ active
    · exact ⟨k, .refl, ha k hk⟩
    · obtain ⟨k', h1, h2⟩ := typeOf_error h hk
      obtain ⟨c, h3, h4⟩ := typeOf_cycle (active := k :: active) (fun a h => by
        rcases List.mem_cons.1 h with rfl | h
        · exact .single h1
        · exact (ha a h).tail h1) h2
      exact ⟨c, .head h1 h3, h4⟩

theorem lookup_mem {α β : Type} [BEq α] [LawfulBEq α] : ∀ {l : List (α × β)} {a : α} {b : β}, l.lookup a = some b → (a, b) ∈ l
  | [], _, _, h => by simp at h
  | (c, d) :: l, a, b, h => by
    rw [List.lookup_cons] at h
    split at h
    · rename_i he
      simp only [Option.some.injEq] at h
      rw [beq_iff_eq.1 he, h]
      exact List.mem_cons_self
    · exact List.mem_cons_of_mem _ (lookup_mem h)

theorem declOf_mem {P : Project} {k : Key} {d : Decl} (h : declOf P k = some d) : k ∈ keys P := by
  simp only [declOf, Option.bind_eq_some_iff] at h
  obtain ⟨is, h1, h2⟩ := h
  have h3 := lookup_mem h1
  have h4 := List.mem_reverse.1 (lookup_mem h2)
  exact List.mem_flatMap.2 ⟨_, h3, List.mem_map.2 ⟨_, h4, rfl⟩⟩

theorem Uses.mem {P : Project} {k k' : Key} (h : Uses P k k') : k ∈ keys P := by
  cases h with
  | field h _ _ => exact declOf_mem h
  | function h _ _ => exact declOf_mem h
  | const h _ => exact declOf_mem h
  | use h _ => exact declOf_mem h

/-- The bound is large enough. -/
theorem typeOf_bound {P : Project} : ∀ {n : ℕ} {active : List Key} {k : Key}, active.Nodup → active ⊆ keys P →
    (keys P).length + 2 ≤ n + active.length → typeOf P n active k ≠ .error .bound
  | 0, active, k, hn, hs, hl => by
    have := (List.subperm_of_subset hn hs).length_le
    omega
  | n + 1, active, k, hn, hs, hl => by
    intro h
    by_cases hk : k ∈ active
    · simp [typeOf, hk] at h
    · obtain ⟨k', h1, h2⟩ := typeOf_error h hk
      refine typeOf_bound (List.nodup_cons.2 ⟨hk, hn⟩) (List.cons_subset.2 ⟨h1.mem, hs⟩) ?_ h2
      simp only [List.length_cons]
      omega

mutual
theorem resolve_denotes {P : Project} {m : String} {ask : String → Except Stop MirType} (hask : ∀ x u, ask x = .ok u → Declares P (m, x) u) :
    ∀ (t : TypeExpr) {u : MirType}, resolve ask t = .ok u → Denotes P m t u
  | .named .felt, u, h => by simp only [resolve, Except.ok.injEq] at h; subst h; exact .felt
  | .named .bool, u, h => by simp only [resolve, Except.ok.injEq] at h; subst h; exact .bool
  | .named .u32, u, h => by simp only [resolve, Except.ok.injEq] at h; subst h; exact .u32
  | .named (.custom x), u, h => by
    simp only [resolve] at h
    obtain ⟨v, h1, h2⟩ := map_ok' h
    have h3 := hask x v h1
    cases hv : isStruct v with
    | false =>
      simp only [hv, Bool.false_eq_true, if_false] at h2
      subst h2
      exact .noStruct h3 hv
    | true =>
      simp only [hv, if_true] at h2
      subst h2
      cases v <;> simp only [isStruct, reduceCtorEq] at hv
      exact .struct h3
  | .pointer t, u, h => by
    simp only [resolve] at h
    obtain ⟨v, h1, rfl⟩ := map_ok' h
    exact .pointer (resolve_denotes hask t h1)
  | .tuple ts, u, h => by
    simp only [resolve] at h
    obtain ⟨vs, h1, rfl⟩ := map_ok' h
    exact .tuple (resolves_denote hask ts h1)
  | .fixedArray t n, u, h => by
    simp only [resolve] at h
    cases ha : isArrayExpr t with
    | true =>
      simp only [ha, if_true, Except.ok.injEq] at h
      subst h
      exact .nested ha
    | false =>
      simp only [ha, Bool.false_eq_true, if_false] at h
      obtain ⟨v, h1, h2⟩ := map_ok' h
      cases hv : isArray v with
      | true =>
        simp only [hv, if_true] at h2
        subst h2
        exact .ofArray ha (resolve_denotes hask t h1) hv
      | false =>
        simp only [hv, Bool.false_eq_true, if_false] at h2
        subst h2
        exact .array ha (resolve_denotes hask t h1) hv
theorem resolves_denote {P : Project} {m : String} {ask : String → Except Stop MirType} (hask : ∀ x u, ask x = .ok u → Declares P (m, x) u) :
    ∀ (ts : List TypeExpr) {us : List MirType}, sequence (resolves ask ts) = .ok us → DenoteAll P m ts us
  | [], us, h => by simp only [resolves, sequence, Except.ok.injEq] at h; subst h; exact .nil
  | t :: ts, us, h => by
    simp only [resolves, sequence] at h
    cases hr : resolve ask t with
    | error e => simp [hr, Except.bind] at h
    | ok v =>
      simp only [hr, Except.bind] at h
      obtain ⟨vs, h1, rfl⟩ := map_ok' h
      exact .cons (resolve_denotes hask t hr) (resolves_denote hask ts h1)
end

theorem typeOf_declares {P : Project} : ∀ {n : ℕ} {active : List Key} {k : Key} {u : MirType}, typeOf P n active k = .ok u → Declares P k u
  | 0, _, _, _, h => by simp [typeOf] at h
  | n + 1, active, (m, x), u, h => by
    simp only [typeOf] at h
    split at h
    · simp at h
    · cases hd : declOf P (m, x) with
      | none =>
        simp only [hd, Except.ok.injEq] at h
        subst h
        exact .none hd
      | some d =>
        cases d with
        | struct fs =>
          simp only [hd] at h
          obtain ⟨ts, h1, rfl⟩ := map_ok' h
          exact .struct hd (resolves_denote (fun y u h => typeOf_declares h) _ h1)
        | function ts =>
          simp only [hd] at h
          obtain ⟨_, _, rfl⟩ := map_ok' h
          exact .function hd
        | const t =>
          simp only [hd] at h
          exact .const hd (resolve_denotes (fun y u h => typeOf_declares h) _ h)
        | use target =>
          simp only [hd] at h
          split at h
          · rename_i hs
            exact .use hd hs (typeOf_declares h)
          · rename_i hs
            simp only [Except.ok.injEq] at h
            subst h
            exact .lost hd (Bool.eq_false_iff.2 hs)

mutual
theorem Denotes.unique {P : Project} {m : String} {t : TypeExpr} {u u' : MirType} : Denotes P m t u → Denotes P m t u' → u = u'
  | .felt, .felt | .bool, .bool | .u32, .u32 => rfl
  | .struct h, .struct h' => h.unique h'
  | .struct h, .noStruct h' hs => by rw [← h.unique h'] at hs; simp [isStruct] at hs
  | .noStruct h hs, .struct h' => by rw [h.unique h'] at hs; simp [isStruct] at hs
  | .noStruct _ _, .noStruct _ _ => rfl
  | .pointer h, .pointer h' => by rw [h.unique h']
  | .tuple h, .tuple h' => by rw [h.unique h']
  | .array _ h _, .array _ h' _ => by rw [h.unique h']
  | .array a _ _, .nested b => by simp [a] at b
  | .array _ h a, .ofArray _ h' b => by rw [h.unique h', b] at a; simp at a
  | .nested _, .array _ _ _ => by simp_all
  | .nested _, .nested _ | .nested _, .ofArray _ _ _ | .ofArray _ _ _, .nested _ | .ofArray _ _ _, .ofArray _ _ _ => rfl
  | .ofArray _ h a, .array _ h' b => by rw [h.unique h', b] at a; simp at a
theorem DenoteAll.unique {P : Project} {m : String} {ts : List TypeExpr} {us us' : List MirType} : DenoteAll P m ts us →
    DenoteAll P m ts us' → us = us'
  | .nil, .nil => rfl
  | .cons h hs, .cons h' hs' => by rw [h.unique h', hs.unique hs']
theorem Declares.unique {P : Project} {k : Key} {u u' : MirType} : Declares P k u → Declares P k u' → u = u'
  | .struct hd h, .struct hd' h' => by
    rw [hd] at hd'
    cases hd'
    rw [h.unique h']
  | .use hd _ h, .use hd' _ h' => by
    rw [hd] at hd'
    cases hd'
    exact h.unique h'
  | .const hd h, .const hd' h' => by
    rw [hd] at hd'
    cases hd'
    exact h.unique h'
  | .function _, .function _ | .none _, .none _ | .lost _ _, .lost _ _ => rfl
  | .struct hd _, .function hd' | .struct hd _, .const hd' _ | .struct hd _, .none hd' | .struct hd _, .use hd' _ _ | .struct hd _, .lost hd' _ => nomatch hd.symm.trans hd'
  | .function hd, .struct hd' _ | .function hd, .const hd' _ | .function hd, .none hd' | .function hd, .use hd' _ _ | .function hd, .lost hd' _ => nomatch hd.symm.trans hd'
  | .const hd _, .struct hd' _ | .const hd _, .function hd' | .const hd _, .none hd' | .const hd _, .use hd' _ _ | .const hd _, .lost hd' _ => nomatch hd.symm.trans hd'
  | .none hd, .struct hd' _ | .none hd, .function hd' | .none hd, .const hd' _ | .none hd, .use hd' _ _ | .none hd, .lost hd' _ => nomatch hd.symm.trans hd'
  | .use hd _ _, .struct hd' _ | .use hd _ _, .function hd' | .use hd _ _, .const hd' _ | .use hd _ _, .none hd' => nomatch hd.symm.trans hd'
  | .lost hd _, .struct hd' _ | .lost hd _, .function hd' | .lost hd _, .const hd' _ | .lost hd _, .none hd' => nomatch hd.symm.trans hd'
  | .use hd hs _, .lost hd' hs' => by
    rw [hd] at hd'
    cases hd'
    simp [hs'] at hs
  | .lost hd hs, .use hd' hs' _ => by
    rw [hd] at hd'
    cases hd'
    simp [hs] at hs'
end

end TypeNames
end CairoM
