import Verif.TypeChecksSpec
import Verif.TypeNamesLemmas

/-!
# Lemmas on the checks of type expressions
-/

namespace CairoM
namespace TypeChecks

open Mir Syntax TypeNames

theorem mem_undeclareds {P : Project} {m : String} {r : Report} : ∀ {ts : List TypeExpr}, r ∈ undeclareds P m ts ↔ ∃ t ∈ ts, r ∈ undeclared P m t
  | [] => by simp [undeclareds]
  | t :: ts => by simp [undeclareds, mem_undeclareds (ts := ts)]

theorem mem_nestedArraysAll {r : Report} : ∀ {ts : List TypeExpr}, r ∈ nestedArraysAll ts ↔ ∃ t ∈ ts, r ∈ nestedArrays t
  | [] => by simp [nestedArraysAll]
  | t :: ts => by simp [nestedArraysAll, mem_nestedArraysAll (ts := ts)]

theorem undeclared_names {P : Project} {m x : String} {t : TypeExpr} (h : Occurs x t) (hd : declOf P (m, x) = none) :
    .undeclaredType x ∈ undeclared P m t := by
  induction h with
  | named => simp [undeclared, hd]
  | pointer _ ih => simpa [undeclared] using ih
  | tuple ht _ ih => exact mem_undeclareds.2 ⟨_, ht, ih⟩
  | array _ ih => simpa [undeclared] using ih

theorem names_undeclared {P : Project} {m : String} {r : Report} : ∀ (t : TypeExpr), r ∈ undeclared P m t →
    ∃ x, r = .undeclaredType x ∧ Occurs x t ∧ declOf P (m, x) = none
  | .named .felt, h | .named .bool, h | .named .u32, h => by simp [undeclared] at h
  | .named (.custom x), h => by
    simp only [undeclared] at h
    split at h
    · simp at h
    · rename_i hd
      exact ⟨x, List.mem_singleton.1 h, .named, by simpa using hd⟩
  | .pointer t, h => by
    simp only [undeclared] at h
    obtain ⟨x, h1, h2, h3⟩ := names_undeclared t h
    exact ⟨x, h1, .pointer h2, h3⟩
  | .tuple ts, h => by
    obtain ⟨t, ht, hr⟩ := mem_undeclareds.1 h
    obtain ⟨x, h1, h2, h3⟩ := names_undeclared t hr
    exact ⟨x, h1, .tuple ht h2, h3⟩
  | .fixedArray t n, h => by
    simp only [undeclared] at h
    obtain ⟨x, h1, h2, h3⟩ := names_undeclared t h
    exact ⟨x, h1, .array h2, h3⟩

theorem _root_.CairoM.TypeNames.Names.occurs {x : String} {t : TypeExpr} (h : Names x t) : Occurs x t := by
  induction h with
  | named => exact .named
  | pointer _ ih => exact .pointer ih
  | tuple ht _ ih => exact .tuple ht ih
  | array _ _ ih => exact .array ih

theorem nestedArrays_shown {t : TypeExpr} (h : Shown t) : .nestedArray ∈ nestedArrays t := by
  induction h with
  | here h => simp [nestedArrays, h]
  | tuple ht _ ih => exact mem_nestedArraysAll.2 ⟨_, ht, ih⟩

theorem shown_nestedArrays {r : Report} : ∀ (t : TypeExpr), r ∈ nestedArrays t → Shown t
  | .named _, h | .pointer _, h => by simp [nestedArrays] at h
  | .fixedArray t n, h => by
    simp only [nestedArrays] at h
    split at h
    · exact .here (by assumption)
    · simp at h
  | .tuple ts, h => by
    obtain ⟨t, ht, hr⟩ := mem_nestedArraysAll.1 h
    exact .tuple ht (shown_nestedArrays t hr)

theorem nestedArrays_only {r : Report} : ∀ (t : TypeExpr), r ∈ nestedArrays t → r = .nestedArray
  | .named _, h | .pointer _, h => by simp [nestedArrays] at h
  | .fixedArray t n, h => by
    simp only [nestedArrays] at h
    split at h
    · exact List.mem_singleton.1 h
    · simp at h
  | .tuple ts, h => by
    obtain ⟨t, ht, hr⟩ := mem_nestedArraysAll.1 h
    exact nestedArrays_only t hr

theorem sequence_mem : ∀ {rs : List (Except Stop MirType)} {us : List MirType}, TypeNames.sequence rs = .ok us → ∀ u ∈ us, .ok u ∈ rs
  | [], us, h, u, hu => by
    simp only [TypeNames.sequence, Except.ok.injEq] at h
    subst h
    simp at hu
  | .error e :: rs, us, h, _, _ => by simp [TypeNames.sequence, Except.bind] at h
  | .ok t :: rs, us, h, u, hu => by
    simp only [TypeNames.sequence, Except.bind] at h
    obtain ⟨ts, h1, rfl⟩ := map_ok' h
    rcases List.mem_cons.1 hu with rfl | hu
    · exact List.mem_cons_self
    · exact List.mem_cons_of_mem _ (sequence_mem h1 u hu)

theorem resolve_no_array {ask : String → Except Stop MirType} {t : TypeExpr} {u : MirType} (ht : isArrayExpr t = false)
    (h : resolve ask t = .ok u) : isArray u = false := by
  cases t with
  | named n =>
    cases n with
    | custom x =>
      simp only [resolve] at h
      obtain ⟨v, -, rfl⟩ := map_ok' h
      cases v <;> rfl
    | _ =>
      simp only [resolve, Except.ok.injEq] at h
      subst h
      rfl
  | pointer t =>
    simp only [resolve] at h
    obtain ⟨v, -, rfl⟩ := map_ok' h
    rfl
  | tuple ts =>
    simp only [resolve] at h
    obtain ⟨v, -, rfl⟩ := map_ok' h
    rfl
  | fixedArray t n => simp [isArrayExpr] at ht

theorem resolve_proper {ask : String → Except Stop MirType} : ∀ (t : TypeExpr) {u : MirType}, ¬ Nested t →
    (∀ x, Names x t → ∀ v, ask x = .ok v → isStruct v = true ∧ Proper v) → resolve ask t = .ok u → Proper u
  | .named .felt, u, _, _, h => by simp only [resolve, Except.ok.injEq] at h; subst h; exact .felt
  | .named .bool, u, _, _, h => by simp only [resolve, Except.ok.injEq] at h; subst h; exact .bool
  | .named .u32, u, _, _, h => by simp only [resolve, Except.ok.injEq] at h; subst h; exact .u32
  | .named (.custom x), u, _, ha, h => by
    simp only [resolve] at h
    obtain ⟨v, h1, rfl⟩ := map_ok' h
    obtain ⟨h2, h3⟩ := ha x .named v h1
    simpa [h2] using h3
  | .pointer t, u, hn, ha, h => by
    simp only [resolve] at h
    obtain ⟨v, h1, rfl⟩ := map_ok' h
    exact .pointer (resolve_proper t (fun h => hn (.pointer h)) (fun x hx => ha x (.pointer hx)) h1)
  | .tuple ts, u, hn, ha, h => by
    simp only [resolve] at h
    obtain ⟨vs, h1, rfl⟩ := map_ok' h
    refine .tuple fun v hv => ?_
    obtain ⟨t, ht, hr⟩ := mem_resolves.1 (sequence_mem h1 v hv)
    exact resolve_proper t (fun h => hn (.tuple ht h)) (fun x hx => ha x (.tuple ht hx)) hr
  | .fixedArray t n, u, hn, ha, h => by
    have ht : isArrayExpr t = false := Bool.eq_false_iff.2 fun h => hn (.here h)
    simp only [resolve, ht, Bool.false_eq_true, if_false] at h
    obtain ⟨v, h1, rfl⟩ := map_ok' h
    simp only [resolve_no_array ht h1, Bool.false_eq_true, if_false]
    exact .array (resolve_proper t (fun h => hn (.array h)) (fun x hx => ha x (.array ht hx)) h1)

theorem written_struct {P : Project} {k : Key} {fs : List (String × TypeExpr)} (h : declOf P k = some (.struct fs)) :
    ∃ is, (k.1, is) ∈ P ∧ .struct k.2 fs ∈ is := by
  simp only [declOf, Option.bind_eq_some_iff] at h
  obtain ⟨is, h1, h2⟩ := h
  refine ⟨is, lookup_mem h1, ?_⟩
  obtain ⟨i, hi, hd⟩ := List.mem_flatMap.1 (List.mem_reverse.1 (lookup_mem h2))
  cases i with
  | struct x gs =>
    simp only [decls, List.mem_singleton, Prod.mk.injEq, Decl.struct.injEq] at hd
    rw [hd.1, hd.2]
    exact hi
  | function f => simp [decls] at hd
  | const c => simp [decls] at hd
  | use p is => simp [decls] at hd

theorem declOf_lookup {P : Project} {k : Key} {d : Decl} (h : declOf P k = some d) : (P.lookup k.1).isSome = true := by
  simp only [declOf, Option.bind_eq_some_iff] at h
  obtain ⟨is, h1, -⟩ := h
  simp [h1]

theorem typeOf_proper {P : Project} (himp : ∀ k k', declOf P k = some (.use k') → ∃ d, declOf P k' = some d)
    (hdecl : ∀ m t x, Signature P m t → Names x t → ∃ d, declOf P (m, x) = some d)
    (hstr : ∀ m t x d, Signature P m t → Names x t → StandsFor P (m, x) d → ∃ fs, d = .struct fs)
    (hnest : ∀ m t, Signature P m t → ¬ Nested t) :
    ∀ {n : ℕ} {active : List Key} {k : Key} {u : MirType}, typeOf P n active k = .ok u → (∃ d, declOf P k = some d) →
      (∀ d, StandsFor P k d → ∃ fs, d = .struct fs) → isStruct u = true ∧ Proper u
  | 0, _, _, _, h, _, _ => by simp [typeOf] at h
  | n + 1, active, (m, x), u, h, ⟨d, hd⟩, hs => by
    simp only [typeOf] at h
    split at h
    · simp at h
    · cases d with
      | struct fs =>
        simp only [hd] at h
        obtain ⟨ts, h1, rfl⟩ := map_ok' h
        refine ⟨rfl, .struct fun f hf => ?_⟩
        obtain ⟨t, ht, hr⟩ := mem_resolves.1 (sequence_mem h1 f.2 (List.of_mem_zip hf).2)
        obtain ⟨is, h2, h3⟩ := written_struct hd
        have hw : Signature P m t := ⟨is, h2, _, h3, by simp, ht⟩
        exact resolve_proper t (hnest m t hw) (fun y hy v hv => typeOf_proper himp hdecl hstr hnest hv (hdecl m t y hw hy)
          fun d hd => hstr m t y d hw hy hd) hr
      | function ts =>
        obtain ⟨_, h⟩ := hs _ (.here hd (by simp))
        cases h
      | const t =>
        obtain ⟨_, h⟩ := hs _ (.here hd (by simp))
        cases h
      | use k' =>
        obtain ⟨d', hd'⟩ := himp _ _ hd
        simp only [hd, declOf_lookup hd', if_true] at h
        exact typeOf_proper himp hdecl hstr hnest h ⟨d', hd'⟩ fun d h => hs d (.use hd h)

end TypeChecks
end CairoM
