import Verif.LsSwapSpec
import Mathlib.Data.List.Induction
import Mathlib.Tactic.Common

/-! # Lemmas on source files -/

namespace CairoM
namespace LsSwap

variable {U T : Type*} [DecidableEq U]

/-- The source file of an opened file has the editor's text. -/
structure Inv (s : State U T) (text : U → Option T) : Prop where
  bound : ∀ u i, s.files u = some i → i < s.texts.length
  inj : ∀ u v i, s.files u = some i → s.files v = some i → u = v
  right : ∀ u i t, s.files u = some i → text u = some t → s.texts[i]? = some t
  known : ∀ u t, text u = some t → (s.files u).isSome

/-- The editor's texts after one more event. -/
def next (text : U → Option T) (e : Event U T) : U → Option T :=
  match e with
  | .opened u t => fun v => if v = u then some t else text v
  | .change u t => fun v => if v = u ∧ (text u).isSome then some t else text v
  | _ => text

theorem editor_append (h : List (Event U T)) (e : Event U T) : editor (h ++ [e]) = next (editor h) e := by
  simp only [editor, List.foldl_append, List.foldl_cons, List.foldl_nil]
  rfl

theorem Inv.opened {s : State U T} {text : U → Option T} (h : Inv s text) (u : U) (t : T) :
    Inv (s.opened u t) (next text (.opened u t)) := by
  refine ⟨?_, ?_, ?_, ?_⟩
  · intro v i hv
    simp only [State.opened, List.length_append, List.length_singleton] at hv ⊢
    split at hv
    · simp only [Option.some.injEq] at hv; omega
    · have := h.bound v i hv; omega
  · intro v w i hv hw
    simp only [State.opened] at hv hw
    split at hv <;> split at hw
    · simp_all
    · have := h.bound w i hw; simp only [Option.some.injEq] at hv; omega
    · have := h.bound v i hv; simp only [Option.some.injEq] at hw; omega
    · exact h.inj v w i hv hw
  · intro v i t' hv ht
    simp only [State.opened, next] at hv ht ⊢
    split at hv
    · rename_i e
      simp only [if_pos e, Option.some.injEq] at hv ht
      subst hv ht
      simp
    · rename_i e
      rw [if_neg e] at ht
      have := h.right v i t' hv ht
      rw [List.getElem?_append_left (h.bound v i hv), this]
  · intro v t' ht
    simp only [State.opened, next] at ht ⊢
    split
    · rfl
    · rename_i e; rw [if_neg e] at ht; exact h.known v t' ht

theorem Inv.change {s : State U T} {text : U → Option T} (h : Inv s text) (u : U) (t : T) :
    Inv (s.change u t) (next text (.change u t)) := by
  have hfiles : (s.change u t).files = s.files := by
    simp only [State.change]; split
    · split <;> rfl
    · rfl
  have hlen : (s.change u t).texts.length = s.texts.length := by
    simp only [State.change]; split
    · split <;> simp
    · rfl
  refine ⟨fun v i hv => by rw [hfiles] at hv; rw [hlen]; exact h.bound v i hv,
    fun v w i hv hw => by rw [hfiles] at hv hw; exact h.inj v w i hv hw, ?_, ?_⟩
  · intro v i t' hv ht
    rw [hfiles] at hv
    simp only [next] at ht
    by_cases hvu : v = u
    · subst hvu
      have hi := h.bound v i hv
      have : (s.change v t).texts[i]? = some t := by
        simp only [State.change, hv, if_pos hi]
        simp [hi]
      rw [this]
      by_cases hs : (text v).isSome
      · simpa [hs] using ht
      · rw [if_neg (by simp [hs])] at ht; rw [ht] at hs; simp at hs
    · rw [if_neg (by simp [hvu])] at ht
      have h1 := h.right v i t' hv ht
      simp only [State.change]
      split
      · rename_i j hj
        split
        · rw [List.getElem?_set_ne (by rintro rfl; exact hvu (h.inj v u _ hv hj))]; exact h1
        · exact h1
      · exact h1
  · intro v t' ht
    rw [hfiles]
    simp only [next] at ht
    split at ht
    · rename_i e
      obtain ⟨rfl, e⟩ := e
      obtain ⟨x, hx⟩ := Option.isSome_iff_exists.1 e
      exact h.known v x hx
    · exact h.known v t' ht

/-- The table of the project agrees with the table of files. -/
def Agree (s : State U T) (u : U) : Prop := ∀ i, (u, i) ∈ s.project → s.files u = some i

theorem Inv.loadFile {s : State U T} {text : U → Option T} (h : Inv s text) (f : U × Option T) (ha : ∀ u, Agree s u) :
    Inv (s.loadFile f) text ∧ ∀ u, Agree (s.loadFile f) u := by
  simp only [State.loadFile]
  split
  · rename_i i hi
    refine ⟨⟨h.bound, h.inj, h.right, h.known⟩, fun u j hj => ?_⟩
    simp only [List.mem_append, List.mem_singleton, Prod.mk.injEq] at hj
    rcases hj with hj | ⟨rfl, rfl⟩
    · exact ha u j hj
    · exact hi
  · rename_i hnone
    split
    · rename_i t ht
      have hnot : text f.1 = none := by
        cases hx : text f.1 with
        | none => rfl
        | some x => have := h.known f.1 x hx; rw [hnone] at this; simp at this
      have h' := h.opened f.1 t
      refine ⟨⟨h'.bound, h'.inj, ?_, ?_⟩, fun u j hj => ?_⟩
      · intro v i t' hv ht'
        refine h'.right v i t' hv ?_
        simp only [next]
        split
        · rename_i e; subst e; rw [hnot] at ht'; simp at ht'
        · exact ht'
      · intro v t' ht'
        simp only
        split
        · rfl
        · exact h.known v t' ht'
      · simp only [List.mem_append, List.mem_singleton, Prod.mk.injEq] at hj ⊢
        rcases hj with hj | ⟨rfl, rfl⟩
        · have := ha u j hj
          have hne : u ≠ f.1 := by rintro rfl; rw [hnone] at this; simp at this
          rw [if_neg hne]; exact this
        · simp
    · exact ⟨h, ha⟩

theorem Inv.load {s : State U T} {text : U → Option T} (h : Inv s text) (fs : List (U × Option T)) :
    Inv (s.load fs) text ∧ ∀ u, Agree (s.load fs) u := by
  simp only [State.load]
  have h0 : Inv { s with project := [] } text := ⟨h.bound, h.inj, h.right, h.known⟩
  have ha0 : ∀ u, Agree { s with project := [] } u := fun u i hi => by simp at hi
  generalize ({ s with project := [] } : State U T) = s' at h0 ha0
  induction fs generalizing s' with
  | nil => exact ⟨h0, ha0⟩
  | cons f fs ih =>
    obtain ⟨h1, h2⟩ := h0.loadFile f ha0
    exact ih _ h1 h2

theorem Inv.step {s : State U T} {text : U → Option T} (h : Inv s text) (e : Event U T) (he : e.isSwap = false) :
    Inv (s.step e) (next text e) := by
  cases e with
  | opened u t => exact h.opened u t
  | change u t => exact h.change u t
  | load fs => exact (h.load fs).1
  | snapshot => simp [Event.isSwap] at he
  | tables o => simp [Event.isSwap] at he
  | exchange => simp [Event.isSwap] at he

theorem run_append (s : State U T) (h : List (Event U T)) (e : Event U T) : s.run (h ++ [e]) = (s.run h).step e := by
  simp [State.run]

theorem Inv.run (h : List (Event U T)) (hs : ∀ e ∈ h, e.isSwap = false) : Inv (State.start.run h) (editor h) := by
  induction h using List.reverseRecOn with
  | nil => exact ⟨by simp [State.run, State.start], by simp [State.run, State.start], by simp [State.run, State.start],
      by simp [editor]⟩
  | append_singleton h e ih =>
    rw [run_append, editor_append]
    exact (ih fun x hx => hs x (by simp [hx])).step e (hs e (by simp))

theorem Agree.step {s : State U T} {text : U → Option T} (hi : Inv s text) {u : U} (h : Agree s u) (e : Event U T)
    (he : e.isSwap = false) (ho : ∀ t, e ≠ .opened u t) : Agree (s.step e) u := by
  cases e with
  | opened v t =>
    intro i hj
    have hne : u ≠ v := by rintro rfl; exact ho t rfl
    simp only [State.step, State.opened, if_neg hne] at hj ⊢
    exact h i hj
  | change v t =>
    have hfiles : (s.change v t).files = s.files := by
      simp only [State.change]; split
      · split <;> rfl
      · rfl
    have hproj : (s.change v t).project = s.project := by
      simp only [State.change]; split
      · split <;> rfl
      · rfl
    intro i hj
    simp only [State.step] at hj ⊢
    rw [hproj] at hj; rw [hfiles]; exact h i hj
  | load fs => exact (hi.load fs).2 u
  | snapshot => simp [Event.isSwap] at he
  | tables o => simp [Event.isSwap] at he
  | exchange => simp [Event.isSwap] at he

theorem lookup_mem {α : Type*} {l : List (U × α)} {u : U} {a : α} (h : l.lookup u = some a) : (u, a) ∈ l := by
  induction l with
  | nil => simp at h
  | cons e es ih =>
    rcases e with ⟨v, b⟩
    rw [List.lookup_cons] at h
    by_cases hv : u = v
    · subst hv; simp at h; simp [h]
    · have : (u == v) = false := by simpa using hv
      rw [this] at h
      exact List.mem_cons_of_mem _ (ih h)

theorem lookup_some {α : Type*} {l : List (U × α)} {u : U} (h : u ∈ l.map Prod.fst) : ∃ a, l.lookup u = some a := by
  induction l with
  | nil => simp at h
  | cons e es ih =>
    rcases e with ⟨v, b⟩
    rw [List.lookup_cons]
    by_cases hv : u = v
    · subst hv; exact ⟨b, by simp⟩
    · have : (u == v) = false := by simpa using hv
      rw [this]
      refine ih ?_
      simp only [List.map_cons, List.mem_cons] at h
      exact h.resolve_left hv

theorem lookup_none {α : Type*} {l : List (U × α)} {u : U} (h : u ∉ l.map Prod.fst) : l.lookup u = none := by
  cases hl : l.lookup u with
  | none => rfl
  | some a => exact absurd (List.mem_map_of_mem (lookup_mem hl)) h

/-! ### An uninterrupted swap -/

theorem lookup_snapshot (project : List (U × ℕ)) (texts : List T) (hv : ∀ e ∈ project, e.2 < texts.length) (u : U) :
    (project.filterMap fun e => texts[e.2]?.map fun t => (e.1, t)).lookup u = (project.lookup u).bind fun i => texts[i]? := by
  induction project with
  | nil => rfl
  | cons e es ih =>
    rcases e with ⟨v, i⟩
    have hi := hv (v, i) (by simp)
    simp only at hi
    have : texts[i]? = some texts[i] := List.getElem?_eq_getElem hi
    simp only [List.filterMap_cons, this, Option.map_some, List.lookup_cons]
    by_cases hu : u = v
    · subst hu; simp [this]
    · have hb : (u == v) = false := by simpa using hu
      rw [hb]
      exact ih fun e he => hv e (by simp [he])

theorem lookup_order (order : List U) (texts : List (U × T)) (u : U) (h : u ∈ order) :
    (order.filterMap fun u => (texts.lookup u).map fun t => (u, t)).lookup u = texts.lookup u := by
  induction order with
  | nil => simp at h
  | cons v vs ih =>
    by_cases hu : u = v
    · subst hu
      cases ht : texts.lookup u with
      | none =>
        simp only [List.filterMap_cons, ht, Option.map_none]
        by_cases hm : u ∈ vs
        · rw [ih hm, ht]
        · apply lookup_none
          simp only [List.mem_map, List.mem_filterMap, not_exists, not_and]
          rintro x ⟨y, hy, hx⟩ rfl
          cases hty : texts.lookup y with
          | none => rw [hty] at hx; simp at hx
          | some t =>
            rw [hty] at hx
            simp only [Option.map_some, Option.some.injEq] at hx
            subst hx
            exact hm hy
      | some t => simp [ht]
    · have hm : u ∈ vs := by
        simp only [List.mem_cons] at h; exact h.resolve_left hu
      have hb : (u == v) = false := by simpa using hu
      simp only [List.filterMap_cons]
      cases ht : texts.lookup v with
      | none => simpa using ih hm
      | some t =>
        simp only [Option.map_some, List.lookup_cons, hb]
        exact ih hm

theorem lookup_zipIdx (found : List (U × T)) (k : ℕ) (u : U) :
    (((found.map Prod.fst).zipIdx k).lookup u).bind (fun i => (found.map Prod.snd)[i - k]?) = found.lookup u ∧
      ∀ i, ((found.map Prod.fst).zipIdx k).lookup u = some i → k ≤ i := by
  induction found generalizing k with
  | nil => simp
  | cons e es ih =>
    rcases e with ⟨v, t⟩
    simp only [List.map_cons, List.zipIdx_cons, List.lookup_cons]
    by_cases hu : u = v
    · subst hu; simp
    · have hb : (u == v) = false := by simpa using hu
      simp only [hb]
      obtain ⟨h1, h2⟩ := ih (k + 1)
      refine ⟨?_, fun i hi => by have := h2 i hi; omega⟩
      rw [← h1]
      cases hl : ((es.map Prod.fst).zipIdx (k + 1)).lookup u with
      | none => rfl
      | some i =>
        have := h2 i hl
        simp only [Option.bind_some]
        rw [show i - k = (i - (k + 1)) + 1 by omega, List.getElem?_cons_succ]

end LsSwap
end CairoM
