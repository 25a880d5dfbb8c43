import Verif.ImportsSpec
import Mathlib.Data.List.Chain
import Mathlib.Data.List.Perm.Subperm

/-!
# Imports between modules: lemmas
-/

namespace CairoM
namespace Imports

variable {α : Type} [DecidableEq α] {g : Graph α}

/-- No infinite chain of imports starts at the module. -/
abbrev Ends (g : Graph α) (a : α) : Prop := Acc (fun b a => Imported g a b) a

/-- Invariant of the search. -/
structure Good (g : Graph α) (s : Search α) : Prop where
  marks : ∀ v k, s.visited v = some k → k = 1 ∨ k = 2
  grey : ∀ v, s.visited v = some 1 ↔ v ∈ s.path
  nodup : s.path.Nodup
  chain : s.path.IsChain (Imported g)
  black : ∀ v, s.visited v = some 2 → Ends g v
  dom : ∀ v ∈ s.path, v ∈ names g

/-- Later states: a mark is kept, or a new name is finished. -/
def Later (s s' : Search α) : Prop := ∀ w, s'.visited w = s.visited w ∨ (s.visited w = none ∧ s'.visited w = some 2)

omit [DecidableEq α] in
theorem Later.refl (s : Search α) : Later s s := fun _ => .inl rfl

omit [DecidableEq α] in
theorem Later.trans {s₁ s₂ s₃ : Search α} (h : Later s₁ s₂) (k : Later s₂ s₃) : Later s₁ s₃ := by
  intro w
  rcases h w with h | ⟨h1, h2⟩
  · rcases k w with k | ⟨k1, k2⟩
    · exact .inl (k.trans h)
    · exact .inr ⟨h ▸ k1, k2⟩
  · rcases k w with k | ⟨k1, k2⟩
    · exact .inr ⟨h1, k.trans h2⟩
    · rw [h2] at k1; simp at k1

omit [DecidableEq α] in
theorem Later.black {s s' : Search α} (h : Later s s') {w : α} (hw : s.visited w = some 2) : s'.visited w = some 2 := by
  rcases h w with h | ⟨h1, h2⟩
  · rw [h, hw]
  · exact h2

theorem dfs_mark (n : ℕ) (s : Search α) (v : α) (k : ℕ) : dfs g n (s.mark v k) v = dfs g n s v := by
  cases n with
  | zero => rfl
  | succ n => simp [dfs, Search.mark, Function.update_idem]

theorem imported_names {a b : α} (h : Imported g a b) : a ∈ names g ∧ b ∈ names g := by
  obtain ⟨bs, h1, h2⟩ := h
  rw [List.lookup_eq_some_iff] at h1
  obtain ⟨l₁, l₂, rfl, _⟩ := h1
  simp [names, h2]

/-- The answer of a search step. -/
def Answer (g : Graph α) (s s' : Search α) : Prop :=
  (∃ c, s'.cycle = some c ∧ IsCycle g c) ∨ (s'.cycle = none ∧ Good g s' ∧ s'.path = s.path ∧ Later s s')

theorem neighbours_ok {n : ℕ} {v : α}
    (ih : ∀ s w, Good g s → s.cycle = none → s.visited w = none → w ∈ names g →
      (∀ u, s.path.getLast? = some u → Imported g u w) → (names g).length ≤ n + s.path.length →
      ∃ s', dfs g n s w = .ok s' ∧ Answer g s s' ∧ (s'.cycle = none → s'.visited w = some 2)) :
    ∀ (ws : List α) (s : Search α), Good g s → s.cycle = none → s.path.getLast? = some v → (∀ w ∈ ws, Imported g v w) →
      (names g).length ≤ n + s.path.length →
      ∃ s' b, neighbours (dfs g n) ws s = .ok (s', b) ∧ Answer g s s' ∧ (b = true ↔ s'.cycle.isSome = true) ∧
        (s'.cycle = none → ∀ w ∈ ws, s'.visited w = some 2)
  | [], s, h, hc, _, _, _ => ⟨s, false, rfl, .inr ⟨hc, h, rfl, .refl s⟩, by simp [hc], by simp⟩
  | w :: ws, s, h, hc, hv, hi, hn => by
    have hws : ∀ w ∈ ws, Imported g v w := fun x hx => hi x (List.mem_cons_of_mem _ hx)
    have hw : Imported g v w := hi w List.mem_cons_self
    cases hm : s.visited w with
    | none =>
      obtain ⟨s₁, e1, e2, e3⟩ := ih s w h hc hm (imported_names hw).2 (fun u hu => by
        rw [hv, Option.some.injEq] at hu; rw [← hu]; exact hw) hn
      rcases e2 with ⟨c, c1, c2⟩ | ⟨c1, c2, c3, c4⟩
      · refine ⟨s₁, true, ?_, .inl ⟨c, c1, c2⟩, by simp [c1], by simp [c1]⟩
        simp [neighbours, hm, dfs_mark, e1, c1]
      · obtain ⟨s₂, b, f1, f2, f3, f4⟩ := neighbours_ok ih ws s₁ c2 c1 (by rw [c3]; exact hv) hws (by rw [c3]; exact hn)
        refine ⟨s₂, b, ?_, ?_, f3, ?_⟩
        · simp [neighbours, hm, dfs_mark, e1, c1, f1]
        · rcases f2 with f2 | ⟨d1, d2, d3, d4⟩
          · exact .inl f2
          · exact .inr ⟨d1, d2, d3.trans c3, c4.trans d4⟩
        · intro hcy x hx
          rw [List.mem_cons] at hx
          rcases hx with rfl | hx
          · rcases f2 with ⟨c, f2, _⟩ | ⟨_, _, _, d4⟩
            · rw [hcy] at f2; simp at f2
            · exact d4.black (e3 c1)
          · exact f4 hcy x hx
    | some k =>
      rcases h.marks w k hm with rfl | rfl
      · have hp : w ∈ s.path := (h.grey w).1 hm
        obtain ⟨i, hi'⟩ : ∃ i, s.path.findIdx? (· = w) = some i := by
          rw [← Option.isSome_iff_exists, List.findIdx?_isSome, List.any_eq_true]
          exact ⟨w, hp, by simp⟩
        obtain ⟨hlt, hpi, _⟩ := List.findIdx?_eq_some_iff_getElem.1 hi'
        simp only [decide_eq_true_eq] at hpi
        have hd : s.path.drop i = w :: s.path.drop (i + 1) := by rw [List.drop_eq_getElem_cons hlt, hpi]
        refine ⟨{ s with cycle := some (s.path.drop i ++ [w]) }, true, ?_, .inl ⟨_, rfl, ?_⟩, by simp, by simp⟩
        · simp [neighbours, hm, hi']
        · refine ⟨?_, ?_, ?_⟩
          · rw [hd]; simp
          · rw [List.isChain_append]
            refine ⟨h.chain.drop i, by simp, ?_⟩
            intro x hx y hy
            simp only [List.head?_cons, Option.mem_def, Option.some.injEq] at hy
            subst hy
            rw [Option.mem_def, List.getLast?_drop] at hx
            split_ifs at hx
            rw [hv, Option.some.injEq] at hx
            subst hx
            exact hw
          · rw [List.getLast?_concat, hd]; rfl
      · obtain ⟨s₂, b, f1, f2, f3, f4⟩ := neighbours_ok ih ws s h hc hv hws hn
        refine ⟨s₂, b, ?_, f2, f3, ?_⟩
        · simp [neighbours, hm, hc, f1]
        · intro hcy x hx
          rw [List.mem_cons] at hx
          rcases hx with rfl | hx
          · rcases f2 with ⟨c, f2, _⟩ | ⟨_, _, _, d4⟩
            · rw [hcy] at f2; simp at f2
            · exact d4.black hm
          · exact f4 hcy x hx

theorem lookup_imported {v w : α} (h : w ∈ (g.lookup v).getD []) : Imported g v w := by
  cases hl : g.lookup v with
  | none => simp [hl] at h
  | some bs => exact ⟨bs, hl, by simpa [hl] using h⟩

theorem dfs_ok : ∀ (n : ℕ) (s : Search α) (v : α), Good g s → s.cycle = none → s.visited v = none → v ∈ names g →
    (∀ u, s.path.getLast? = some u → Imported g u v) → (names g).length ≤ n + s.path.length →
    ∃ s', dfs g n s v = .ok s' ∧ Answer g s s' ∧ (s'.cycle = none → s'.visited v = some 2) := by
  intro n
  induction n with
  | zero =>
    intro s v h _ hv hd _ hn
    exfalso
    have hnot : v ∉ s.path := fun hp => by rw [(h.grey v).2 hp] at hv; simp at hv
    have : (v :: s.path).length ≤ (names g).length :=
      (List.Nodup.subperm (List.nodup_cons.2 ⟨hnot, h.nodup⟩) (List.cons_subset.2 ⟨hd, h.dom⟩)).length_le
    simp at this hn
    omega
  | succ n ih =>
    intro s v h hc hv hd hl hn
    have hnot : v ∉ s.path := fun hp => by rw [(h.grey v).2 hp] at hv; simp at hv
    let s₁ : Search α := { visited := Function.update s.visited v (some 1), path := s.path ++ [v], cycle := s.cycle }
    have g1 : Good g s₁ :=
      { marks := by
          intro w k hk
          by_cases e : w = v
          · subst e; simp [s₁] at hk; exact .inl hk.symm
          · simp only [s₁, Function.update_of_ne e] at hk; exact h.marks w k hk
        grey := by
          intro w
          by_cases e : w = v
          · subst e; simp [s₁]
          · simp [s₁, e, h.grey w]
        nodup := by
          simp only [s₁]
          rw [List.nodup_append]
          refine ⟨h.nodup, by simp, ?_⟩
          intro a ha b hb
          simp only [List.mem_singleton] at hb
          subst hb
          rintro rfl
          exact hnot ha
        chain := by
          simp only [s₁]
          rw [List.isChain_append]
          refine ⟨h.chain, by simp, ?_⟩
          intro x hx y hy
          simp only [List.head?_cons, Option.mem_def, Option.some.injEq] at hy
          subst hy
          exact hl x hx
        black := by
          intro w hw
          by_cases e : w = v
          · subst e; simp [s₁] at hw
          · simp only [s₁, Function.update_of_ne e] at hw; exact h.black w hw
        dom := by
          intro w hw
          simp only [s₁, List.mem_append, List.mem_singleton] at hw
          rcases hw with hw | rfl
          · exact h.dom w hw
          · exact hd }
    obtain ⟨s', b, e1, e2, e3, e4⟩ := neighbours_ok (v := v) ih ((g.lookup v).getD []) s₁ g1 hc (by simp [s₁])
      (fun w hw => lookup_imported hw) (by simp [s₁]; omega)
    have hcall : dfs g (n + 1) s v = match (Except.ok (s', b) : Except Err (Search α × Bool)) with
        | .error e => .error e
        | .ok (s, true) => .ok s
        | .ok (s, false) => .ok ({ s with path := s.path.dropLast }.mark v 2) := by
      rw [← e1]; rfl
    rcases e2 with ⟨c, c1, c2⟩ | ⟨c1, c2, c3, c4⟩
    · have hb : b = true := e3.2 (by simp [c1])
      subst hb
      exact ⟨s', hcall, .inl ⟨c, c1, c2⟩, by simp [c1]⟩
    · have hb : b = false := by
        cases b with
        | false => rfl
        | true => simpa [c1] using e3.1 rfl
      subst hb
      have hp : s'.path.dropLast = s.path := by rw [c3]; simp [s₁]
      refine ⟨_, hcall, .inr ⟨c1, ?_, hp, ?_⟩, fun _ => by simp [Search.mark]⟩
      · have hgrey : ∀ w, w ≠ v → (s'.visited w = some 1 ↔ w ∈ s.path) := by
          intro w e
          rw [c2.grey w, c3]
          simp [s₁, e]
        exact
          { marks := by
              intro w k hk
              by_cases e : w = v
              · subst e; simp [Search.mark] at hk; exact .inr hk.symm
              · simp only [Search.mark, Function.update_of_ne e] at hk; exact c2.marks w k hk
            grey := by
              intro w
              simp only [Search.mark, hp]
              by_cases e : w = v
              · subst e; simp [hnot]
              · rw [Function.update_of_ne e]; exact hgrey w e
            nodup := by simp only [Search.mark, hp]; exact h.nodup
            chain := by simp only [Search.mark, hp]; exact h.chain
            black := by
              intro w hw
              by_cases e : w = v
              · subst e
                refine Acc.intro _ fun b hb => c2.black b (e4 c1 b ?_)
                obtain ⟨bs, h1, h2⟩ := hb
                simpa [h1] using h2
              · simp only [Search.mark, Function.update_of_ne e] at hw; exact c2.black w hw
            dom := by
              intro w hw
              simp only [Search.mark, hp] at hw
              exact h.dom w hw }
      · intro w
        by_cases e : w = v
        · subst e; exact .inr ⟨hv, by simp [Search.mark]⟩
        · simp only [Search.mark, Function.update_of_ne e]
          have := c4 w
          simp only [s₁, Function.update_of_ne e] at this
          exact this

theorem search_ok {depth : ℕ} (hd : (names g).length ≤ depth) : ∀ (vs : List α) (s : Search α), Good g s → s.cycle = none →
    s.path = [] → (∀ v ∈ vs, v ∈ names g) →
    ∃ r, search g depth vs s = .ok r ∧ ((∃ c, r = some c ∧ IsCycle g c) ∨ (r = none ∧ (∀ v ∈ vs, Ends g v)))
  | [], s, _, hc, _, _ => ⟨none, by simp [search, hc], .inr ⟨rfl, by simp⟩⟩
  | v :: vs, s, h, hc, hp, hv => by
    have hvs : ∀ w ∈ vs, w ∈ names g := fun w hw => hv w (List.mem_cons_of_mem _ hw)
    simp only [search]
    cases hm : s.visited v with
    | some k =>
      obtain ⟨r, e1, e2⟩ := search_ok hd vs s h hc hp hvs
      refine ⟨r, by simpa using e1, e2.imp id fun e2 => ⟨e2.1, fun w hw => ?_⟩⟩
      rw [List.mem_cons] at hw
      rcases hw with rfl | hw
      · rcases h.marks w k hm with rfl | rfl
        · have := (h.grey w).1 hm
          rw [hp] at this
          simp at this
        · exact h.black w hm
      · exact e2.2 w hw
    | none =>
      obtain ⟨s', e1, e2, e3⟩ := dfs_ok depth s v h hc hm (hv v List.mem_cons_self) (by simp [hp]) (by omega)
      simp only [Option.isSome_none, Bool.false_eq_true, if_false, e1]
      rcases e2 with ⟨c, c1, c2⟩ | ⟨c1, c2, c3, c4⟩
      · exact ⟨some c, by simp [c1], .inl ⟨c, rfl, c2⟩⟩
      · obtain ⟨r, f1, f2⟩ := search_ok hd vs s' c2 c1 (c3.trans hp) hvs
        refine ⟨r, by simpa [c1] using f1, f2.imp id fun f2 => ⟨f2.1, fun w hw => ?_⟩⟩
        rw [List.mem_cons] at hw
        rcases hw with rfl | hw
        · exact c2.black w (e3 c1)
        · exact f2.2 w hw

theorem Ends.irrefl {a : α} (h : Ends g a) : ¬ Relation.TransGen (Imported g) a a := by
  have h' : Acc (Relation.TransGen fun b a => Imported g a b) a := Acc.transGen h
  have irr : ∀ x, Acc (Relation.TransGen fun b a => Imported g a b) x → ¬ Relation.TransGen (fun b a => Imported g a b) x x := by
    intro x hx
    induction hx with
    | intro x _ ih => exact fun hxx => ih x hxx hxx
  intro ht
  exact irr a h' (Relation.transGen_swap.2 ht)

omit [DecidableEq α] in
theorem keys_names {v : α} (h : v ∈ g.map Prod.fst) : v ∈ names g := by
  simp only [List.mem_map] at h
  obtain ⟨e, he, rfl⟩ := h
  simp only [names, List.mem_flatMap]
  exact ⟨e, he, List.mem_cons_self⟩

theorem imported_key {a b : α} (h : Imported g a b) : a ∈ g.map Prod.fst := by
  obtain ⟨bs, h1, _⟩ := h
  rw [List.lookup_eq_some_iff] at h1
  obtain ⟨l₁, l₂, rfl, _⟩ := h1
  simp

theorem acyclic_of_ends (h : ∀ v ∈ g.map Prod.fst, Ends g v) : Acyclic g := by
  intro a ha
  have : ∃ b, Imported g a b := by
    cases ha using Relation.TransGen.head_induction_on with
    | single h => exact ⟨_, h⟩
    | head h _ _ => exact ⟨_, h⟩
  obtain ⟨b, hb⟩ := this
  exact (h a (imported_key hb)).irrefl ha

theorem IsCycle.transGen {c : List α} (h : IsCycle g c) : ∃ a, c.head? = some a ∧ Relation.TransGen (Imported g) a a := by
  obtain ⟨h1, h2, h3⟩ := h
  have walk : ∀ (l : List α) (a z : α), (a :: l).IsChain (Imported g) → l ≠ [] → (a :: l).getLast? = some z →
      Relation.TransGen (Imported g) a z := by
    intro l
    induction l with
    | nil => intro a z _ h; exact absurd rfl h
    | cons b l ih =>
      intro a z hc _ hz
      rw [List.isChain_cons_cons] at hc
      cases l with
      | nil => simp at hz; subst hz; exact .single hc.1
      | cons d l => exact .head hc.1 (ih b z hc.2 (by simp) (by simpa using hz))
  match c, h1 with
  | a :: b :: l, _ => exact ⟨a, rfl, walk (b :: l) a a h2 (by simp) (by rw [← h3]; rfl)⟩

/-! ### Topological order -/

/-- Invariant of the sort below the module `v`: what is visited and not sorted imports `v`. -/
structure Sorted (g : Graph α) (s : Order α) : Prop where
  nodup : s.visited.Nodup
  topoNodup : s.topo.Nodup
  sub : ∀ w ∈ s.topo, w ∈ s.visited
  first : DependenciesFirst g s.topo
  dom : ∀ w ∈ s.visited, w ∈ names g

/-- Later states: what is newly visited is sorted. -/
structure Grown (s s' : Order α) : Prop where
  visited : ∀ w ∈ s.visited, w ∈ s'.visited
  topo : ∃ new, s'.topo = s.topo ++ new ∧ ∀ w ∈ new, w ∉ s.visited
  sorted : ∀ w ∈ s'.visited, w ∈ s.visited ∨ w ∈ s'.topo

omit [DecidableEq α] in
theorem Grown.refl (s : Order α) : Grown s s := ⟨fun _ h => h, ⟨[], by simp⟩, fun _ h => .inl h⟩

omit [DecidableEq α] in
theorem Grown.mem {s s' : Order α} (h : Grown s s') {w : α} (hw : w ∈ s.topo) : w ∈ s'.topo := by
  obtain ⟨new, e, _⟩ := h.topo
  rw [e]
  exact List.mem_append_left _ hw

omit [DecidableEq α] in
theorem Grown.trans {s₁ s₂ s₃ : Order α} (h : Grown s₁ s₂) (k : Grown s₂ s₃) : Grown s₁ s₃ where
  visited w hw := k.visited w (h.visited w hw)
  topo := by
    obtain ⟨n1, e1, f1⟩ := h.topo
    obtain ⟨n2, e2, f2⟩ := k.topo
    refine ⟨n1 ++ n2, by rw [e2, e1, List.append_assoc], ?_⟩
    intro w hw
    rw [List.mem_append] at hw
    rcases hw with hw | hw
    · exact f1 w hw
    · exact fun hv => f2 w hw (h.visited w hv)
  sorted w hw := by
    rcases k.sorted w hw with hw | hw
    · rcases h.sorted w hw with hw | hw
      · exact .inl hw
      · exact .inr (k.mem hw)
    · exact .inr hw

theorem sortNeighbours_ok {n : ℕ} {v : α} (hac : Acyclic g)
    (ih : ∀ s w, Sorted g s → w ∉ s.visited → w ∈ names g →
      (∀ u ∈ s.visited, u ∉ s.topo → Relation.TransGen (Imported g) u w) → (names g).length + s.topo.length ≤ n + s.visited.length →
      ∃ s', dfsTopo g n s w = .ok s' ∧ Sorted g s' ∧ Grown s s' ∧ w ∈ s'.topo ∧
        s'.visited.length + s.topo.length = s.visited.length + s'.topo.length) :
    ∀ (ws : List α) (s : Order α), Sorted g s → (∀ w ∈ ws, Imported g v w) →
      (∀ u ∈ s.visited, u ∉ s.topo → Relation.ReflTransGen (Imported g) u v) →
      (names g).length + s.topo.length ≤ n + s.visited.length →
      ∃ s', sortNeighbours (dfsTopo g n) ws s = .ok s' ∧ Sorted g s' ∧ Grown s s' ∧ (∀ w ∈ ws, w ∈ s'.topo) ∧
        s'.visited.length + s.topo.length = s.visited.length + s'.topo.length
  | [], s, h, _, _, _ => ⟨s, rfl, h, .refl s, by simp, rfl⟩
  | w :: ws, s, h, hi, hr, hn => by
    have hws : ∀ w ∈ ws, Imported g v w := fun x hx => hi x (List.mem_cons_of_mem _ hx)
    have hw : Imported g v w := hi w List.mem_cons_self
    by_cases hm : w ∈ s.visited
    · obtain ⟨s', e1, e2, e3, e4, e5⟩ := sortNeighbours_ok hac ih ws s h hws hr hn
      refine ⟨s', by simpa [sortNeighbours, hm] using e1, e2, e3, ?_, e5⟩
      intro x hx
      rw [List.mem_cons] at hx
      rcases hx with rfl | hx
      · by_cases ht : x ∈ s.topo
        · exact e3.mem ht
        · exact absurd (Relation.TransGen.head' hw (hr x hm ht)) (hac v)
      · exact e4 x hx
    · obtain ⟨s₁, e1, e2, e3, e4, e5⟩ := ih s w h hm (imported_names hw).2
        (fun u hu ht => Relation.TransGen.tail' (hr u hu ht) hw) hn
      obtain ⟨s', f1, f2, f3, f4, f5⟩ := sortNeighbours_ok hac ih ws s₁ e2 hws (fun u hu ht => by
        rcases e3.sorted u hu with hu | hu
        · exact hr u hu fun hs => ht (e3.mem hs)
        · exact absurd hu ht) (by omega)
      refine ⟨s', by simp [sortNeighbours, hm, e1, f1], f2, e3.trans f3, ?_, by omega⟩
      intro x hx
      rw [List.mem_cons] at hx
      rcases hx with rfl | hx
      · exact f3.mem e4
      · exact f4 x hx

theorem dependenciesFirst_concat {l : List α} {v : α} (h : DependenciesFirst g l) (hv : ∀ b, Imported g v b → b ∈ l) :
    DependenciesFirst g (l ++ [v]) := by
  intro before a after e b hb
  rcases List.eq_nil_or_concat after with rfl | ⟨after', z, rfl⟩
  · obtain ⟨rfl, e'⟩ := List.append_inj' e rfl
    rw [List.cons.injEq] at e'
    rw [← e'.1] at hb
    exact hv b hb
  · rw [List.concat_eq_append, ← List.cons_append, ← List.append_assoc] at e
    obtain ⟨rfl, _⟩ := List.append_inj' e rfl
    exact h before a after' rfl b hb

theorem dfsTopo_ok (hac : Acyclic g) : ∀ (n : ℕ) (s : Order α) (v : α), Sorted g s → v ∉ s.visited → v ∈ names g →
    (∀ u ∈ s.visited, u ∉ s.topo → Relation.TransGen (Imported g) u v) → (names g).length + s.topo.length ≤ n + s.visited.length →
    ∃ s', dfsTopo g n s v = .ok s' ∧ Sorted g s' ∧ Grown s s' ∧ v ∈ s'.topo ∧
      s'.visited.length + s.topo.length = s.visited.length + s'.topo.length := by
  intro n
  induction n with
  | zero =>
    intro s v h hv hd _ hn
    exfalso
    have : (v :: s.visited).length ≤ (names g).length :=
      (List.Nodup.subperm (List.nodup_cons.2 ⟨hv, h.nodup⟩) (List.cons_subset.2 ⟨hd, h.dom⟩)).length_le
    simp at this hn
    omega
  | succ n ih =>
    intro s v h hv hd hr hn
    have h1 : Sorted g { s with visited := v :: s.visited } :=
      { nodup := List.nodup_cons.2 ⟨hv, h.nodup⟩
        topoNodup := h.topoNodup
        sub := fun w hw => List.mem_cons_of_mem _ (h.sub w hw)
        first := h.first
        dom := fun w hw => by
          rw [List.mem_cons] at hw
          rcases hw with rfl | hw
          · exact hd
          · exact h.dom w hw }
    obtain ⟨s', e1, e2, e3, e4, e5⟩ := sortNeighbours_ok (v := v) hac ih ((g.lookup v).getD []) _ h1
      (fun w hw => lookup_imported hw) (fun u hu ht => by
        simp only [List.mem_cons] at hu
        rcases hu with rfl | hu
        · exact .refl
        · exact (hr u hu ht).to_reflTransGen) (by simp; omega)
    simp only [List.length_cons] at e5
    have hvt : v ∉ s'.topo := by
      obtain ⟨new, f1, f2⟩ := e3.topo
      rw [f1, List.mem_append]
      rintro (hh | hh)
      · exact hv (h.sub v hh)
      · exact f2 v hh (by simp)
    have hvv : v ∈ s'.visited := e3.visited v (by simp)
    refine ⟨{ s' with topo := s'.topo ++ [v] }, by simp [dfsTopo, e1], ?_, ?_, by simp, by simp; omega⟩
    · exact
        { nodup := e2.nodup
          topoNodup := by
            rw [List.nodup_append]
            refine ⟨e2.topoNodup, by simp, ?_⟩
            intro a ha b hb
            simp only [List.mem_singleton] at hb
            subst hb
            rintro rfl
            exact hvt ha
          sub := fun w hw => by
            simp only [List.mem_append, List.mem_singleton] at hw
            rcases hw with hw | rfl
            · exact e2.sub w hw
            · exact hvv
          first := dependenciesFirst_concat e2.first fun b hb => by
            obtain ⟨bs, f1, f2⟩ := hb
            exact e4 b (by simpa [f1] using f2)
          dom := e2.dom }
    · obtain ⟨new, f1, f2⟩ := e3.topo
      exact
        { visited := fun w hw => e3.visited w (List.mem_cons_of_mem _ hw)
          topo := by
            refine ⟨new ++ [v], by simp at f1; simp [f1], ?_⟩
            intro w hw
            simp only [List.mem_append, List.mem_singleton] at hw
            rcases hw with hw | rfl
            · exact fun hh => f2 w hw (List.mem_cons_of_mem _ hh)
            · exact hv
          sorted := fun w hw => by
            rcases e3.sorted w hw with hw | hw
            · rw [List.mem_cons] at hw
              rcases hw with rfl | hw
              · exact .inr (by simp)
              · exact .inl hw
            · exact .inr (List.mem_append_left _ hw) }

theorem sortAll_ok (hac : Acyclic g) {depth : ℕ} (hd : (names g).length ≤ depth) : ∀ (vs : List α) (s : Order α), Sorted g s →
    (∀ w ∈ s.visited, w ∈ s.topo) → (∀ v ∈ vs, v ∈ names g) →
    ∃ topo, sortAll g depth vs s = .ok topo ∧ topo.Nodup ∧ DependenciesFirst g topo ∧ (∀ v ∈ s.topo, v ∈ topo) ∧ (∀ v ∈ vs, v ∈ topo)
  | [], s, h, _, _ => ⟨s.topo, rfl, h.topoNodup, h.first, fun _ h => h, by simp⟩
  | v :: vs, s, h, hall, hv => by
    have hvs : ∀ w ∈ vs, w ∈ names g := fun w hw => hv w (List.mem_cons_of_mem _ hw)
    by_cases hm : v ∈ s.visited
    · obtain ⟨topo, e1, e2, e3, e4, e5⟩ := sortAll_ok hac hd vs s h hall hvs
      refine ⟨topo, by simpa [sortAll, hm] using e1, e2, e3, e4, ?_⟩
      intro w hw
      rw [List.mem_cons] at hw
      rcases hw with rfl | hw
      · exact e4 w (hall w hm)
      · exact e5 w hw
    · have hlen : s.topo.length ≤ s.visited.length := (List.Nodup.subperm h.topoNodup h.sub).length_le
      obtain ⟨s', f1, f2, f3, f4, f5⟩ := dfsTopo_ok hac depth s v h hm (hv v List.mem_cons_self)
        (fun u hu ht => absurd (hall u hu) ht) (by omega)
      obtain ⟨topo, e1, e2, e3, e4, e5⟩ := sortAll_ok hac hd vs s' f2 (fun w hw => by
        rcases f3.sorted w hw with hw | hw
        · exact f3.mem (hall w hw)
        · exact hw) hvs
      refine ⟨topo, by simp [sortAll, hm, f1, e1], e2, e3, fun w hw => e4 w (f3.mem hw), ?_⟩
      intro w hw
      rw [List.mem_cons] at hw
      rcases hw with rfl | hw
      · exact e4 w f4
      · exact e5 w hw

/-! ### The order of the hash map -/

theorem lookup_iff {a : α} {bs : List α} : ∀ {g : Graph α}, (g.map Prod.fst).Nodup → (g.lookup a = some bs ↔ (a, bs) ∈ g)
  | [], _ => by simp
  | (k, ks) :: g, h => by
    simp only [List.map_cons, List.nodup_cons] at h
    rw [List.lookup_cons]
    by_cases e : a = k
    · subst e
      simp only [beq_self_eq_true, Option.some.injEq, List.mem_cons, Prod.mk.injEq, true_and]
      constructor
      · exact fun h => .inl h.symm
      · rintro (h' | h')
        · exact h'.symm
        · exact absurd (List.mem_map_of_mem (f := Prod.fst) h') h.1
    · simp only [beq_eq_false_iff_ne.2 e, List.mem_cons, Prod.mk.injEq, e, false_and, false_or]
      exact lookup_iff h.2

theorem lookup_perm {g g' : Graph α} (h : g.Perm g') (hn : (g.map Prod.fst).Nodup) (a : α) : g.lookup a = g'.lookup a := by
  have hn' : (g'.map Prod.fst).Nodup := (h.map Prod.fst).nodup_iff.1 hn
  cases hl : g'.lookup a with
  | some bs => exact (lookup_iff hn).2 (h.mem_iff.2 ((lookup_iff hn').1 hl))
  | none =>
    cases hl' : g.lookup a with
    | none => rfl
    | some bs =>
      have := (lookup_iff hn').2 (h.mem_iff.1 ((lookup_iff hn).1 hl'))
      rw [hl] at this
      simp at this

theorem dfs_congr {g g' : Graph α} (h : ∀ a, g.lookup a = g'.lookup a) : ∀ n, dfs g n = dfs g' n
  | 0 => rfl
  | n + 1 => by
    funext s v
    simp only [dfs, h v, dfs_congr h n]

theorem search_congr {g g' : Graph α} (h : ∀ a, g.lookup a = g'.lookup a) (n : ℕ) : ∀ (vs : List α) (s : Search α),
    search g n vs s = search g' n vs s
  | [], _ => rfl
  | v :: vs, s => by
    simp only [search, dfs_congr h n, search_congr h n vs]

end Imports
end CairoM
