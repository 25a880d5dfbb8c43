import Verif.WasmLemmas

/-!
# The WebAssembly front end: the steps of the second pass

Which parts of the state each step changes, and that `Le` and `Inv` are kept.
-/

namespace CairoM
namespace Wasm

open Mir

/-! ### Labels of a list of nodes -/

/-- The labels of a list of nodes, without those in the bodies of loops. -/
def topIds : List Node → List ℕ
  | [] => []
  | .label id _ :: ns => id :: topIds ns
  | _ :: ns => topIds ns

mutual
/-- The labels in the body of a loop. -/
def Node.inner : Node → List ℕ
  | .loop _ body => topIds body ++ innerIds body
  | _ => []
/-- The labels in the bodies of loops. -/
def innerIds : List Node → List ℕ
  | [] => []
  | n :: ns => n.inner ++ innerIds ns
end

/-- A label follows every unconditional branch and every loop, unless it is the last node. -/
def seqOk : Bool → List Node → Bool
  | _, [] => true
  | _, .label .. :: ns => seqOk true ns
  | false, _ :: _ => false
  | true, .br .. :: ns => seqOk false ns
  | true, .loop .. :: ns => seqOk false ns
  | true, _ :: ns => seqOk true ns

mutual
/-- `seqOk` in the body of a loop. -/
def Node.deepOk : Node → Bool
  | .loop _ body => seqOk true body && deepOk body
  | _ => true
/-- `seqOk` in the bodies of all loops. -/
def deepOk : List Node → Bool
  | [] => true
  | n :: ns => n.deepOk && deepOk ns
end

/-! ### Phi nodes -/

theorem mirTypes_ok : ∀ {ts : List ValType} {us : List MirType}, mirTypes ts = .ok us → us = List.replicate ts.length .U32
  | [], us, h => by
    simp only [mirTypes, Except.ok.injEq] at h
    simp [← h]
  | t :: ts, us, h => by
    simp only [mirTypes] at h
    obtain ⟨a, h1, h⟩ := bindOk h
    obtain ⟨as, h2, h⟩ := bindOk h
    cases h
    rw [mirTypes_ok h2]
    cases t <;> simp [mirType] at h1
    subst h1
    simp [List.replicate_succ]

theorem pushPhi_empty (ds : List ℕ) (d : ℕ) :
    pushPhi (emptyPhis ds) (.Phi d .U32 []) = emptyPhis (ds ++ [d]) := by
  induction ds with
  | nil => rfl
  | cons e es ih =>
    simp only [emptyPhis, List.map_cons, List.cons_append, pushPhi] at *
    rw [ih]

theorem modify_last (B : List Block) (x : Block) (f : Block → Block) : (B ++ [x]).modify B.length f = B ++ [f x] := by
  induction B with
  | nil => rfl
  | cons b B ih => simp [List.modify_succ_cons, ih]

theorem phis_spec : ∀ (n : ℕ) (s : St) (B : List Block) (es : List ℕ), s.blocks = B ++ [⟨emptyPhis es, .Unreachable⟩] →
    (s.phis B.length (List.replicate n .U32)).2 = List.range' s.next n ∧
    (s.phis B.length (List.replicate n .U32)).1 =
      { s with
        blocks := B ++ [⟨emptyPhis (es ++ List.range' s.next n), .Unreachable⟩]
        next := s.next + n
        types := (s.phis B.length (List.replicate n .U32)).1.types }
  | 0, s, B, es, h => by simp [St.phis, List.range', ← h]
  | n + 1, s, B, es, h => by
    have h2 : ({ (s.fresh .U32).1 with
        blocks := (s.fresh .U32).1.blocks.modify B.length fun c => { c with instrs := pushPhi c.instrs (.Phi s.next .U32 []) } }
          : St).blocks = B ++ [⟨emptyPhis (es ++ [s.next]), .Unreachable⟩] := by
      simp only [St.fresh, h]
      rw [modify_last]
      simp [pushPhi_empty]
    have ih := phis_spec n _ B (es ++ [s.next]) h2
    simp only [List.replicate_succ, St.phis]
    simp only [St.fresh] at ih ⊢
    rw [ih.1]
    refine ⟨by simp [List.range'], ?_⟩
    conv => lhs; rw [ih.2]
    simp [List.range', Nat.add_assoc, Nat.add_comm 1 n]

/-- Names for the outputs of a node, in a scope. -/
def named (node : ℕ) : ℕ → List ℕ → List (Origin × ℕ)
  | _, [] => []
  | i, v :: vs => named node (i + 1) vs ++ [(⟨node, i⟩, v)]

theorem insertAll_spec (node : ℕ) : ∀ (vs : List ℕ) (i : ℕ) (s : St) (m : List (Origin × ℕ))
    (ms : List (List (Origin × ℕ))), s.scopes = m :: ms →
    s.insertAll node i vs = { s with scopes := (named node i vs ++ m) :: ms }
  | [], i, s, m, ms, h => by
    simp only [St.insertAll, named, List.nil_append, ← h]
  | v :: vs, i, s, m, ms, h => by
    have h2 : (s.insert ⟨node, i⟩ v).scopes = ((⟨node, i⟩, v) :: m) :: ms := by simp [St.insert, h]
    rw [St.insertAll, insertAll_spec node vs (i + 1) _ _ _ h2]
    simp [St.insert, named]

theorem named_ne (node : ℕ) : ∀ (vs : List ℕ) (i : ℕ) (m : List (Origin × ℕ)) (o : Origin), o.node ≠ node →
    (named node i vs ++ m).lookup o = m.lookup o
  | [], i, m, o, h => rfl
  | v :: vs, i, m, o, h => by
    rw [named, List.append_assoc, named_ne node vs (i + 1) _ o h, List.singleton_append, List.lookup_cons]
    have : (o == (⟨node, i⟩ : Origin)) = false := by
      rw [beq_eq_false_iff_ne]
      rintro rfl
      exact h rfl
    rw [this]

theorem named_lt (node : ℕ) : ∀ (vs : List ℕ) (i j : ℕ) (m : List (Origin × ℕ)), j < i →
    (named node i vs ++ m).lookup ⟨node, j⟩ = m.lookup ⟨node, j⟩
  | [], i, j, m, h => rfl
  | v :: vs, i, j, m, h => by
    rw [named, List.append_assoc, named_lt node vs (i + 1) j _ (by omega), List.singleton_append, List.lookup_cons]
    have : ((⟨node, j⟩ : Origin) == (⟨node, i⟩ : Origin)) = false := by
      rw [beq_eq_false_iff_ne]
      intro h
      cases h
      omega
    rw [this]

theorem named_get (node : ℕ) : ∀ (vs : List ℕ) (i j : ℕ) (v : ℕ) (m : List (Origin × ℕ)),
    vs[j]? = some v → (named node i vs ++ m).lookup ⟨node, i + j⟩ = some v
  | [], i, j, v, m, h => by simp at h
  | w :: vs, i, 0, v, m, h => by
    simp only [List.getElem?_cons_zero, Option.some.injEq] at h
    subst h
    rw [named, List.append_assoc, Nat.add_zero, named_lt node vs (i + 1) i _ (by omega), List.singleton_append, List.lookup_cons]
    simp
  | w :: vs, i, j + 1, v, m, h => by
    rw [named, List.append_assoc, show i + (j + 1) = (i + 1) + j by omega]
    exact named_get node vs (i + 1) j v _ (by simpa using h)


/-! ### The first pass -/

/-- None of the labels is known yet. -/
def Fresh (s : St) (ids : List ℕ) : Prop := ∀ id ∈ ids, s.labels.lookup id = none ∧ s.labelPhis.lookup id = none

/-- The outputs of the labels have names in the innermost scope. -/
def Named (s : St) (m : List (Origin × ℕ)) (idx : ℕ) (ns : List Node) : Prop :=
  ∀ j id ts, ns[j]? = some (.label id ts) → ∃ ds, s.labelPhis.lookup id = some ds ∧ ds.length = ts.length ∧
    ∀ q d, ds[q]? = some d → m.lookup ⟨idx + j, q⟩ = some d

theorem alloc_step {s t : St} {L : List ℕ} {live : Bool} (h : Inv s L live) {id n : ℕ} (hf : Fresh s [id])
    (hb : t.blocks = s.blocks ++ [⟨emptyPhis (List.range' s.next n), .Unreachable⟩])
    (hl : t.labels = (id, s.blocks.length) :: s.labels) (hp : t.labelPhis = (id, List.range' s.next n) :: s.labelPhis)
    (hd : t.deferred = s.deferred) (hn : t.next = s.next + n) (hc : t.current = s.current)
    (hloops : t.loops = s.loops) : Le s t ∧ Inv t (id :: L) live := by
  obtain ⟨f1, f2⟩ := hf id (by simp)
  have hlook : ∀ i b, s.labels.lookup i = some b → t.labels.lookup i = some b := by
    intro i b h1
    rw [hl, List.lookup_cons]
    by_cases e : i = id
    · rw [e, f1] at h1
      cases h1
    · rw [beq_eq_false_iff_ne.mpr e]
      exact h1
  have hlookp : ∀ i b, s.labelPhis.lookup i = some b → t.labelPhis.lookup i = some b := by
    intro i b h1
    rw [hp, List.lookup_cons]
    by_cases e : i = id
    · rw [e, f2] at h1
      cases h1
    · rw [beq_eq_false_iff_ne.mpr e]
      exact h1
  have hnew : t.labels.lookup id = some s.blocks.length := by rw [hl]; simp
  have hnewp : t.labelPhis.lookup id = some (List.range' s.next n) := by rw [hp]; simp
  have hidL : id ∉ L := by
    intro hid
    obtain ⟨b, ds, h1, _⟩ := h.pending id hid
    rw [f1] at h1
    cases h1
  have hcl : ∀ b, Closed s b → Closed t b := by
    rintro b ⟨c, h1, h2⟩
    exact ⟨c, hb ▸ add_get h1, h2⟩
  refine ⟨⟨?_, ?_, ?_, ?_, hlook, hlookp, by omega⟩, ⟨?_, ?_, ?_, ?_, ?_, ?_, ?_⟩⟩
  · intro b c h
    exact ⟨c, hb ▸ add_get h, [], by simp⟩
  · intro b c h _
    exact hb ▸ add_get h
  · intro d h
    exact hd ▸ h
  · intro d h _
    exact hd ▸ h
  · intro hl
    obtain ⟨c, h1, h2⟩ := h.current hl
    rw [hc]
    exact ⟨c, hb ▸ add_get h1, h2⟩
  · intro i hi
    rcases List.mem_cons.mp hi with rfl | hi'
    · refine ⟨_, _, hnew, hnewp, by rw [hb]; simp, fun hlive e => ?_, List.nodup_range', fun d hd => ?_⟩
      · obtain ⟨c, h1, h2⟩ := h.current hlive
        obtain ⟨h3, _⟩ := List.getElem?_eq_some_iff.mp h1
        omega
      · rw [List.mem_range'_1] at hd
        omega
    · obtain ⟨b, ds, h1, h2, h3, h4, h5, h6⟩ := h.pending i hi'
      rw [hc, hn]
      exact ⟨b, ds, hlook i b h1, hlookp i ds h2, hb ▸ add_get h3, h4, h5, fun d hd => by have := h6 d hd; omega⟩
  · have key : ∀ j ∈ L, t.labels.lookup j ≠ some s.blocks.length := by
      intro j hj e
      obtain ⟨b, ds, h1, h2, h3, _⟩ := h.pending j hj
      rw [hlook j b h1, Option.some.injEq] at e
      obtain ⟨h4, _⟩ := List.getElem?_eq_some_iff.mp h3
      omega
    intro i hi j hj hne b h1 h2
    rcases List.mem_cons.mp hi with rfl | hi'
    · rcases List.mem_cons.mp hj with rfl | hj'
      · exact hne rfl
      · rw [hnew] at h1
        cases h1
        exact key j hj' h2
    · rcases List.mem_cons.mp hj with rfl | hj'
      · rw [hnew] at h2
        cases h2
        exact key i hi' h1
      · obtain ⟨b1, _, g1, _⟩ := h.pending i hi'
        obtain ⟨b2, _, g2, _⟩ := h.pending j hj'
        rw [hlook i b1 g1] at h1
        rw [hlook j b2 g2] at h2
        rw [h1] at g1
        rw [h2] at g2
        exact h.apart i hi' j hj' hne b g1 g2
  · have key : ∀ j ∈ L, ∀ ds, t.labelPhis.lookup j = some ds → ∀ d ∈ ds, d < s.next := by
      intro j hj ds e
      obtain ⟨b, es, h1, h2, h3, h4, h5, h6⟩ := h.pending j hj
      rw [hlookp j es h2, Option.some.injEq] at e
      subst e
      exact h6
    intro i hi j hj hne ds es h1 h2 d hd he
    rcases List.mem_cons.mp hi with rfl | hi'
    · rcases List.mem_cons.mp hj with rfl | hj'
      · exact hne rfl
      · rw [hnewp] at h1
        cases h1
        have := key j hj' es h2 d he
        rw [List.mem_range'_1] at hd
        omega
    · rcases List.mem_cons.mp hj with rfl | hj'
      · rw [hnewp] at h2
        cases h2
        have := key i hi' ds h1 d hd
        rw [List.mem_range'_1] at he
        omega
      · obtain ⟨_, b1, _, g1, _⟩ := h.pending i hi'
        obtain ⟨_, b2, _, g2, _⟩ := h.pending j hj'
        rw [hlookp i b1 g1] at h1
        rw [hlookp j b2 g2] at h2
        rw [h1] at g1
        rw [h2] at g2
        exact h.phisApart i hi' j hj' hne ds es g1 g2 d hd he
  · rw [hd]
    exact fun d hd => hcl _ (h.sources d hd)
  · intro i ds h1
    rw [hp, List.lookup_cons] at h1
    by_cases e : i = id
    · rw [e] at h1
      simp only [beq_self_eq_true, Option.some.injEq] at h1
      rw [← h1]
      exact List.nodup_range'
    · rw [beq_eq_false_iff_ne.mpr e] at h1
      exact h.known i ds h1
  · rw [hloops]
    exact h.loops

/-- What the first pass does. -/
structure Allocated (s t : St) (L : List ℕ) (live : Bool) (idx : ℕ) (ns : List Node) (m : List (Origin × ℕ))
    (ms : List (List (Origin × ℕ))) : Prop where
  le : Le s t
  inv : Inv t (topIds ns ++ L) live
  labels : ∀ id, id ∉ topIds ns → t.labels.lookup id = s.labels.lookup id
  phis : ∀ id, id ∉ topIds ns → t.labelPhis.lookup id = s.labelPhis.lookup id
  loops : t.loops = s.loops
  current : t.current = s.current
  deferred : t.deferred = s.deferred
  params : t.params = s.params
  blocks : ∀ (b : ℕ), b < s.blocks.length → t.blocks[b]? = s.blocks[b]?
  scope : ∃ m', t.scopes = m' :: ms ∧ Named t m' idx ns ∧
    ∀ o : Origin, (∀ j id ts, ns[j]? = some (.label id ts) → o.node ≠ idx + j) → m'.lookup o = m.lookup o
  ids : ∀ id ∈ topIds ns, ∀ ds, t.labelPhis.lookup id = some ds → ∀ d ∈ ds, s.next ≤ d

/-- A state with one more block, for a label. -/
def St.withLabel (s : St) (id : ℕ) : St :=
  { s with blocks := s.blocks ++ [⟨[], .Unreachable⟩], labels := (id, s.blocks.length) :: s.labels }

theorem allocate_label (s : St) (idx id : ℕ) (ts : List ValType) (ns : List Node) :
    s.allocate idx (.label id ts :: ns) = (do
      let us ← mirTypes ts
      let r := (s.withLabel id).phis s.blocks.length us
      let s := r.1.insertAll idx 0 r.2
      let s := { s with labelPhis := (id, r.2) :: s.labelPhis }
      s.allocate (idx + 1) ns) := rfl

theorem allocate_ok : ∀ (ns : List Node) (s t : St) (L : List ℕ) (live : Bool) (idx : ℕ) (m : List (Origin × ℕ))
    (ms : List (List (Origin × ℕ))), s.allocate idx ns = .ok t → Inv s L live → Fresh s (topIds ns) → (topIds ns).Nodup →
    s.scopes = m :: ms → Allocated s t L live idx ns m ms
  | [], s, t, L, live, idx, m, ms, h, hi, _, _, hs => by
    simp only [St.allocate, Except.ok.injEq] at h
    subst h
    exact ⟨Le.refl _, hi, fun _ _ => rfl, fun _ _ => rfl, rfl, rfl, rfl, rfl, fun _ _ => rfl,
      ⟨m, hs, fun j id ts h => by simp at h, fun _ _ => rfl⟩, fun id h => by simp [topIds] at h⟩
  | n :: ns, s, t, L, live, idx, m, ms, h, hi, hf, hnd, hs => by
    by_cases hlab : ∃ id ts, n = .label id ts
    · obtain ⟨id, ts, rfl⟩ := hlab
      rw [allocate_label] at h
      obtain ⟨us, h1, h⟩ := bindOk h
      simp only at h
      have hu := mirTypes_ok h1
      subst hu
      have hph := phis_spec ts.length (s.withLabel id) s.blocks [] rfl
      simp only [List.nil_append] at hph
      rw [hph.1, hph.2] at h
      rw [insertAll_spec idx _ 0 _ m ms (by simpa [St.withLabel] using hs)] at h
      simp only [topIds, List.nodup_cons] at hnd
      obtain ⟨T, hT⟩ : ∃ T : St, T = { s with
          blocks := s.blocks ++ [⟨emptyPhis (List.range' s.next ts.length), .Unreachable⟩]
          next := s.next + ts.length
          types := (St.phis (s.withLabel id) s.blocks.length (List.replicate ts.length MirType.U32)).1.types
          labels := (id, s.blocks.length) :: s.labels
          labelPhis := (id, List.range' s.next ts.length) :: s.labelPhis
          scopes := (named idx 0 (List.range' s.next ts.length) ++ m) :: ms } := ⟨_, rfl⟩
      replace h : T.allocate (idx + 1) ns = .ok t := by rw [hT]; exact h
      have tl : T.labels = (id, s.blocks.length) :: s.labels := by rw [hT]
      have tp : T.labelPhis = (id, List.range' s.next ts.length) :: s.labelPhis := by rw [hT]
      have tb : T.blocks = s.blocks ++ [⟨emptyPhis (List.range' s.next ts.length), .Unreachable⟩] := by rw [hT]
      have tn : T.next = s.next + ts.length := by rw [hT]
      have tc : T.current = s.current := by rw [hT]
      have td : T.deferred = s.deferred := by rw [hT]
      have tw : T.loops = s.loops := by rw [hT]
      have tq : T.params = s.params := by rw [hT]
      have ts' : T.scopes = (named idx 0 (List.range' s.next ts.length) ++ m) :: ms := by rw [hT]
      clear hT hph
      have hstep := alloc_step (t := T) hi (id := id) (n := ts.length)
        (fun i h => hf i (by simp [topIds] at h ⊢; exact Or.inl h)) tb tl tp td tn tc tw
      have hne : ∀ i ∈ topIds ns, (i == id) = false := by
        intro i hm
        rw [beq_eq_false_iff_ne]
        intro e
        exact hnd.1 (e ▸ hm)
      have ih := allocate_ok ns _ t (id :: L) live (idx + 1) _ ms h hstep.2 (fun i h => by
        have := hf i (by simp [topIds, h])
        rw [tl, tp]
        simp only [List.lookup_cons, hne i h]
        exact this) hnd.2 ts'
      obtain ⟨m', e1, e2, e3⟩ := ih.scope
      have hphi : t.labelPhis.lookup id = some (List.range' s.next ts.length) := by
        rw [ih.phis id hnd.1, tp]
        simp
      refine ⟨hstep.1.trans ih.le, ?_, ?_, ?_, ih.loops.trans tw, ih.current.trans tc,
        ih.deferred.trans td, ih.params.trans tq, ?_, ⟨m', e1, ?_, ?_⟩, ?_⟩
      · exact ih.inv.fewer fun i h => by simp [topIds] at h ⊢; tauto
      · intro i h
        simp only [topIds, List.mem_cons, not_or] at h
        rw [ih.labels i h.2, tl]
        simp [List.lookup_cons, beq_eq_false_iff_ne.mpr h.1]
      · intro i h
        simp only [topIds, List.mem_cons, not_or] at h
        rw [ih.phis i h.2, tp]
        simp [List.lookup_cons, beq_eq_false_iff_ne.mpr h.1]
      · intro b hb
        rw [ih.blocks b (by rw [tb]; simp; omega), tb]
        simp [List.getElem?_append_left hb]
      · intro j i us hj
        cases j with
        | zero =>
          simp only [List.getElem?_cons_zero, Option.some.injEq, Node.label.injEq] at hj
          obtain ⟨rfl, rfl⟩ := hj
          refine ⟨_, hphi, by simp, fun q d hq => ?_⟩
          rw [Nat.add_zero, e3 ⟨idx, q⟩ (fun j _ _ _ => by simp; omega)]
          have := named_get idx (List.range' s.next ts.length) 0 q d m hq
          rw [Nat.zero_add] at this
          exact this
        | succ j =>
          rw [show idx + (j + 1) = idx + 1 + j by omega]
          exact e2 j i us (by simpa using hj)
      · intro o ho
        rw [e3 o (fun j i us hj => by
          have := ho (j + 1) i us (by simpa using hj)
          omega)]
        exact named_ne idx _ 0 m o (ho 0 id ts (by simp))
      · intro i h ds hds d hd
        simp only [topIds, List.mem_cons] at h
        rcases h with rfl | h
        · rw [hphi] at hds
          cases hds
          rw [List.mem_range'_1] at hd
          exact hd.1
        · have := ih.ids i h ds hds d hd
          omega
    · have e : s.allocate idx (n :: ns) = s.allocate (idx + 1) ns := by
        cases n <;> first | rfl | exact absurd ⟨_, _, rfl⟩ hlab
      have et : topIds (n :: ns) = topIds ns := by
        cases n <;> first | rfl | exact absurd ⟨_, _, rfl⟩ hlab
      rw [e] at h
      rw [et] at hf hnd
      have ih := allocate_ok ns s t L live (idx + 1) m ms h hi hf hnd hs
      obtain ⟨m', e1, e2, e3⟩ := ih.scope
      refine ⟨ih.le, et ▸ ih.inv, et ▸ ih.labels, et ▸ ih.phis, ih.loops, ih.current, ih.deferred, ih.params, ih.blocks,
        ⟨m', e1, ?_, ?_⟩, et ▸ ih.ids⟩
      · intro j i us hj
        cases j with
        | zero =>
          simp only [List.getElem?_cons_zero, Option.some.injEq] at hj
          exact absurd ⟨_, _, hj⟩ hlab
        | succ j =>
          rw [show idx + (j + 1) = idx + 1 + j by omega]
          exact e2 j i us (by simpa using hj)
      · intro o ho
        exact e3 o (fun j i us hj => by
          have := ho (j + 1) i us (by simpa using hj)
          omega)

end Wasm
end CairoM
