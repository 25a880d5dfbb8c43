import Verif.WasmSim

/-!
# The WebAssembly front end: runs of nodes
-/

namespace CairoM
namespace Wasm

open Mir Lang

/-- The name `v` is not a phi node of one of the labels. -/
def Apart (sF : St) (ids : List ℕ) (v : ℕ) : Prop := ∀ id ∈ ids, ∀ ds, sF.labelPhis.lookup id = some ds → v ∉ ds

/-- Names below `N` that are not phi nodes of the labels keep their values. -/
def Kept (sF : St) (N : ℕ) (ids : List ℕ) (ρ ρ' : Lang.Env) : Prop := ∀ v : ℕ, v < N → Apart sF ids v → ρ' v = ρ v

/-- The names of the outputs hold their values. -/
def Rel (sF : St) (N : ℕ) (s : St) (idx : ℕ) (fl : Origin → Bool) (ids : List ℕ) (env : Env) (ρ : Lang.Env) : Prop :=
  ∀ o x, env o = some x → o.node < idx ∧ ∃ v : ℕ, getIn s.scopes o = some v ∧ v < N ∧ Apart sF ids v ∧ Holds (fl o) (ρ v) x

/-- Whatever follows leads to `w` when control goes to the target with the integers `vs`. -/
def Cont (mcalls : Lang.Calls) (F : Function) (sF : St) (nres : ℕ) (loops : List ActiveLoop) (t : Target) (vs : List I32)
    (K : Lang.Env → Prop) (w : List Val) : Prop :=
  match t with
  | .label id => ∀ (b : ℕ) (ds : List ℕ) (p : ℕ) (ρ : Lang.Env), sF.labels.lookup id = some b → sF.labelPhis.lookup id = some ds →
      K ρ → EdgeVals sF b p ds ρ vs → Ret mcalls F (some p) b ρ w
  | .outer d =>
    match loops[d]? with
    | some l => ∀ (p : ℕ) (ρ : Lang.Env), K ρ → EdgeVals sF l.header p l.phis ρ vs → Ret mcalls F (some p) l.header ρ w
    | none => w = vs.map word ∧ vs.length = nres

theorem Cont.mono {mcalls : Lang.Calls} {F : Function} {sF : St} {nres : ℕ} {loops : List ActiveLoop} {t : Target} {vs : List I32}
    {K K' : Lang.Env → Prop} {w : List Val} (h : Cont mcalls F sF nres loops t vs K w) (hk : ∀ ρ, K' ρ → K ρ) :
    Cont mcalls F sF nres loops t vs K' w := by
  cases t with
  | label id => exact fun b ds p ρ h1 h2 h3 h4 => h b ds p ρ h1 h2 (hk ρ h3) h4
  | outer d =>
    unfold Cont at h ⊢
    cases hl : loops[d]? with
    | none => simpa [hl] using h
    | some l =>
      simp only [hl] at h ⊢
      exact fun p ρ h3 h4 => h p ρ (hk ρ h3) h4

/-- Nodes being lowered. -/
structure Frame (m : FuncTypes) (sF s s' : St) (idx : ℕ) (ns : List Node) (P : List ℕ) (live : Bool) : Prop where
  gen : s.genNodes m idx ns = .ok s'
  seq : seqOk live ns = true
  deep : deepOk ns = true
  inv : Inv s (topIds ns ++ P) live
  nodup : (topIds ns ++ innerIds ns).Nodup
  disj : ∀ id ∈ P, id ∉ topIds ns ∧ id ∉ innerIds ns
  fresh : Fresh s (innerIds ns)
  named : ∃ mm ms, s.scopes = mm :: ms ∧ Named s mm idx ns
  fin : Le s' sF

theorem Frame.scopes {m : FuncTypes} {sF s s' : St} {idx : ℕ} {ns : List Node} {P : List ℕ} {live : Bool}
    (h : Frame m sF s s' idx ns P live) : s.scopes ≠ [] := by
  obtain ⟨mm, ms, e, _⟩ := h.named
  rw [e]
  simp

theorem Frame.le {m : FuncTypes} {sF s s' : St} {idx : ℕ} {ns : List Node} {P : List ℕ} {live : Bool}
    (h : Frame m sF s s' idx ns P live) : Le s sF :=
  (genNodes_ok m ns s s' idx P live h.gen h.seq h.deep h.inv h.nodup h.disj h.fresh h.scopes).le.trans h.fin

theorem Named.skip {s t : St} {mm mm' : List (Origin × ℕ)} {idx : ℕ} {pre ns : List Node} (h : Named s mm idx (pre ++ ns))
    (hp : ∀ id ∈ topIds ns, t.labelPhis.lookup id = s.labelPhis.lookup id)
    (hm : ∀ o : Origin, idx + pre.length ≤ o.node → mm'.lookup o = mm.lookup o) : Named t mm' (idx + pre.length) ns := by
  intro j id ts hj
  obtain ⟨ds, h1, h2, h3⟩ := h (pre.length + j) id ts (by rw [List.getElem?_append_right (by omega)]; simpa using hj)
  have hid : id ∈ topIds ns := by
    clear h hp hm h1 h2 h3
    induction ns generalizing j with
    | nil => simp at hj
    | cons n ns ih =>
      rw [topIds_cons]
      cases j with
      | zero =>
        simp only [List.getElem?_cons_zero, Option.some.injEq] at hj
        subst hj
        simp [topIds]
      | succ j => exact List.mem_append.mpr (Or.inr (ih j (by simpa using hj)))
  refine ⟨ds, (hp id hid).trans h1, h2, fun q d hq => ?_⟩
  rw [hm _ (by simp), Nat.add_assoc]
  exact h3 q d hq

/-- After some of the nodes. -/
theorem Frame.split {m : FuncTypes} {sF s s' : St} {idx : ℕ} {pre ns : List Node} {P : List ℕ} {live live' : Bool}
    (h : Frame m sF s s' idx (pre ++ ns) P live) {u : St} (hu : u.genNodes m (idx + pre.length) ns = .ok s')
    (g : Gen s u (topIds ns ++ P) live' (innerIds pre) idx pre) (hs : seqOk live' ns = true) :
    Frame m sF u s' (idx + pre.length) ns P live' := by
  have hnd := h.nodup
  have hdj := h.disj
  have hfr := h.fresh
  have hdp := h.deep
  rw [topIds_append, innerIds_append] at hnd
  rw [topIds_append, innerIds_append] at hdj
  rw [innerIds_append] at hfr
  rw [deepOk_append, Bool.and_eq_true] at hdp
  have hsub : (topIds ns ++ innerIds ns).Sublist ((topIds pre ++ topIds ns) ++ (innerIds pre ++ innerIds ns)) :=
    (List.sublist_append_right _ _).append (List.sublist_append_right _ _)
  have hne : ∀ id, id ∈ topIds ns ∨ id ∈ innerIds ns → id ∉ innerIds pre := by
    intro id hid hp
    obtain ⟨n1, n2, n3⟩ := List.nodup_append.mp hnd
    rcases hid with hid | hid
    · exact n3 id (List.mem_append.mpr (Or.inr hid)) id (List.mem_append.mpr (Or.inl hp)) rfl
    · obtain ⟨n4, n5, n6⟩ := List.nodup_append.mp n2
      exact n6 id hp id hid rfl
  refine ⟨hu, hs, hdp.2, g.inv, hnd.sublist hsub, ?_, ?_, ?_, h.fin⟩
  · intro id hid
    have := hdj id hid
    simp only [List.mem_append, not_or] at this
    exact ⟨this.1.2, this.2.2⟩
  · intro id hid
    rw [g.labels id (hne id (Or.inr hid)), g.phis id (hne id (Or.inr hid))]
    exact hfr id (List.mem_append.mpr (Or.inr hid))
  · obtain ⟨mm, ms, e, hN⟩ := h.named
    obtain ⟨mm', e', hl⟩ := g.scope mm ms e
    refine ⟨mm', ms, e', hN.skip (fun id hid => g.phis id (hne id (Or.inl hid))) fun o ho => hl o ?_⟩
    intro j n hj _
    have := (List.getElem?_eq_some_iff.mp hj).1
    omega

/-- After one node. -/
theorem Frame.next {m : FuncTypes} {sF s s' : St} {idx : ℕ} {n : Node} {ns : List Node} {P : List ℕ} {live : Bool}
    (h : Frame m sF s s' idx (n :: ns) P live) : ∃ u, s.genNode m idx n = .ok u ∧ u.genNodes m (idx + 1) ns = .ok s' ∧
      Gen s u (topIds ns ++ P) n.opens n.inner idx [n] ∧ Frame m sF u s' (idx + 1) ns P n.opens := by
  have hg := h.gen
  simp only [St.genNodes] at hg
  obtain ⟨u, h1, h2⟩ := bindOk hg
  obtain ⟨q1, q2⟩ := seqOk_cons h.seq
  have hnd := h.nodup
  have hdj := h.disj
  have hfr := h.fresh
  have hdp := h.deep
  have hinv := h.inv
  simp only [deepOk, Bool.and_eq_true] at hdp
  rw [topIds_cons] at hinv
  rw [topIds_cons, innerIds] at hnd
  rw [topIds_cons, innerIds] at hdj
  rw [innerIds] at hfr
  have hsub : (topIds [n] ++ n.inner).Sublist ((topIds [n] ++ topIds ns) ++ (n.inner ++ innerIds ns)) :=
    (List.sublist_append_left _ _).append (List.sublist_append_left _ _)
  obtain ⟨n1, n2, n3⟩ := List.nodup_append.mp hnd
  obtain ⟨n4, n5, n6⟩ := List.nodup_append.mp n1
  have g := genNode_ok m n s u idx (topIds ns ++ P) live h1 q1 hdp.1 (by rw [← List.append_assoc]; exact hinv)
    (hnd.sublist hsub) (fun id hid => by
      rcases List.mem_append.mp hid with hid' | hid'
      · exact ⟨fun hh => n6 id hh id hid' rfl, fun hh => n3 id (List.mem_append.mpr (Or.inr hid')) id
          (List.mem_append.mpr (Or.inl hh)) rfl⟩
      · have := hdj id hid'
        simp only [List.mem_append, not_or] at this
        exact ⟨this.1.1, this.2.1⟩) (fun id hid => hfr id (List.mem_append.mpr (Or.inl hid))) h.scopes
  refine ⟨u, h1, h2, g, ?_⟩
  have hin : innerIds [n] = n.inner := by simp [innerIds]
  exact Frame.split (pre := [n]) (ns := ns) h h2 (hin ▸ g) q2

theorem getIn_congr {s t : St} {mm mm' : List (Origin × ℕ)} {ms : List (List (Origin × ℕ))} (hs : s.scopes = mm :: ms)
    (ht : t.scopes = mm' :: ms) {o : Origin} (h : mm'.lookup o = mm.lookup o) : getIn t.scopes o = getIn s.scopes o := by
  rw [hs, ht]
  simp only [getIn, h]

/-- The names of earlier outputs stay. -/
theorem Gen.getIn {s t : St} {P : List ℕ} {live : Bool} {inner : List ℕ} {idx : ℕ} {ns : List Node}
    (g : Gen s t P live inner idx ns) (hs : s.scopes ≠ []) {o : Origin} (ho : o.node < idx) :
    Wasm.getIn t.scopes o = Wasm.getIn s.scopes o := by
  cases hm : s.scopes with
  | nil => exact absurd hm hs
  | cons mm ms =>
    obtain ⟨mm', e, hl⟩ := g.scope mm ms hm
    rw [← hm]
    exact getIn_congr hm e (hl o (fun j n _ _ => by omega))

theorem input_ok {s : St} {o : Origin} {v : ℕ} (h : s.input o = .ok v) : getIn s.scopes o = some v := by
  unfold St.input at h
  cases hg : getIn s.scopes o with
  | none => rw [hg] at h; cases h
  | some u => rw [hg] at h; cases h; rfl

/-- Inputs of a node. -/
theorem Rel.inputs {sF : St} {N : ℕ} {s : St} {idx : ℕ} {fl : Origin → Bool} {ids : List ℕ} {env : Env} {ρ : Lang.Env}
    (h : Rel sF N s idx fl ids env ρ) : ∀ {ins : List Origin} {vs : List ℕ} {xs : List I32}, s.inputs ins = .ok vs →
    readAll env ins = some xs → (ins.all fun i => !fl i) = true → Words ρ vs xs ∧ ∀ v ∈ vs, v < N
  | [], vs, xs, h1, h2, _ => by
    simp only [St.inputs, Except.ok.injEq] at h1
    simp only [readAll, Option.some.injEq] at h2
    subst h1 h2
    exact ⟨trivial, fun v hv => by simp at hv⟩
  | o :: os, vs, xs, h1, h2, h3 => by
    simp only [St.inputs] at h1
    obtain ⟨v, e1, h1⟩ := bindOk h1
    obtain ⟨us, e2, h1⟩ := bindOk h1
    cases h1
    simp only [readAll] at h2
    cases hx : env o with
    | none => rw [hx] at h2; cases h2
    | some x =>
      rw [hx] at h2
      cases hy : readAll env os with
      | none => rw [hy] at h2; cases h2
      | some ys =>
        rw [hy] at h2
        cases h2
        simp only [List.all_cons, Bool.and_eq_true, Bool.not_eq_true'] at h3
        obtain ⟨_, v', g1, g2, g3, g4⟩ := h o x hx
        rw [input_ok e1, Option.some.injEq] at g1
        subst g1
        rw [h3.1] at g4
        obtain ⟨i1, i2⟩ := Rel.inputs h e2 hy h3.2
        refine ⟨⟨g4, i1⟩, fun w hw => ?_⟩
        rcases List.mem_cons.mp hw with rfl | hw
        · exact g2
        · exact i2 w hw

/-- In another state and with other values. -/
theorem Rel.move {sF : St} {N N' : ℕ} {s s' : St} {idx idx' : ℕ} {fl : Origin → Bool} {ids ids' : List ℕ} {env : Env}
    {ρ ρ' : Lang.Env} (h : Rel sF N s idx fl ids env ρ) (hN : N ≤ N') (hidx : idx ≤ idx') (hids : ∀ i ∈ ids', i ∈ ids)
    (hs : ∀ o : Origin, o.node < idx → getIn s'.scopes o = getIn s.scopes o) (hk : ∀ v < N, Apart sF ids v → ρ' v = ρ v) :
    Rel sF N' s' idx' fl ids' env ρ' := by
  intro o x ho
  obtain ⟨h1, v, h2, h3, h4, h5⟩ := h o x ho
  refine ⟨by omega, v, (hs o h1).trans h2, by omega, fun i hi => h4 i (hids i hi), ?_⟩
  rw [hk v h3 h4]
  exact h5

end Wasm
end CairoM
