import Verif.LoweringRead

/-!
# The lowering: completing phi nodes keeps the invariant

Helper lemmas.
-/

namespace CairoM
namespace Lower

open Mir Lang Source

variable {stk : List (Var × BlockId × ValueId)} {st : St}

/-! ### Operands -/

theorem unique_some {p : ValueId} {xs : List ValueId} {u : Option ValueId} {r : ValueId}
    (h : unique p u xs = some (some r)) (hu : ∀ y, u = some y → y ≠ p) :
    (∀ x ∈ xs, x = p ∨ x = r) ∧ r ≠ p ∧ (u = none → r ∈ xs) ∧ (∀ y, u = some y → y = r) := by
  induction xs generalizing u with
  | nil =>
    simp only [unique, Option.some.injEq] at h
    subst h
    exact ⟨by simp, hu r rfl, by simp, fun y hy => (Option.some.inj hy).symm⟩
  | cons x xs ih =>
    simp only [unique] at h
    split at h
    · rename_i hx
      obtain ⟨h1, h2, h3, h4⟩ := ih h hu
      refine ⟨?_, h2, fun hn => List.mem_cons_of_mem _ (h3 hn), h4⟩
      intro y hy
      rcases List.mem_cons.1 hy with rfl | hy
      · exact .inl hx
      · exact h1 y hy
    · rename_i hx
      split at h
      · obtain ⟨h1, h2, _, h4⟩ := ih h (fun y hy => by cases hy; exact hx)
        have hxr := h4 x rfl
        refine ⟨?_, h2, fun _ => by rw [hxr]; exact List.mem_cons_self .., by simp⟩
        intro y hy
        rcases List.mem_cons.1 hy with rfl | hy
        · exact .inr hxr
        · exact h1 y hy
      · rename_i z
        split at h
        · rename_i hzx
          obtain ⟨h1, h2, _, h4⟩ := ih h hu
          have hzr := h4 z rfl
          refine ⟨?_, h2, by simp, h4⟩
          intro y hy
          rcases List.mem_cons.1 hy with rfl | hy
          · exact .inr (hzx.symm.trans hzr)
          · exact h1 y hy
        · cases h

theorem setSources_phis (b : BlockId) (p : ValueId) (ss : List (BlockId × ValueId)) (c : BlockId) :
    ((st.setSources b p ss).blocks c).phis =
      if c = b then (st.blocks c).phis.map fun φ => if φ.dest = p then { φ with sources := ss } else φ
      else (st.blocks c).phis := by
  unfold St.setSources
  by_cases h : c = b
  · subst h; rw [modify_self]; simp
  · rw [modify_ne _ _ h]; simp [h]

theorem setSources_rest (b : BlockId) (p : ValueId) (ss : List (BlockId × ValueId)) (c : BlockId) :
    ((st.setSources b p ss).blocks c).instrs = (st.blocks c).instrs ∧
      ((st.setSources b p ss).blocks c).term = (st.blocks c).term ∧
      ((st.setSources b p ss).blocks c).preds = (st.blocks c).preds := by
  unfold St.setSources
  by_cases h : c = b
  · subst h; rw [modify_self]; simp
  · rw [modify_ne _ _ h]; simp

theorem setSources_operands {b : BlockId} {p : ValueId} {ss ss' : List (BlockId × ValueId)}
    (h : st.HasPhi b p ss') : (st.setSources b p ss).operands b p = ss.map Prod.snd := by
  obtain ⟨φ, hφ, hd, _⟩ := h
  unfold St.operands
  rw [setSources_phis, if_pos rfl]
  generalize (st.blocks b).phis = l at hφ
  induction l with
  | nil => cases hφ
  | cons ψ l ih =>
    by_cases hψ : ψ.dest = p
    · simp [hψ]
    · rcases List.mem_cons.1 hφ with rfl | hφ
      · exact absurd hd hψ
      · simp only [List.map_cons, hψ, if_false, List.find?_cons, decide_false]
        exact ih hφ

/-- A value read from a predecessor is not the phi node itself, for the predecessor control first came from. -/
theorem forward_value (hg : Good stk st) {v : Var} {p : ValueId} {k : ℕ}
    (hpk : st.g.stamp p = k) {e : BlockId} {j : ℕ} (hj : st.g.stop e = some j) (hjk : j ≤ k)
    {x : ValueId} (hx : st.norm v e = some (st.g.sub x)) :
    st.g.sub x ≠ p ∧ st.g.stamp (st.g.sub x) < st.g.stamp p := by
  unfold St.norm at hx
  cases hc : st.cur v e with
  | none => simp [hc] at hx
  | some y =>
    simp only [hc, Option.map_some, Option.some.injEq] at hx
    have := hg.curStop v e y j hc hj
    rw [hx] at this
    have hlt : st.g.stamp (st.g.sub x) < st.g.stamp p := by rw [hpk]; exact lt_of_lt_of_le this hjk
    exact ⟨fun h => by rw [h] at hlt; exact absurd hlt (lt_irrefl _), hlt⟩

/-- The operands collected for a phi node. -/
structure Collected (st : St) (v : Var) (b : BlockId) (ss : List (BlockId × ValueId)) : Prop where
  fst : ss.map Prod.fst = (st.blocks b).preds
  val : ∀ a x, (a, x) ∈ ss → st.norm v a = some (st.g.sub x)

theorem Collected.lookup {v : Var} {b : BlockId} {ss} (h : Collected st v b ss) {a : BlockId}
    (ha : a ∈ (st.blocks b).preds) : ∃ x, ss.lookup a = some x ∧ (a, x) ∈ ss ∧ st.norm v a = some (st.g.sub x) := by
  have : ∃ x, ss.lookup a = some x ∧ (a, x) ∈ ss := by
    rw [← h.fst] at ha
    have hv := h.val
    clear hv h
    induction ss with
    | nil => simp at ha
    | cons s ss ih =>
      obtain ⟨c, y⟩ := s
      by_cases hc : a = c
      · subst hc; exact ⟨y, by simp [List.lookup], by simp⟩
      · simp only [List.map_cons, List.mem_cons, hc, false_or] at ha
        obtain ⟨x, hx, hm⟩ := ih ha
        have : (a == c) = false := by simpa using hc
        exact ⟨x, by simp [List.lookup, this, hx], List.mem_cons_of_mem _ hm⟩
  obtain ⟨x, hx, hm⟩ := this
  exact ⟨x, hx, hm, h.val a x hm⟩

/-- The phi node is kept. -/
theorem keepPhi_good {v : Var} {b : BlockId} {p : ValueId} {ss : List (BlockId × ValueId)}
    (hg : Good ((v, b, p) :: stk) st) (hss : Collected st v b ss) (hlen : (st.blocks b).preds.length ≠ 1) :
    Good stk (st.setSources b p ss) ∧ Read st (st.setSources b p ss) := by
  obtain ⟨hs, hent, hphi, hhas⟩ := hg.stack v b p (List.mem_cons_self ..)
  have hnd := List.nodup_cons.1 hg.stackNodup
  have hr : ∀ c, ((st.setSources b p ss).blocks c).instrs = (st.blocks c).instrs ∧
      ((st.setSources b p ss).blocks c).term = (st.blocks c).term ∧
      ((st.setSources b p ss).blocks c).preds = (st.blocks c).preds := setSources_rest b p ss
  have hhp : ∀ {c q ss'}, q ≠ p → st.HasPhi c q ss' → (st.setSources b p ss).HasPhi c q ss' := by
    rintro c q ss' hq ⟨φ, hφ, hd, hsrc⟩
    refine ⟨φ, ?_, hd, hsrc⟩
    rw [setSources_phis]
    split
    · refine List.mem_map.2 ⟨φ, hφ, ?_⟩
      rw [if_neg (by rw [hd]; exact hq)]
    · exact hφ
  have hhpp : (st.setSources b p ss).HasPhi b p ss := by
    obtain ⟨φ, hφ, hd, _⟩ := hhas
    refine ⟨{ φ with sources := ss }, ?_, hd, rfl⟩
    rw [setSources_phis, if_pos rfl]
    exact List.mem_map.2 ⟨φ, hφ, by rw [if_pos hd]⟩
  have hmem : ∀ c φ', φ' ∈ ((st.setSources b p ss).blocks c).phis →
      ∃ φ ∈ (st.blocks c).phis, φ.dest = φ'.dest ∧ φ.ty = φ'.ty := by
    intro c φ' h
    rw [setSources_phis] at h
    split at h
    · obtain ⟨φ, hφ, rfl⟩ := List.mem_map.1 h
      refine ⟨φ, hφ, ?_⟩
      split <;> simp
    · exact ⟨φ', h, rfl, rfl⟩
  constructor
  · refine { hg with phis := ?_, nodup := ?_, dests := ?_, entry := ?_, waiting := ?_, stack := ?_, stackNodup := hnd.2,
                     edge := ?_, forward := ?_, unstarted := ?_, beyond := ?_ }
    · intro c φ' hφ'
      obtain ⟨φ, hφ, hd, ht⟩ := hmem c φ' hφ'
      rw [← hd, ← ht]
      exact hg.phis c φ hφ
    · intro c
      have : ((st.setSources b p ss).blocks c).phis.map Phi.dest = (st.blocks c).phis.map Phi.dest := by
        rw [setSources_phis]
        split
        · rw [List.map_map]
          apply List.map_congr_left
          intro φ _
          simp only [Function.comp]
          split <;> rfl
        · rfl
      rw [this]; exact hg.nodup c
    · intro c i hi; rw [(hr c).1] at hi; exact hg.dests c i hi
    · intro v' b' e he
      by_cases hep : e = p ∧ v' = v ∧ b' = b
      · obtain ⟨rfl, rfl, rfl⟩ := hep
        right; left
        refine ⟨hs, by rw [(hr _).2.2]; exact hlen, hphi, ss, hhpp, ?_⟩
        intro a ha
        rw [(hr _).2.2] at ha
        obtain ⟨x, hx, _, hn⟩ := hss.lookup ha
        exact ⟨x, hx, hn⟩
      · have hne : st.g.phi e = some (v', b') → e ≠ p := by
          rintro h rfl
          rw [hphi] at h
          simp only [Option.some.injEq, Prod.mk.injEq] at h
          exact hep ⟨rfl, h.1.symm, h.2.symm⟩
        rcases hg.entry v' b' e he with h | h | h
        · left
          obtain ⟨h1, h2, h3⟩ := h
          refine ⟨hhp (hne h2) h1, h2, h3.imp id ?_⟩
          intro h
          rcases List.mem_cons.1 h with h | h
          · cases h; exact absurd ⟨rfl, rfl, rfl⟩ hep
          · exact h
        · right; left
          obtain ⟨h1, h2, h3, ss', h4, h5⟩ := h
          exact ⟨h1, by rw [(hr _).2.2]; exact h2, h3, ss', hhp (hne h3) h4, by rw [(hr _).2.2]; exact h5⟩
        · right; right
          obtain ⟨h1, h2, h3⟩ := h
          exact ⟨h1, by rw [(hr _).2.2]; exact h2, by rw [(hr _).2.2]; exact h3⟩
    · intro v' b' q hq
      obtain ⟨h1, h2, h3, h4⟩ := hg.waiting v' b' q hq
      refine ⟨h1, h2, h3, hhp ?_ h4⟩
      rintro rfl
      rw [hphi] at h3
      simp only [Option.some.injEq, Prod.mk.injEq] at h3
      rw [← h3.2, hs] at h1; cases h1
    · intro v' b' q hq
      obtain ⟨h1, h2, h3, h4⟩ := hg.stack v' b' q (List.mem_cons_of_mem _ hq)
      refine ⟨h1, h2, h3, hhp ?_ h4⟩
      rintro rfl
      rw [hphi] at h3
      simp only [Option.some.injEq, Prod.mk.injEq] at h3
      rw [← h3.1, ← h3.2] at hq
      exact hnd.1 hq
    · intro a c; rw [(hr c).2.2, (hr a).2.1]; exact hg.edge a c
    · intro c k hk; rw [(hr c).2.2]; exact hg.forward c k hk
    · intro c hc
      obtain ⟨h1, h2, h3, h4⟩ := hg.unstarted c hc
      rw [(hr c).1, (hr c).2.1]
      refine ⟨?_, h2, h3, h4⟩
      rw [setSources_phis, h1]; simp
    · intro c hc; rw [(hr c).2.2]; exact hg.beyond c hc
  · refine { (Read.refl hg) with instrs := ?_, term := ?_, preds := ?_ }
    · intro c; rw [(hr c).1]
    · intro c; rw [(hr c).2.1]
    · intro c; rw [(hr c).2.2]

/-- The state after the phi node `p` of `b` has been replaced by `r`. -/
def St.dropPhi (st : St) (b : BlockId) (p r : ValueId) (ss : List (BlockId × ValueId)) : St :=
  { ((st.setSources b p ss).replaceUses p r).removePhi b p with g := st.g.remove p r }

theorem dropPhi_phis_mem (hg : Good stk st) {v : Var} {b : BlockId} {p r : ValueId} {ss : List (BlockId × ValueId)}
    (hphi : st.g.phi p = some (v, b)) (c : BlockId) (φ' : Phi) :
    φ' ∈ ((st.dropPhi b p r ss).blocks c).phis ↔
      ∃ φ ∈ (st.blocks c).phis, φ.dest ≠ p ∧ φ' = φ.replace p r := by
  have hother : c ≠ b → ∀ φ ∈ (st.blocks c).phis, φ.dest ≠ p := by
    rintro hc φ hφ rfl
    obtain ⟨_, _, ⟨v', h, _⟩, _⟩ := hg.phis c φ hφ
    rw [hphi] at h
    simp only [Option.some.injEq, Prod.mk.injEq] at h
    exact hc h.2.symm
  unfold St.dropPhi St.removePhi
  by_cases hc : c = b
  · subst hc
    rw [modify_self]
    simp only [St.replaceUses, setSources_phis, if_true, List.mem_filter, List.mem_map, decide_eq_true_eq]
    constructor
    · rintro ⟨⟨ψ, ⟨φ, hφ, rfl⟩, rfl⟩, hd⟩
      by_cases h : φ.dest = p
      · simp [h, Phi.replace] at hd
      · exact ⟨φ, hφ, h, by simp [h]⟩
    · rintro ⟨φ, hφ, hd, rfl⟩
      exact ⟨⟨φ, ⟨φ, hφ, by simp [hd]⟩, rfl⟩, hd⟩
  · rw [modify_ne _ _ hc]
    simp only [St.replaceUses, setSources_phis, if_neg hc, List.mem_map]
    constructor
    · rintro ⟨φ, hφ, rfl⟩
      exact ⟨φ, hφ, hother hc φ hφ, rfl⟩
    · rintro ⟨φ, hφ, _, rfl⟩
      exact ⟨φ, hφ, rfl⟩

theorem dropPhi_nodup {b : BlockId} {p r : ValueId} {ss : List (BlockId × ValueId)} (c : BlockId)
    (h : ((st.blocks c).phis.map Phi.dest).Nodup) : (((st.dropPhi b p r ss).blocks c).phis.map Phi.dest).Nodup := by
  have key : ((((st.setSources b p ss).replaceUses p r).blocks c).phis.map Phi.dest) =
      (st.blocks c).phis.map Phi.dest := by
    simp only [St.replaceUses, setSources_phis, List.map_map]
    split
    · simp only [List.map_map]
      apply List.map_congr_left
      intro φ _
      simp only [Function.comp, Phi.replace]
      split <;> rfl
    · rfl
  rw [← key] at h
  unfold St.dropPhi St.removePhi
  by_cases hc : c = b
  · subst hc
    rw [modify_self]
    simp only
    exact h.sublist (List.Sublist.map _ List.filter_sublist)
  · rw [modify_ne _ _ hc]
    exact h

theorem dropPhi_rest (b : BlockId) (p r : ValueId) (ss : List (BlockId × ValueId)) (c : BlockId) :
    ((st.dropPhi b p r ss).blocks c).instrs = (st.blocks c).instrs.map (Instr.replace p r) ∧
      ((st.dropPhi b p r ss).blocks c).term = (st.blocks c).term.replace p r ∧
      ((st.dropPhi b p r ss).blocks c).preds = (st.blocks c).preds := by
  have h := setSources_rest (st := st) b p ss c
  unfold St.dropPhi St.removePhi
  by_cases hc : c = b
  · subst hc
    rw [modify_self]
    simp only [St.replaceUses]
    rw [h.1, h.2.1, h.2.2]
    simp
  · rw [modify_ne _ _ hc]
    simp only [St.replaceUses]
    rw [h.1, h.2.1, h.2.2]
    simp

/-- The phi node is replaced by the only value it can have. -/
theorem dropPhi_good {v : Var} {b : BlockId} {p r : ValueId} {ss : List (BlockId × ValueId)}
    (hg : Good ((v, b, p) :: stk) st) (hss : Collected st v b ss) (hall : ∀ x ∈ ss.map Prod.snd, x = p ∨ x = r)
    (hne : ss ≠ []) :
    Good stk (st.dropPhi b p r ss) ∧ Read st (st.dropPhi b p r ss) ∧
      (st.dropPhi b p r ss).g.sub p = (st.dropPhi b p r ss).g.sub r ∧ r < st.next := by
  obtain ⟨hs, hent, hphi, hhas⟩ := hg.stack v b p (List.mem_cons_self ..)
  have hnd := List.nodup_cons.1 hg.stackNodup
  obtain ⟨φp, hφp, hdp, _⟩ := hhas
  obtain ⟨hplt, hpfix, _, hpk, _⟩ := hg.phis b φp hφp
  rw [hdp] at hplt hpfix hpk
  have hpreds : (st.blocks b).preds ≠ [] := by
    rw [← hss.fst]; simpa using hne
  -- the predecessor control first came from
  obtain ⟨hrp, hrstamp, hrlt⟩ : st.g.sub r ≠ p ∧ st.g.stamp (st.g.sub r) < st.g.stamp p ∧ r < st.next := by
    rcases hg.forward b _ hpk with h | ⟨e, he, j, hj, hjk⟩
    · exact absurd h.2 hpreds
    · obtain ⟨x, _, hm, hn⟩ := hss.lookup he
      obtain ⟨h1, h2⟩ := forward_value hg rfl hj hjk hn
      rcases hall x (List.mem_map.2 ⟨_, hm, rfl⟩) with rfl | rfl
      · exact absurd hpfix h1
      · refine ⟨h1, h2, ?_⟩
        by_contra hx
        have hfx := hg.subFresh x (Nat.le_of_not_lt hx)
        unfold St.norm at hn
        cases hc : st.cur v e with
        | none => simp [hc] at hn
        | some y =>
          simp only [hc, Option.map_some, Option.some.injEq] at hn
          have := hg.subLt y (hg.curLt v e y hc)
          rw [hn, hfx] at this
          exact hx this
  generalize ht : st.dropPhi b p r ss = t
  have hsub : ∀ x, t.g.sub x = if st.g.sub x = p then st.g.sub r else st.g.sub x := by
    intro x; rw [← ht]; rfl
  have hentt : ∀ v' b', t.g.ent v' b' = (st.g.ent v' b').map t.g.sub := by
    intro v' b'; rw [← ht]; rfl
  have hsp : t.g.sub p = st.g.sub r := by rw [hsub, hpfix]; simp
  have hsr : t.g.sub r = st.g.sub r := by rw [hsub, if_neg hrp]
  have hcomp : ∀ x, t.g.sub (st.g.sub x) = t.g.sub x := by intro x; rw [hsub, hsub, hg.idem]
  have hfix : ∀ x, st.g.sub x = x → x ≠ p → t.g.sub x = x := by
    intro x hx hxp; rw [hsub, hx, if_neg hxp]
  have hstampdown : ∀ x, st.g.stamp (t.g.sub x) ≤ st.g.stamp (st.g.sub x) := by
    intro x
    rw [hsub]
    split
    · rename_i h; rw [h]; exact hrstamp.le
    · exact le_rfl
  have hcur : t.cur = st.cur := by rw [← ht]; rfl
  have hnext : t.next = st.next := by rw [← ht]; rfl
  have hphit : t.g.phi = st.g.phi := by rw [← ht]; rfl
  have hstamp : t.g.stamp = st.g.stamp := by rw [← ht]; rfl
  have hstart : t.g.start = st.g.start := by rw [← ht]; rfl
  have hstop : t.g.stop = st.g.stop := by rw [← ht]; rfl
  have hclock : t.g.clock = st.g.clock := by rw [← ht]; rfl
  have hcurrent : t.current = st.current := by rw [← ht]; rfl
  have hcount : t.count = st.count := by rw [← ht]; rfl
  have htypes : t.types = st.types := by rw [← ht]; rfl
  have hloops : t.loops = st.loops := by rw [← ht]; rfl
  have hsl : t.sealed = st.sealed := by rw [← ht]; rfl
  have hinc : t.incomplete = st.incomplete := by rw [← ht]; rfl
  have hmem : ∀ c φ', φ' ∈ (t.blocks c).phis ↔ ∃ φ ∈ (st.blocks c).phis, φ.dest ≠ p ∧ φ' = φ.replace p r := by
    rw [← ht]; exact dropPhi_phis_mem hg hphi
  have hr : ∀ c, (t.blocks c).instrs = (st.blocks c).instrs.map (Instr.replace p r) ∧
      (t.blocks c).term = (st.blocks c).term.replace p r ∧ (t.blocks c).preds = (st.blocks c).preds := by
    rw [← ht]; exact dropPhi_rest b p r ss
  have hnorm : ∀ v' b', t.norm v' b' = (st.norm v' b').map t.g.sub := by
    intro v' b'
    unfold St.norm
    rw [hcur]
    cases st.cur v' b' <;> simp [hcomp]
  have hhp : ∀ {c q ss'}, q ≠ p → st.HasPhi c q ss' →
      t.HasPhi c q (ss'.map fun s => (s.1, if s.2 = p then r else s.2)) := by
    rintro c q ss' hq ⟨φ, hφ, hd, hsrc⟩
    refine ⟨φ.replace p r, (hmem c _).2 ⟨φ, hφ, by rw [hd]; exact hq, rfl⟩, hd, ?_⟩
    simp [Phi.replace, hsrc]
  have hlk : ∀ (ss' : List (BlockId × ValueId)) a x, ss'.lookup a = some x →
      (ss'.map fun s => (s.1, if s.2 = p then r else s.2)).lookup a = some (if x = p then r else x) := by
    intro ss' a x h
    induction ss' with
    | nil => simp at h
    | cons s ss' ih =>
      obtain ⟨c, y⟩ := s
      simp only [List.map_cons, List.lookup] at h ⊢
      split at h
      · cases h; rfl
      · exact ih h
  refine ⟨?_, ?_, ?_, hrlt⟩
  · constructor
    case idem => intro x; rw [hsub x]; split
                 · rw [hsub, hg.idem, if_neg hrp]
                 · rename_i h; rw [hsub, hg.idem, if_neg h]
    case subFresh =>
      intro x hx
      rw [hnext] at hx
      have h := hg.subFresh x hx
      exact hfix x h (by rintro rfl; exact absurd hplt (Nat.not_lt.2 hx))
    case subLt =>
      intro x hx
      rw [hnext] at hx ⊢
      rw [hsub]
      split
      · exact hg.subLt r hrlt
      · exact hg.subLt x hx
    case subPlain =>
      intro x hx
      rw [hphit] at hx
      exact hfix x (hg.subPlain x hx) (by rintro rfl; rw [hphi] at hx; cases hx)
    case phiFresh => rw [hnext, hphit]; exact hg.phiFresh
    case phis =>
      intro c φ' hφ'
      obtain ⟨φ, hφ, hd, rfl⟩ := (hmem c φ').1 hφ'
      obtain ⟨h1, h2, ⟨v', h3, h4⟩, h5, h6⟩ := hg.phis c φ hφ
      have hdd : (φ.replace p r).dest = φ.dest := rfl
      rw [hdd, hnext, hphit, hstart, hstamp]
      refine ⟨h1, hfix _ h2 hd, ⟨v', h3, ?_⟩, h5, h6⟩
      rw [hentt, h4, Option.map_some, hfix _ h2 hd]
    case nodup => intro c; rw [← ht]; exact dropPhi_nodup c (hg.nodup c)
    case dests =>
      intro c i hi
      rw [(hr c).1] at hi
      obtain ⟨i', hi', rfl⟩ := List.mem_map.1 hi
      rw [replace_isPhi, replace_destinations, hnext, hphit]
      exact hg.dests c i' hi'
    case curLt => rw [hcur, hnext]; exact hg.curLt
    case curStart => rw [hcur, hstart]; exact hg.curStart
    case curStop =>
      intro v' b' x j hx hj
      rw [hcur] at hx
      rw [hstop] at hj
      rw [hstamp]
      exact lt_of_le_of_lt (hstampdown x) (hg.curStop v' b' x j hx hj)
    case curNow =>
      intro v' x hx
      rw [hcur, hcurrent] at hx
      rw [hstamp, hclock]
      exact lt_of_le_of_lt (hstampdown x) (hg.curNow v' x hx)
    case entCur =>
      intro v' b' e he
      rw [hentt] at he
      rw [hcur]
      obtain ⟨e', he', _⟩ := Option.map_eq_some_iff.1 he
      exact hg.entCur v' b' e' he'
    case entFix =>
      intro v' b' e he
      rw [hentt] at he
      obtain ⟨e', he', rfl⟩ := Option.map_eq_some_iff.1 he
      have hlt := (hg.entFix v' b' e' he').2
      rw [hnext]
      constructor
      · rw [hsub e']; split
        · rw [hsub, hg.idem, if_neg hrp]
        · rename_i h; rw [hsub, hg.idem, if_neg h]
      · rw [hsub]; split
        · exact hg.subLt r hrlt
        · exact hg.subLt e' hlt
    case entStamp =>
      intro v' b' e k he hk
      rw [hentt] at he
      rw [hstart] at hk
      rw [hstamp]
      obtain ⟨e', he', rfl⟩ := Option.map_eq_some_iff.1 he
      have := hg.entStamp v' b' e' k he' hk
      have h2 := hstampdown e'
      rw [(hg.entFix v' b' e' he').1] at h2
      exact h2.trans this
    case entry =>
      intro v' b' e he
      rw [hentt] at he
      obtain ⟨e', he', rfl⟩ := Option.map_eq_some_iff.1 he
      by_cases hep : e' = p ∧ v' = v ∧ b' = b
      · obtain ⟨rfl, rfl, rfl⟩ := hep
        right; right
        unfold St.Pass
        rw [hsl, (hr _).2.2]
        refine ⟨hs, hpreds, ?_⟩
        intro a ha
        obtain ⟨x, _, hm, hn⟩ := hss.lookup ha
        rw [hnorm, hn, Option.map_some, hcomp, hsp]
        rcases hall x (List.mem_map.2 ⟨_, hm, rfl⟩) with rfl | rfl
        · rw [hsp]
        · rw [hsr]
      · have hne : st.g.phi e' = some (v', b') → e' ≠ p := by
          rintro h rfl
          rw [hphi] at h
          simp only [Option.some.injEq, Prod.mk.injEq] at h
          exact hep ⟨rfl, h.1.symm, h.2.symm⟩
        have hfe := (hg.entFix v' b' e' he').1
        rcases hg.entry v' b' e' he' with h | h | h
        · left
          obtain ⟨h1, h2, h3⟩ := h
          unfold St.Open
          rw [hfix e' hfe (hne h2), hphit, hinc]
          refine ⟨?_, h2, h3.imp id ?_⟩
          · simpa using hhp (hne h2) h1
          · intro h
            rcases List.mem_cons.1 h with h | h
            · cases h; exact absurd ⟨rfl, rfl, rfl⟩ hep
            · exact h
        · right; left
          obtain ⟨h1, h2, h3, ss', h4, h5⟩ := h
          unfold St.PhiOk
          rw [hfix e' hfe (hne h3), hphit, hsl, (hr _).2.2]
          refine ⟨h1, h2, h3, _, hhp (hne h3) h4, ?_⟩
          intro a ha
          obtain ⟨x, hx, hx'⟩ := h5 a ha
          refine ⟨_, hlk ss' a x hx, ?_⟩
          rw [hnorm, hx', Option.map_some, hcomp]
          split
          · rename_i h; rw [h, hsp, hsr]
          · rfl
        · right; right
          obtain ⟨h1, h2, h3⟩ := h
          unfold St.Pass
          rw [hsl, (hr _).2.2]
          exact ⟨h1, h2, fun a ha => by rw [hnorm, h3 a ha, Option.map_some]⟩
    case waiting =>
      intro v' b' q hq
      rw [hinc] at hq
      rw [hsl, hphit, hentt]
      obtain ⟨h1, h2, h3, h4⟩ := hg.waiting v' b' q hq
      have hqp : q ≠ p := by
        rintro rfl
        rw [hphi] at h3
        simp only [Option.some.injEq, Prod.mk.injEq] at h3
        rw [← h3.2, hs] at h1; cases h1
      refine ⟨h1, ?_, h3, by simpa using hhp hqp h4⟩
      rw [h2, Option.map_some, hfix q (hg.entFix v' b' q h2).1 hqp]
    case waitNodup => rw [hinc]; exact hg.waitNodup
    case stack =>
      intro v' b' q hq
      rw [hsl, hphit, hentt]
      obtain ⟨h1, h2, h3, h4⟩ := hg.stack v' b' q (List.mem_cons_of_mem _ hq)
      have hqp : q ≠ p := by
        rintro rfl
        rw [hphi] at h3
        simp only [Option.some.injEq, Prod.mk.injEq] at h3
        rw [← h3.1, ← h3.2] at hq
        exact hnd.1 hq
      refine ⟨h1, ?_, h3, by simpa using hhp hqp h4⟩
      rw [h2, Option.map_some, hfix q (hg.entFix v' b' q h2).1 hqp]
    case stackNodup => exact hnd.2
    case edge => intro a c; rw [(hr c).2.2, (hr a).2.1, replace_targets]; exact hg.edge a c
    case forward => intro c k hk; rw [hstart] at hk; rw [(hr c).2.2, hstop, hsl]; exact hg.forward c k hk
    case startLt => rw [hstart, hclock]; exact hg.startLt
    case stopLt => rw [hstart, hstop, hclock]; exact hg.stopLt
    case stopped => rw [hstart, hstop, hcurrent]; exact hg.stopped
    case running => rw [hstart, hstop, hcurrent]; exact hg.running
    case unstarted =>
      intro c hc
      rw [hstart] at hc
      obtain ⟨h1, h2, h3, h4⟩ := hg.unstarted c hc
      rw [(hr c).1, (hr c).2.1, hinc, h2, h3]
      refine ⟨?_, rfl, rfl, h4⟩
      apply List.eq_nil_iff_forall_not_mem.2
      intro φ' hφ'
      obtain ⟨φ, hφ, _⟩ := (hmem c φ').1 hφ'
      rw [h1] at hφ; cases hφ
    case beyond => intro c hc; rw [hcount] at hc; rw [hstart, (hr c).2.2, hsl]; exact hg.beyond c hc
    case types => rw [htypes]; exact hg.types
  · have hpr : t.g.sub p = t.g.sub r := by rw [hsp, hsr]
    constructor
    case sub => exact hcomp
    case next => rw [hnext]
    case phi => rw [hphit]; exact fun _ _ => rfl
    case stamp => rw [hstamp]; exact fun _ _ => rfl
    case down => intro x _; rw [hstamp]; exact hstampdown x
    case types => rw [htypes]; exact fun _ _ => rfl
    case ent => intro v' b' e he; rw [hentt, he]; rfl
    case cur =>
      intro v' b'
      rw [hnorm, hentt]
      have := (Read.refl hg).cur v' b'
      rw [this]
      cases st.cur v' b' <;> simp [hcomp]
    case instrs =>
      intro c
      rw [(hr c).1, List.map_map]
      apply List.map_congr_left
      intro i _
      exact instr_rename_replace hpr i
    case term => intro c; rw [(hr c).2.1]; exact term_rename_replace hpr _
    case preds => intro c; exact (hr c).2.2
    case count => exact hcount
    case sealed => exact hsl
    case current => exact hcurrent
    case loops => exact hloops
    case start => exact hstart
    case stop => exact hstop
    case clock => exact hclock
  · rw [hsp, hsr]

/-- Setting the operands of a phi node and removing it when it is trivial. -/
theorem close_good {v : Var} {b : BlockId} {p : ValueId} {ss : List (BlockId × ValueId)}
    (hg : Good ((v, b, p) :: stk) st) (hss : Collected st v b ss) {id : ValueId} {t : St}
    (h : (st.setSources b p ss).removeTrivial b p = (id, t)) :
    Good stk t ∧ Read st t ∧ t.g.sub p = t.g.sub id ∧ id < t.next := by
  obtain ⟨hs, hent, hphi, hhas⟩ := hg.stack v b p (List.mem_cons_self ..)
  obtain ⟨φp, hφp, hdp, hsrc⟩ := hhas
  obtain ⟨hplt, hpfix, _, hpk, _⟩ := hg.phis b φp hφp
  rw [hdp] at hplt hpfix hpk
  unfold St.removeTrivial at h
  rw [setSources_operands ⟨φp, hφp, hdp, hsrc⟩] at h
  have hkeep : (∀ r, unique p none (ss.map Prod.snd) ≠ some (some r)) → (st.blocks b).preds.length ≠ 1 := by
    intro hu hlen
    obtain ⟨a, ha⟩ := List.length_eq_one_iff.1 hlen
    have hf := hss.fst
    rw [ha] at hf
    match ss, hss, hf, hu with
    | [(c, x)], hss, hf, hu =>
      simp only [List.map_cons, List.map_nil, List.cons.injEq, and_true] at hf
      subst hf
      rcases hg.forward b _ hpk with h | ⟨e, he, j, hj, hjk⟩
      · rw [ha] at h; cases h.2
      · rw [ha, List.mem_singleton] at he
        subst he
        have hn := hss.val e x (by simp)
        obtain ⟨h1, _⟩ := forward_value hg rfl hj hjk hn
        have hxp : x ≠ p := by rintro rfl; exact h1 hpfix
        exact hu x (by simp [unique, hxp])
    | [], _, hf, _ => simp at hf
    | _ :: _ :: _, _, hf, _ => simp at hf
  split at h
  · rename_i r hu
    cases h
    obtain ⟨h1, _, h3, _⟩ := unique_some hu (by simp)
    have hne : ss ≠ [] := by
      rintro rfl; simpa using h3 rfl
    obtain ⟨a1, a2, a3, a4⟩ := dropPhi_good hg hss h1 hne
    exact ⟨a1, a2, a3, a4⟩
  · rename_i hu
    cases h
    obtain ⟨a1, a2⟩ := keepPhi_good hg hss (hkeep fun r hr => hu r hr)
    exact ⟨a1, a2, rfl, hplt⟩

/-! ### Reading -/

/-- What a reading function does. -/
def ReadOk (v : Var) (rd : BlockId → St → Option (ValueId × St)) : Prop :=
  ∀ (stk : List (Var × BlockId × ValueId)) (a : BlockId) (st : St) (id : ValueId) (st' : St), Good stk st →
    (∃ k, st.g.start a = some k) → rd a st = some (id, st') →
      Good stk st' ∧ Read st st' ∧ st'.norm v a = some (st'.g.sub id) ∧ id < st'.next

theorem readPreds_good {v : Var} {rd : BlockId → St → Option (ValueId × St)} (hrd : ReadOk v rd)
    (as : List BlockId) (st : St) (ss : List (BlockId × ValueId)) (st' : St) (hg : Good stk st)
    (has : ∀ a ∈ as, ∃ k, st.g.start a = some k) (h : readPreds rd as st = some (ss, st')) :
    Good stk st' ∧ Read st st' ∧ ss.map Prod.fst = as ∧
      ∀ a x, (a, x) ∈ ss → st'.norm v a = some (st'.g.sub x) := by
  induction as generalizing st ss with
  | nil =>
    simp only [readPreds, Option.some.injEq, Prod.mk.injEq] at h
    obtain ⟨rfl, rfl⟩ := h
    exact ⟨hg, Read.refl hg, rfl, by simp⟩
  | cons a as ih =>
    simp only [readPreds, Option.bind_eq_bind, Option.bind_eq_some_iff, Prod.exists] at h
    obtain ⟨x, s1, h1, xs, s2, h2, h3⟩ := h
    simp only [Option.some.injEq, Prod.mk.injEq] at h3
    obtain ⟨rfl, rfl⟩ := h3
    obtain ⟨g1, r1, n1, _⟩ := hrd stk a st x s1 hg (has a (by simp)) h1
    obtain ⟨g2, r2, f2, v2⟩ := ih s1 xs g1
      (fun c hc => by rw [r1.start]; exact has c (List.mem_cons_of_mem _ hc)) h2
    refine ⟨g2, r1.trans r2, by simp [f2], ?_⟩
    intro c y hy
    rcases List.mem_cons.1 hy with hy | hy
    · cases hy; exact r2.norm n1
    · exact v2 c y hy

theorem addOperands_good {v : Var} {rd : BlockId → St → Option (ValueId × St)} (hrd : ReadOk v rd)
    {b : BlockId} {p : ValueId} {st : St} (hg : Good ((v, b, p) :: stk) st) {id : ValueId} {t : St}
    (h : addOperands rd b p st = some (id, t)) :
    Good stk t ∧ Read st t ∧ t.g.sub p = t.g.sub id ∧ id < t.next := by
  simp only [addOperands, Option.bind_eq_bind, Option.bind_eq_some_iff, Prod.exists, Option.some.injEq] at h
  obtain ⟨ss, s1, h1, h2⟩ := h
  have hpreds : ∀ a ∈ (st.blocks b).preds, ∃ k, st.g.start a = some k := by
    intro a ha
    cases hs : st.g.start a with
    | some k => exact ⟨k, rfl⟩
    | none =>
      have h1 := (hg.unstarted a hs).2.2.1
      have h2 := (hg.edge a b).1 ha
      rw [h1] at h2; simp [Terminator.targets] at h2
  obtain ⟨g1, r1, f1, v1⟩ := readPreds_good hrd _ st ss s1 hg hpreds h1
  have hc : Collected s1 v b ss := ⟨by rw [f1, r1.preds], v1⟩
  obtain ⟨g2, r2, e2, l2⟩ := close_good g1 hc h2
  exact ⟨g2, r1.trans r2, e2, l2⟩

/-- The entry value of a variable that had no value in the block. -/
theorem norm_ent {s t : St} (h : Read s t) {v b} (hc : s.cur v b = none) : t.norm v b = t.g.ent v b := by
  rw [h.cur, hc]; simp

theorem readVar_ok (n : ℕ) (v : Var) : ReadOk v (readVar n v) := by
  induction n with
  | zero => intro stk a st id st' _ _ h; simp [readVar] at h
  | succ n ih =>
    rintro stk b st id st' hg ⟨k, hk⟩ h
    simp only [readVar] at h
    split at h
    · rename_i x hx
      simp only [Option.some.injEq, Prod.mk.injEq] at h
      obtain ⟨rfl, rfl⟩ := h
      exact ⟨hg, Read.refl hg, by simp [St.norm, hx], hg.curLt v b x hx⟩
    · rename_i hcur
      have hstk : ∀ e, (v, b, e) ∉ stk := by
        intro e he
        obtain ⟨x, hx⟩ := hg.entCur v b e (hg.stack v b e he).2.1
        rw [hcur] at hx; cases hx
      split at h
      · rename_i hs
        split at h
        · rename_i a ha
          simp only [Option.bind_eq_bind, Option.bind_eq_some_iff, Prod.exists, Option.some.injEq,
            Prod.mk.injEq] at h
          obtain ⟨x, s1, h1, rfl, rfl⟩ := h
          have hsa : ∃ k, st.g.start a = some k := by
            cases hs : st.g.start a with
            | some k => exact ⟨k, rfl⟩
            | none =>
              have h1 := (hg.unstarted a hs).2.2.1
              have h2 := (hg.edge a b).1 (by rw [ha]; simp)
              rw [h1] at h2; simp [Terminator.targets] at h2
          obtain ⟨g1, r1, n1, l1⟩ := ih stk a st x s1 hg hsa h1
          obtain ⟨g2, r2, n2⟩ := pass_good g1 (by rw [r1.start]; exact hk) (by rw [r1.sealed]; exact hs)
            (by rw [r1.preds]; exact ha) l1 n1 hstk (norm_ent r1 hcur)
          exact ⟨g2, r1.trans r2, n2, l1⟩
        · simp only [Option.bind_eq_bind, Option.bind_eq_some_iff, Prod.exists, Option.some.injEq,
            Prod.mk.injEq, St.newPhi] at h
          obtain ⟨p, s1, ⟨lid, hl, ty, hty, rfl, rfl⟩, x, s2, h2, rfl, rfl⟩ := h
          have hw : (St.modify
              { st with
                next := st.next + 1, types := Function.update st.types st.next (some ty)
                g := st.g.createPhi v b st.next } b
              fun blk => { blk with phis := blk.phis ++ [⟨st.next, ty, []⟩] }).write v b st.next =
                st.withPhi v b ty st.incomplete := rfl
          rw [hw] at h2
          obtain ⟨g1, r1⟩ := withPhi_good (stk' := (v, b, st.next) :: stk) hg hcur hk (hg.types _ _ hty)
            (.inl ⟨hs, rfl, rfl⟩)
          obtain ⟨g2, r2, e2, l2⟩ := addOperands_good ih g1 h2
          have hn1 : (st.withPhi v b ty st.incomplete).norm v b =
              some ((st.withPhi v b ty st.incomplete).g.sub st.next) := by
            unfold St.norm; rw [withPhi_cur]; simp
          have hn2 := r2.norm hn1
          rw [e2] at hn2
          obtain ⟨g3, r3, n3⟩ := rewrite_good g2 l2 hn2
          refine ⟨g3, (r1.trans r2).trans r3, ?_, l2⟩
          rw [n3, hn2]; rfl
      · rename_i hs
        simp only [Bool.not_eq_true] at hs
        simp only [Option.bind_eq_bind, Option.bind_eq_some_iff, Prod.exists, Option.some.injEq,
            Prod.mk.injEq, St.newPhi] at h
        obtain ⟨p, s1, ⟨lid, hl, ty, hty, rfl, rfl⟩, rfl, rfl⟩ := h
        obtain ⟨g1, r1⟩ := withPhi_good (stk' := stk)
          (inc := Function.update st.incomplete b (st.incomplete b ++ [(v, st.next)])) hg hcur hk (hg.types _ _ hty)
            (.inr ⟨hs, rfl, rfl⟩)
        refine ⟨g1, r1, ?_, Nat.lt_succ_self _⟩
        show (st.withPhi v b ty (Function.update st.incomplete b (st.incomplete b ++ [(v, st.next)]))).norm v b =
          some ((st.withPhi v b ty (Function.update st.incomplete b (st.incomplete b ++ [(v, st.next)]))).g.sub st.next)
        unfold St.norm; rw [withPhi_cur]; simp

/-! ### Sealing -/

theorem completePhis_good (n : ℕ) (b : BlockId) (ps : List (Var × ValueId)) (st st' : St)
    (hg : Good (ps.map fun x => (x.1, b, x.2)) st) (h : completePhis n b ps st = some st') :
    Good [] st' ∧ Read st st' := by
  induction ps generalizing st with
  | nil =>
    simp only [completePhis, Option.some.injEq] at h
    subst h
    exact ⟨hg, Read.refl hg⟩
  | cons x ps ih =>
    obtain ⟨v, p⟩ := x
    simp only [completePhis, Option.bind_eq_bind, Option.bind_eq_some_iff, Prod.exists] at h
    obtain ⟨r, s1, h1, h2⟩ := h
    obtain ⟨g1, r1, e1, l1⟩ := addOperands_good (readVar_ok n v) hg h1
    split at h2
    · rename_i hc
      have hn : s1.norm v b = some (s1.g.sub r) := by
        unfold St.norm; rw [hc.2, ← e1]; rfl
      obtain ⟨g2, r2, _⟩ := rewrite_good g1 l1 hn
      obtain ⟨g3, r3⟩ := ih _ g2 h2
      exact ⟨g3, (r1.trans r2).trans r3⟩
    · obtain ⟨g3, r3⟩ := ih _ g1 h2
      exact ⟨g3, r1.trans r3⟩

/-- What sealing changes. -/
structure SealExt (s t : St) (b : BlockId) : Prop where
  ext : Ext s t
  keep : Keep s t
  start : t.g.start = s.g.start
  sealed : t.sealed = Function.update s.sealed b true
  preds : ∀ c, (t.blocks c).preds = (s.blocks c).preds
  count : t.count = s.count
  loops : t.loops = s.loops
  term : ∀ c, (t.blocks c).term = .Unreachable ↔ (s.blocks c).term = .Unreachable
  clock : t.g.clock = s.g.clock

theorem seal_good {o : Opts} (ho : ∀ l, (o.order l).Perm l) (hg : Good [] st) {b : BlockId} (hb : b < st.count)
    {st' : St} (h : st.seal o b = some st') : Good [] st' ∧ SealExt st st' b := by
  unfold St.seal at h
  generalize hs0 : ({ st with
    sealed := Function.update st.sealed b true
    incomplete := Function.update st.incomplete b [] } : St) = s0 at h
  have hsl : s0.sealed = Function.update st.sealed b true := by rw [← hs0]
  have hinc : s0.incomplete = Function.update st.incomplete b [] := by rw [← hs0]
  have hblk : s0.blocks = st.blocks := by rw [← hs0]
  have hgg : s0.g = st.g := by rw [← hs0]
  have hcur : s0.cur = st.cur := by rw [← hs0]
  have hsealed : ∀ c, st.sealed c = true → s0.sealed c = true := by
    intro c hc
    rw [hsl]
    by_cases h : c = b
    · subst h; simp
    · simpa [h] using hc
  have hnorm : ∀ v c, s0.norm v c = st.norm v c := by intro v c; unfold St.norm; rw [hcur, hgg]
  have hg0 : Good ((o.order (st.incomplete b)).map fun x => (x.1, b, x.2)) s0 := by
    have hmem : ∀ v c p, (v, c, p) ∈ (o.order (st.incomplete b)).map (fun x => (x.1, b, x.2)) →
        c = b ∧ (v, p) ∈ st.incomplete b := by
      intro v c p hp
      obtain ⟨⟨v', p'⟩, hx, he⟩ := List.mem_map.1 hp
      simp only [Prod.mk.injEq] at he
      obtain ⟨rfl, rfl, rfl⟩ := he
      exact ⟨rfl, (ho _).mem_iff.1 hx⟩
    have hbase : Good [] st := hg
    refine { (?_ : Good ((o.order (st.incomplete b)).map fun x => (x.1, b, x.2)) s0) with }
    constructor
    case idem => rw [hgg]; exact hg.idem
    case subFresh => rw [hgg, ← hs0]; exact hg.subFresh
    case subLt => rw [hgg, ← hs0]; exact hg.subLt
    case subPlain => rw [hgg]; exact hg.subPlain
    case phiFresh => rw [hgg, ← hs0]; exact hg.phiFresh
    case phis => rw [hgg, hblk, ← hs0]; exact hg.phis
    case nodup => rw [hblk]; exact hg.nodup
    case dests => rw [hgg, hblk, ← hs0]; exact hg.dests
    case curLt => rw [hcur, ← hs0]; exact hg.curLt
    case curStart => rw [hcur, hgg]; exact hg.curStart
    case curStop => rw [hcur, hgg]; exact hg.curStop
    case curNow => rw [hcur, hgg, ← hs0]; exact hg.curNow
    case entCur => rw [hcur, hgg]; exact hg.entCur
    case entFix => rw [hgg, ← hs0]; exact hg.entFix
    case entStamp => rw [hgg]; exact hg.entStamp
    case entry =>
      intro v c e he
      rw [hgg] at he
      rcases hg.entry v c e he with h | h | h
      · left
        obtain ⟨h1, h2, h3⟩ := h
        unfold St.Open St.HasPhi
        rw [hblk, hgg, hinc]
        refine ⟨h1, h2, ?_⟩
        rcases h3 with h3 | h3
        · by_cases hc : c = b
          · subst hc
            right
            exact List.mem_map.2 ⟨(v, e), (ho _).mem_iff.2 h3, rfl⟩
          · left; rw [Function.update_of_ne hc]; exact h3
        · cases h3
      · right; left
        obtain ⟨h1, h2⟩ := h
        refine ⟨hsealed c h1, ?_⟩
        simp only [St.HasPhi, hblk, hgg, hnorm] at h2 ⊢
        exact h2
      · right; right
        obtain ⟨h1, h2⟩ := h
        refine ⟨hsealed c h1, ?_⟩
        simp only [hblk, hnorm] at h2 ⊢
        exact h2
    case waiting =>
      intro v c p hp
      rw [hinc] at hp
      by_cases hc : c = b
      · subst hc; simp at hp
      · rw [Function.update_of_ne hc] at hp
        have := hg.waiting v c p hp
        simp only [St.HasPhi, hblk, hgg] at this ⊢
        rw [hsl, Function.update_of_ne hc]
        exact this
    case waitNodup =>
      intro c
      rw [hinc]
      by_cases hc : c = b
      · subst hc; simp
      · rw [Function.update_of_ne hc]; exact hg.waitNodup c
    case stack =>
      intro v c p hp
      obtain ⟨rfl, hp⟩ := hmem v c p hp
      have := hg.waiting v c p hp
      simp only [St.HasPhi, hblk, hgg] at this ⊢
      exact ⟨by rw [hsl]; simp, this.2⟩
    case stackNodup =>
      refine List.Nodup.map ?_ ((ho _).nodup_iff.2 (hg.waitNodup b))
      rintro ⟨v1, p1⟩ ⟨v2, p2⟩ h
      simpa using h
    case edge => rw [hblk]; exact hg.edge
    case forward =>
      intro c k hk
      rw [hgg] at hk
      rw [hblk, hgg]
      rcases hg.forward c k hk with h | h
      · exact .inl ⟨hsealed c h.1, h.2⟩
      · exact .inr h
    case startLt => rw [hgg]; exact hg.startLt
    case stopLt => rw [hgg]; exact hg.stopLt
    case stopped => rw [hgg, ← hs0]; exact hg.stopped
    case running => rw [hgg, ← hs0]; exact hg.running
    case unstarted =>
      intro c hc
      rw [hgg] at hc
      obtain ⟨h1, h2, h3, h4⟩ := hg.unstarted c hc
      rw [hblk, hinc]
      refine ⟨h1, h2, h3, ?_⟩
      by_cases hcb : c = b
      · subst hcb; simp
      · rw [Function.update_of_ne hcb]; exact h4
    case beyond =>
      intro c hc
      have hc' : st.count ≤ c := by rw [← hs0] at hc; exact hc
      have hcb : c ≠ b := by rintro rfl; exact absurd hb (Nat.not_lt.2 hc')
      rw [hgg, hblk, hsl, Function.update_of_ne hcb]
      exact hg.beyond c hc'
    case types => rw [← hs0]; exact hg.types
  obtain ⟨g1, r1⟩ := completePhis_good _ _ _ _ _ hg0 h
  refine ⟨g1, ?_⟩
  have e0 : Ext st s0 := by
    have hr := Ext.refl hg
    rw [← hs0]
    exact { hr with }
  have k0 : Keep st s0 := by
    have hr := Keep.refl hg
    rw [← hs0]
    exact { hr with }
  refine ⟨e0.trans r1.toExt, Keep.trans r1.toExt k0 r1.toKeep, ?_, ?_, ?_, ?_, ?_, ?_, ?_⟩
  · rw [r1.start, hgg]
  · rw [r1.sealed, hsl]
  · intro c; rw [r1.preds, hblk]
  · rw [r1.count, ← hs0]
  · rw [r1.loops, ← hs0]
  · intro c
    have := r1.term c
    rw [hblk] at this
    constructor
    · intro h; rw [h] at this; exact rename_unreachable.1 this.symm
    · intro h; rw [h] at this; exact rename_unreachable.1 this
  · rw [r1.clock, hgg]

end Lower
end CairoM
