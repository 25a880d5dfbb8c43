import Verif.PhiElimLemmas

/-!
# Elimination of phi nodes in a function: simulation
-/

namespace CairoM
namespace Lang

open Mir

variable {calls : Calls}

/-- Where control goes after a split terminator. -/
theorem evalTerm_split {N : ℕ} {bs' : List Block} {ts : List (Option MirType)} {env : Env} {t t' : Terminator}
    (h : SplitTerm N bs' t t') :
    (∀ vs, evalTerm ts env t = some (.ret vs) → evalTerm ts env t' = some (.ret vs)) ∧
    ∀ x, evalTerm ts env t = some (.goto x) → ∃ x', evalTerm ts env t' = some (.goto x') ∧ SplitTarget N bs' x x' := by
  have hch : ∀ (c : Bool) (a b a' b' : BlockId), SplitTarget N bs' a a' → SplitTarget N bs' b b' →
      (∀ vs, choose c a b ≠ .ret vs) ∧
      ∀ x, choose c a b = .goto x → ∃ x', choose c a' b' = .goto x' ∧ SplitTarget N bs' x x' := by
    intro c a b a' b' h1 h2
    cases c
    · refine ⟨by simp [choose], fun x hx => ⟨b', rfl, ?_⟩⟩
      simp only [choose, Bool.false_eq_true, if_false, Exit.goto.injEq] at hx
      subst hx; exact h2
    · refine ⟨by simp [choose], fun x hx => ⟨a', rfl, ?_⟩⟩
      simp only [choose, if_true, Exit.goto.injEq] at hx
      subst hx; exact h1
  cases t with
  | Jump t =>
    obtain ⟨a, rfl, h2⟩ := h
    refine ⟨by simp [evalTerm], fun x hx => ⟨a, rfl, ?_⟩⟩
    simp only [evalTerm, Option.some.injEq, Exit.goto.injEq] at hx
    subst hx; exact h2
  | If c t e =>
    obtain ⟨a, b, rfl, h2, h3⟩ := h
    simp only [evalTerm, Option.bind_eq_bind, Option.bind_eq_some_iff, Option.some.injEq]
    refine ⟨?_, ?_⟩
    · rintro vs ⟨x, -, c, -, h⟩; exact absurd h ((hch c t e a b h2 h3).1 vs)
    · rintro y ⟨x, hx, c, hc, h⟩
      obtain ⟨x', h4, h5⟩ := (hch c t e a b h2 h3).2 y h
      exact ⟨x', ⟨x, hx, c, hc, h4⟩, h5⟩
  | BranchCmp op l r t e =>
    obtain ⟨a, b, rfl, h2, h3⟩ := h
    simp only [evalTerm, Option.bind_eq_bind, Option.bind_eq_some_iff, Option.some.injEq]
    refine ⟨?_, ?_⟩
    · rintro vs ⟨x, -, y, -, z, -, c, -, h⟩; exact absurd h ((hch c t e a b h2 h3).1 vs)
    · rintro w ⟨x, hx, y, hy, z, hz, c, hc, h⟩
      obtain ⟨x', h4, h5⟩ := (hch c t e a b h2 h3).2 w h
      exact ⟨x', ⟨x, hx, y, hy, z, hz, c, hc, h4⟩, h5⟩
  | Return vs =>
    obtain rfl : t' = .Return vs := h
    refine ⟨fun _ h => h, ?_⟩
    intro x hx
    simp [evalTerm] at hx
  | Unreachable =>
    obtain rfl : t' = .Unreachable := h
    exact ⟨fun _ h => h, by simp [evalTerm]⟩

theorem getElem?_lt {α : Type} {l : List α} {i : ℕ} {a : α} (h : l[i]? = some a) : i < l.length := by
  rcases Nat.lt_or_ge i l.length with h' | h'
  · exact h'
  · rw [List.getElem?_eq_none_iff.2 h'] at h; cases h

/-- The new blocks receive no copies. -/
theorem phiCopies_new {f : Function} {Live Defined : BlockId → ValueId → Prop} (h : PhiOk f Live Defined)
    {p : BlockId} (hp : f.blocks.length ≤ p) : phiCopies f.blocks p = [] := by
  rw [List.eq_nil_iff_forall_not_mem]
  intro c hc
  obtain ⟨t, b, ss, hb, hi, hs⟩ := mem_phiCopies hc
  obtain ⟨bp, hbp, -⟩ := h.preds t b hb _ _ _ hi p _ hs
  exact absurd (getElem?_lt hbp) (Nat.not_lt.2 hp)

theorem evalInstrs_agree' {S : ValueId → Prop} {a b : Env} {is : List Instr} (h : Agree S a b)
    (hu : ∀ i ∈ is, ∀ v ∈ i.uses, S v) {a' : Env} (ha : evalInstrs calls is a = some a') :
    ∃ b', evalInstrs calls is b = some b' ∧ Agree S a' b' := by
  have := evalInstrs_agree (calls := calls) h hu
  rw [ha] at this
  cases hb : evalInstrs calls is b with
  | none => rw [hb] at this; exact this.elim
  | some b' => rw [hb] at this; exact ⟨b', rfl, this⟩

theorem phiDest_mem {is : List Instr} {v : ValueId} (h : some v ∈ is.map phiDest) :
    ∃ ty ss, Instr.Phi v ty ss ∈ is := by
  obtain ⟨i, hi, hv⟩ := List.mem_map.1 h
  cases i with
  | Phi d ty ss => simp only [phiDest, Option.some.injEq] at hv; subst hv; exact ⟨ty, ss, hi⟩
  | _ => simp [phiDest] at hv

theorem mem_phiDest {is : List Instr} {v : ValueId} {ty : MirType} {ss : List (BlockId × Value)}
    (h : Instr.Phi v ty ss ∈ is) : some v ∈ is.map phiDest := List.mem_map.2 ⟨_, h, rfl⟩

/-- The execution of the function without phi instructions follows the execution of the function. -/
theorem exec_phiElim {f : Function} {Live Defined : BlockId → ValueId → Prop} (h : PhiOk f Live Defined)
    {order : List ValueId → List ValueId} (ho : ∀ l, (order l).Perm l) (n : ℕ) {p : Option BlockId} {id : BlockId}
    {b : Block} (hb : f.blocks[id]? = some b) {e e1 e' : Env} {rest : List Instr}
    (hphi : evalPhis e p b.instrs e = some (e1, rest)) (hag : Agree (Live id) e1 e')
    (hdef : ∀ v, Defined id v → (e' v).isSome) {vs : List Val} (hr : exec calls f n p id e = .returned vs) :
    ∃ m, ∀ p', exec calls (phiElim order f) m p' id e' = .returned vs := by
  induction n generalizing p id b e e1 e' rest with
  | zero => simp [exec] at hr
  | succ n ih =>
    have hsp := splitEdges_of h.targets
    obtain ⟨bs, hbs, hbi, hbt⟩ := hsp.old id b hb
    have hblk := phiElim_get h ho id
    rw [hbs, Option.map_some, hbi] at hblk
    have hmem := List.mem_of_getElem? hb
    -- the block of the source
    simp only [exec, hb] at hr
    unfold evalBlock at hr
    rw [hphi] at hr
    simp only [Option.bind_eq_bind, Option.bind_some] at hr
    cases h2 : evalInstrs calls rest e1 with
    | none => rw [h2] at hr; simp at hr
    | some e2 =>
      rw [h2] at hr
      simp only [Option.bind_some] at hr
      have hrestno := evalInstrs_noPhi h2
      have hdn : ∀ (t : ℕ) (bt : Block), f.blocks[t]? = some bt → (bt.instrs.filterMap phiDest).Nodup := by
        intro t bt hbt'
        have hsub : (bt.instrs).Sublist (f.blocks.flatMap Block.instrs) := by
          have : ∀ l : List Block, bt ∈ l → bt.instrs.Sublist (l.flatMap Block.instrs) := by
            intro l
            induction l with
            | nil => intro h; simp at h
            | cons a l ihl =>
              intro hm
              rw [List.flatMap_cons]
              rcases List.mem_cons.1 hm with rfl | hm
              · exact List.sublist_append_left _ _
              · exact (ihl hm).trans (List.sublist_append_right _ _)
          exact this _ (List.mem_of_getElem? hbt')
        exact (hsub.filterMap _).nodup h.dests
      obtain ⟨hrest, -, -⟩ := evalPhis_spec hphi hrestno (hdn id b hb)
      have huses : ∀ i ∈ rest, ∀ v ∈ i.uses, Live id v := by
        intro i hi v hv
        rw [hrest] at hi
        exact (h.uses id b hb).1 i (List.mem_of_mem_filter hi) (List.mem_filter.1 hi).2 v hv
      obtain ⟨e2', h2', hag2⟩ := evalInstrs_agree' (calls := calls) hag huses h2
      have hdef2 := evalInstrs_defined h2'
      -- the copies
      have hcopy : ∀ c ∈ phiCopies f.blocks id, (copyValue e2' c).isSome ∧ copyValue e2' c = copyValue e2 c := by
        intro c hc
        rcases h.sources c id b hb hc with ⟨s, hs, hty, hl, hd⟩ | ⟨l, t, hs, hty, hl⟩
        · obtain ⟨t, ht⟩ := Option.isSome_iff_exists.1 hty
          unfold copyValue
          rw [ht, hs]
          simp only [Option.bind_some, readAt]
          refine ⟨?_, (hag2 s hl).symm⟩
          rcases hd with hd | ⟨i, hi, hni, hd⟩
          · exact hdef2.1 s (hdef s hd)
          · exact hdef2.2 i (by rw [hrest]; exact List.mem_filter.2 ⟨hi, hni⟩) s hd
        · unfold copyValue
          rw [hty, hs]
          simp only [Option.bind_some, readAt]
          exact ⟨hl, trivial⟩
      obtain ⟨-, hperm, hpair⟩ := sequence_spec ho f.nextValue (phiCopies_nodup h id) (h.order id).2 (h.order id).1
      obtain ⟨e3, h3, h3d, h3o⟩ := seq_copies (calls := calls)
        (((hperm.map Copy.dest).nodup_iff).2 (phiCopies_nodup h id)) hpair (env := e2')
        (fun c hc => (hcopy c (hperm.mem_iff.1 hc)).1)
      have hbody : ∀ p', evalBody calls e' p' (b.instrs.filter notPhi ++
          (Mir.sequence order f.nextValue (phiCopies f.blocks id)).1.map Copy.instr) e' = some e3 := by
        intro p'
        unfold evalBody
        rw [evalPhis_noPhi]
        · simp only [Option.bind_some]
          rw [evalInstrs_append, ← hrest, h2', Option.bind_some, h3]
        · intro i hi d ty ss heq
          subst heq
          rcases List.mem_append.1 hi with hi | hi
          · have := (List.mem_filter.1 hi).2; simp [notPhi] at this
          · obtain ⟨c, -, hc⟩ := List.mem_map.1 hi; simp [Copy.instr] at hc
      have hdest_not : ∀ v, v ∉ (phiCopies f.blocks id).map Copy.dest → e3 v = e2' v := by
        intro v hv
        exact h3o v (fun hm => hv ((hperm.map Copy.dest).mem_iff.1 hm))
      have hterm : evalTerm (returnTys f) e3 b.term = evalTerm (returnTys f) e2 b.term := by
        refine evalTerm_agree (S := fun v => v ∈ b.term.uses) ?_ (fun v hv => hv)
        intro v hv
        rw [hdest_not v, hag2 v ((h.uses id b hb).2 v hv)]
        intro hm
        obtain ⟨c, hc, rfl⟩ := List.mem_map.1 hm
        obtain ⟨t, bt, ss, hbt', hi, hs⟩ := mem_phiCopies hc
        obtain ⟨bp, hbp, -, hnu, -⟩ := h.preds t bt hbt' _ _ _ hi id _ hs
        rw [hb, Option.some.injEq] at hbp
        subst hbp
        exact hnu hv
      have hsplit := evalTerm_split (ts := returnTys f) (env := e3) hbt
      have hev : ∀ p' (x : Exit), evalTerm (returnTys f) e3 bs.term = some x →
          evalBlock calls (returnTys (phiElim order f)) ⟨b.instrs.filter notPhi ++
            (Mir.sequence order f.nextValue (phiCopies f.blocks id)).1.map Copy.instr, bs.term⟩ p' e' = some (x, e3) := by
        intro p' x hx
        have hrt : returnTys (phiElim order f) = returnTys f := by
          unfold phiElim
          simp only
          split_ifs <;> rfl
        rw [evalBlock_body, hrt]
        show Option.bind (evalBody calls e' p' (b.instrs.filter notPhi ++ _) e') _ = _
        rw [hbody p', Option.bind_some]
        show (evalTerm (returnTys f) e3 bs.term).map _ = _
        rw [hx]; rfl
      cases ht : evalTerm (returnTys f) e2 b.term with
      | none => rw [ht] at hr; simp at hr
      | some x =>
        rw [ht] at hr
        simp only [Option.bind_some] at hr
        rw [← hterm] at ht
        cases x with
        | ret ws =>
          simp only [Result.returned.injEq] at hr
          subst hr
          refine ⟨1, fun p' => ?_⟩
          simp only [exec, hblk]
          have := hev p' _ (hsplit.1 ws ht)
          rw [this]
        | goto t =>
          simp only at hr
          obtain ⟨t', ht', hst⟩ := hsplit.2 t ht
          have htt : t ∈ b.term.targets := evalTerm_target ht
          -- the next block of the source
          cases n with
          | zero => simp [exec] at hr
          | succ n =>
            have htl := h.targets b hmem t htt
            obtain ⟨bt, hbt'⟩ : ∃ bt, f.blocks[t]? = some bt := ⟨_, List.getElem?_eq_getElem htl⟩
            cases h4 : evalPhis e2 (some id) bt.instrs e2 with
            | none =>
              simp only [exec, hbt', evalBlock, h4, Option.bind_eq_bind, Option.bind_none] at hr
              simp at hr
            | some r =>
              obtain ⟨e4, rest4⟩ := r
              have hno4 : NoPhi rest4 := by
                cases h5 : evalInstrs calls rest4 e4 with
                | none =>
                  simp only [exec, hbt', evalBlock, h4, Option.bind_eq_bind, Option.bind_some, h5,
                    Option.bind_none] at hr
                  simp at hr
                | some e5 => exact evalInstrs_noPhi h5
              obtain ⟨-, hp4, ho4⟩ := evalPhis_spec h4 hno4 (hdn t bt hbt')
              -- a phi instruction of the next block is one of the copies
              have hphicopy : ∀ v ty ss, Instr.Phi v ty ss ∈ bt.instrs →
                  ∃ c ∈ phiCopies f.blocks id, c.dest = v ∧ e4 v = copyValue e2 c := by
                intro v ty ss hm
                obtain ⟨q, hq, hsome, hval⟩ := hp4 v ty ss hm
                simp only [Option.some.injEq] at hq
                subst hq
                have hl : ∃ s, ss.lookup id = some s := by
                  unfold phiValue at hsome
                  obtain ⟨x, hx⟩ := Option.isSome_iff_exists.1 hsome
                  simp only [Option.bind_eq_bind, Option.bind_eq_some_iff] at hx
                  obtain ⟨-, -, s, hs, -⟩ := hx
                  exact ⟨s, hs⟩
                obtain ⟨s, hs⟩ := hl
                refine ⟨⟨v, s, ty⟩, phiCopies_mem (List.mem_of_getElem? hbt') hm (mem_lookup hs), rfl, ?_⟩
                rw [hval]
                unfold phiValue copyValue
                simp only [Option.bind_eq_bind, hs, Option.bind_some]
              have hphid : ∀ v ty ss, Instr.Phi v ty ss ∈ bt.instrs → e3 v = e4 v ∧ (e3 v).isSome := by
                intro v ty ss hm
                obtain ⟨c, hc, rfl, h5⟩ := hphicopy v ty ss hm
                have h6 := h3d c (hperm.mem_iff.2 hc)
                rw [h6, h5]
                exact ⟨(hcopy c hc).2, (hcopy c hc).1⟩
              have hagt : Agree (Live t) e4 e3 := by
                intro v hv
                by_cases hvp : some v ∈ bt.instrs.map phiDest
                · obtain ⟨ty, ss, hm⟩ := phiDest_mem hvp
                  exact (hphid v ty ss hm).1.symm
                · rw [ho4 v hvp, hdest_not v, hag2 v (h.through id b hb t htt bt hbt' v hv hvp)]
                  intro hm
                  obtain ⟨c, hc, rfl⟩ := List.mem_map.1 hm
                  obtain ⟨t2, bt2, ss, hbt2, hi, hs⟩ := mem_phiCopies hc
                  obtain ⟨bp, hbp, -, -, hnl⟩ := h.preds t2 bt2 hbt2 _ _ _ hi id _ hs
                  rw [hb, Option.some.injEq] at hbp
                  subst hbp
                  by_cases htt2 : t = t2
                  · subst htt2
                    rw [hbt', Option.some.injEq] at hbt2
                    subst hbt2
                    exact hvp (mem_phiDest hi)
                  · exact hnl t htt htt2 hv
              have hdeft : ∀ v, Defined t v → (e3 v).isSome := by
                intro v hv
                by_cases hvc : v ∈ (phiCopies f.blocks id).map Copy.dest
                · obtain ⟨c, hc, rfl⟩ := List.mem_map.1 hvc
                  rw [h3d c (hperm.mem_iff.2 hc)]
                  exact (hcopy c hc).1
                · rcases h.defined id b hb t htt bt hbt' v hv with hvp | hd | ⟨i, hi, hni, hd⟩
                  · obtain ⟨ty, ss, hm⟩ := phiDest_mem hvp
                    exact (hphid v ty ss hm).2
                  · rw [hdest_not v hvc]
                    exact hdef2.1 v (hdef v hd)
                  · rw [hdest_not v hvc]
                    exact hdef2.2 i (by rw [hrest]; exact List.mem_filter.2 ⟨hi, hni⟩) v hd
              obtain ⟨m, hm⟩ := ih hbt' h4 hagt hdeft hr
              rcases hst with rfl | ⟨hN, hnew⟩
              · refine ⟨m + 1, fun p' => ?_⟩
                simp only [exec, hblk]
                rw [hev p' _ ht']
                exact hm _
              · have hblk2 := phiElim_get h ho t'
                rw [hnew, Option.map_some, phiCopies_new h hN] at hblk2
                refine ⟨m + 2, fun p' => ?_⟩
                rw [show m + 2 = (m + 1) + 1 from rfl, exec]
                simp only [hblk]
                rw [hev p' _ ht']
                simp only
                rw [exec]
                simp only [hblk2]
                exact hm _

end Lang
end CairoM
