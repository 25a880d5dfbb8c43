import Verif.WasmRun

/-!
# The WebAssembly front end: the three kinds of steps
-/

namespace CairoM
namespace Wasm

open Mir Lang

/-- Everything that is fixed. -/
structure Ctx where
  m : FuncTypes
  calls : Calls
  mcalls : Lang.Calls
  F : Function
  sF : St
  nres : ℕ
  final : Final F sF nres
  callsOk : CallsOk m calls mcalls

/-- Runs of nodes. -/
def ExecOk (C : Ctx) (n : ℕ) : Prop := ∀ (ns : List Node) (s s' : St) (idx : ℕ) (P : List ℕ) (fl : Origin → Bool) (top : Bool)
  (env : Env) (ρ : Lang.Env) (tg : Target) (ws : List I32) (w : List Val),
  Frame C.m C.sF s s' idx ns P true → Flags fl idx ns → wordsOk C.m fl top ns = true → (s.loops = [] → top = true) →
  Rel C.sF s.next s idx fl (topIds ns) env ρ → exec C.calls n idx ns env = .left tg ws →
  Cont C.mcalls C.F C.sF C.nres s.loops tg ws (Kept C.sF s.next (topIds ns) ρ) w → Goes C.mcalls C.F C.sF s ρ w

/-- Branches. -/
def BranchOk (C : Ctx) (n : ℕ) : Prop := ∀ (ns : List Node) (s s' : St) (idx : ℕ) (P : List ℕ) (live : Bool) (fl : Origin → Bool)
  (top : Bool) (env : Env) (ρ : Lang.Env) (t : Target) (vs : List I32) (tg : Target) (ws : List I32) (w : List Val) (N : ℕ),
  Frame C.m C.sF s s' idx ns P live → Flags fl idx ns → wordsOk C.m fl top ns = true → (s.loops = [] → top = true) →
  N ≤ s.next → Rel C.sF N s idx fl (topIds ns) env ρ → branch C.calls n idx ns env t vs = .left tg ws →
  Cont C.mcalls C.F C.sF C.nres s.loops tg ws (Kept C.sF N (topIds ns) ρ) w →
  Cont C.mcalls C.F C.sF C.nres s.loops t vs (Kept C.sF N [] ρ) w

/-- Loops. -/
def IterOk (C : Ctx) (n : ℕ) : Prop := ∀ (s sB sC : St) (vs' : List ℕ) (types : ℕ → Option MirType) (ts : List ValType)
  (rest : List Node) (P : List ℕ) (ρ : Lang.Env) (vs : List I32) (tg : Target) (ws : List I32) (w : List Val), Inv s P true →
  Allocated (bodyState s ts.length vs' types) sB P true 0 (.inputs ts :: rest) (named 0 0 (List.range' s.next ts.length)) s.scopes →
  Frame C.m C.sF sB sC 0 (.inputs ts :: rest) P true →
  wordsOk C.m (flagsOf (.inputs ts :: rest)) false (.inputs ts :: rest) = true →
  iterate C.calls n (.inputs ts :: rest) vs = .left tg ws →
  Cont C.mcalls C.F C.sF C.nres s.loops tg ws (Kept C.sF s.next [] ρ) w →
  ∀ (p : ℕ) (ρ' : Lang.Env), Kept C.sF s.next [] ρ ρ' →
    EdgeVals C.sF s.blocks.length p (List.range' s.next ts.length) ρ' vs → Ret C.mcalls C.F (some p) s.blocks.length ρ' w

theorem findLabel_split {id : ℕ} : ∀ {ns : List Node} {idx i k : ℕ} {rest : List Node}, findLabel id idx ns = some (i, k, rest) →
    ∃ pre ts, ns = pre ++ .label id ts :: rest ∧ i = idx + pre.length ∧ k = ts.length
  | [], idx, i, k, rest, h => by simp [findLabel] at h
  | n :: ns, idx, i, k, rest, h => by
    have next : findLabel id (idx + 1) ns = some (i, k, rest) →
        ∃ pre ts, n :: ns = pre ++ .label id ts :: rest ∧ i = idx + pre.length ∧ k = ts.length := by
      intro h
      obtain ⟨pre, ts, h1, h2, h3⟩ := findLabel_split h
      exact ⟨n :: pre, ts, by rw [h1]; rfl, by rw [h2, List.length_cons]; omega, h3⟩
    cases n with
    | label j us =>
      simp only [findLabel] at h
      split at h
      · rename_i e
        subst e
        simp only [Option.some.injEq, Prod.mk.injEq] at h
        obtain ⟨rfl, rfl, rfl⟩ := h
        exact ⟨[], us, rfl, by simp, rfl⟩
      · exact next h
    | _ => exact next (by simpa only [findLabel] using h)

theorem mem_topIds {pre rest : List Node} {id : ℕ} {ts : List ValType} : id ∈ topIds (pre ++ .label id ts :: rest) := by
  rw [topIds_append]
  exact List.mem_append.mpr (Or.inr (by simp [topIds]))

theorem branch_step {C : Ctx} {n : ℕ} (hE : ExecOk C n) : BranchOk C (n + 1) := by
  intro ns s s' idx P live fl top env ρ t vs tg ws w N fr hfl hwo htop hN hrel hb hcont
  cases t with
  | outer d =>
    simp only [branch, Outcome.left.injEq] at hb
    obtain ⟨rfl, rfl⟩ := hb
    exact hcont.mono fun ρ' hk v hv _ => hk v hv fun _ h => by simp at h
  | label id =>
    simp only [branch] at hb
    cases hf : findLabel id idx ns with
    | none =>
      simp only [hf, Outcome.left.injEq] at hb
      obtain ⟨rfl, rfl⟩ := hb
      exact hcont.mono fun ρ' hk v hv _ => hk v hv fun _ h => by simp at h
    | some r =>
    obtain ⟨i, k, rest⟩ := r
    simp only [hf] at hb
    split at hb
    swap
    · cases hb
    rename_i hlen
    obtain ⟨pre, ts, hns, hi, hk⟩ := findLabel_split hf
    intro b ds p ρ' hb1 hd1 hkept hedge
    -- the state at the label
    have hgen := fr.gen
    rw [hns] at hgen
    obtain ⟨s2, hg2, hg3⟩ := genNodes_append C.m pre (.label id ts :: rest) s s' idx hgen
    have hseq := fr.seq
    rw [hns] at hseq
    obtain ⟨hs1, hs2⟩ := seqOk_append pre rest live id ts hseq
    have hinv := fr.inv
    rw [hns, topIds_append, List.append_assoc] at hinv
    have hnd := fr.nodup
    rw [hns, topIds_append, innerIds_append] at hnd
    have hdj := fr.disj
    rw [hns, topIds_append, innerIds_append] at hdj
    have hdeep := fr.deep
    rw [hns, deepOk_append, Bool.and_eq_true] at hdeep
    have hfresh := fr.fresh
    rw [hns, innerIds_append] at hfresh
    have g2 := genNodes_ok C.m pre s s2 idx (topIds (.label id ts :: rest) ++ P) live hg2 hs1 hdeep.1 hinv
      (hnd.sublist ((List.sublist_append_left _ _).append (List.sublist_append_left _ _)))
      (fun j hj => by
        obtain ⟨n1, n2, n3⟩ := List.nodup_append.mp hnd
        obtain ⟨n4, n5, n6⟩ := List.nodup_append.mp n1
        rcases List.mem_append.mp hj with hj' | hj'
        · exact ⟨fun hh => n6 j hh j hj' rfl, fun hh => n3 j (List.mem_append.mpr (Or.inr hj')) j
            (List.mem_append.mpr (Or.inl hh)) rfl⟩
        · have := hdj j hj'
          simp only [List.mem_append, not_or] at this
          exact ⟨this.1.1, this.2.1⟩)
      (fun j hj => hfresh j (List.mem_append.mpr (Or.inl hj))) fr.scopes
    have fr2 : Frame C.m C.sF s2 s' (idx + pre.length) (.label id ts :: rest) P false :=
      Frame.split (pre := pre) (ns := .label id ts :: rest) (hns ▸ fr) hg3 g2 (by simpa [seqOk] using hs2)
    obtain ⟨s3, hg4, hg5, g3, fr3⟩ := fr2.next
    -- the block of the label
    obtain ⟨b2, ds2, q1, q2, q3, _, q5, q6⟩ := fr2.inv.pending id (by simp [topIds])
    have e1 := fr2.le.labels id b2 q1
    rw [hb1, Option.some.injEq] at e1
    subst e1
    have e2 := fr2.le.phis id ds2 q2
    rw [hd1, Option.some.injEq] at e2
    subst e2
    have hs3 : s3 = { s2 with current := b } := by
      simp only [St.genNode, q1, Except.ok.injEq] at hg4
      exact hg4.symm
    have hdl : ds.length = ts.length := by
      obtain ⟨mm, ms, _, hN2⟩ := fr2.named
      obtain ⟨ds', r1, r2, _⟩ := hN2 0 id ts rfl
      rw [q2, Option.some.injEq] at r1
      subst r1
      exact r2
    have hcur : s3.current = b := by rw [hs3]
    have hblk : s3.blocks[s3.current]? = some ⟨emptyPhis ds, .Unreachable⟩ := by rw [hs3]; exact q3
    have hnext : N ≤ s3.next := by
      have := g2.le.next
      have := g3.le.next
      omega
    have hid : id ∈ topIds ns := by rw [hns]; exact mem_topIds
    have hsub : ∀ j ∈ topIds rest, j ∈ topIds ns := by
      intro j hj
      rw [hns, topIds_append]
      exact List.mem_append.mpr (Or.inr (by simp [topIds, hj]))
    -- going on
    have hgo : Goes C.mcalls C.F C.sF s3 (updates ρ' ds vs) w := by
      refine hE rest s3 s' (idx + pre.length + 1) P fl top (bind env i vs) (updates ρ' ds vs) tg ws w fr3 ?_ ?_ ?_ ?_ ?_ ?_
      · rw [hns] at hfl
        exact hfl.drop.tail
      · rw [hns, wordsOk_append, Bool.and_eq_true] at hwo
        have := hwo.2
        simp only [wordsOk, Bool.and_eq_true] at this
        exact this.2
      · intro h
        refine htop ?_
        rw [← h, g3.loops, g2.loops]
      · intro o x ho
        unfold bind at ho
        split at ho
        · rename_i hnode
          refine ⟨by omega, ?_⟩
          have hlt : o.output < ds.length := by
            have := (List.getElem?_eq_some_iff.mp ho).1
            omega
          obtain ⟨mm, ms, hsc, hN2⟩ := fr2.named
          obtain ⟨ds', r1, _, r3⟩ := hN2 0 id ts rfl
          rw [q2, Option.some.injEq] at r1
          subst r1
          have hd0 : ds[o.output]? = some ds[o.output] := List.getElem?_eq_getElem hlt
          refine ⟨ds[o.output], ?_, ?_, ?_, ?_⟩
          · have hsc3 : s3.scopes = s2.scopes := by rw [hs3]
            rw [hsc3, hsc]
            have hoo : (⟨idx + pre.length + 0, o.output⟩ : Origin) = o := by
              cases o
              simp only at hnode
              simp only [hnode, hi, Nat.add_zero]
            have r4 := r3 o.output _ hd0
            rw [hoo] at r4
            simp only [getIn, r4]
          · rw [hs3]
            exact q6 _ (List.getElem_mem hlt)
          · intro j hj es hes
            obtain ⟨n1, _, _⟩ := List.nodup_append.mp fr2.nodup
            simp only [topIds, List.nodup_cons] at n1
            obtain ⟨_, es', _, t2, _⟩ := fr2.inv.pending j (by simp [topIds, hj])
            have := fr2.le.phis j es' t2
            rw [hes, Option.some.injEq] at this
            subst this
            exact fr2.inv.phisApart id (by simp [topIds]) j (by simp [topIds, hj]) (fun e => n1.1 (e ▸ hj)) ds es q2 t2 _
              (List.getElem_mem hlt)
          · have hflag : fl o = false := by
              rw [hns] at hfl
              have := hfl.drop 0 (.label id ts) rfl o.output
              rw [Nat.add_zero] at this
              have hoo : o = ⟨idx + pre.length, o.output⟩ := by
                cases o
                simp only at hnode
                simp only [hnode, hi]
              rw [hoo, this]
              rfl
            rw [hflag]
            exact updates_get ds vs ρ' o.output _ x q5 hd0 ho
        · rename_i hnode
          refine Rel.move (s' := s3) (idx' := idx + pre.length + 1) (N' := s3.next) (ids' := topIds rest) (ρ' := updates ρ' ds vs) hrel hnext
            (by omega) hsub ?_ ?_ o x ho
          · intro o ho
            rw [g3.getIn fr2.scopes (by omega), g2.getIn fr.scopes ho]
          · intro v hv hap
            rw [updates_ne ds vs ρ' v (hap id hid ds hd1)]
            exact hkept v hv fun _ h => by simp at h
      · rw [hi] at hb
        rw [hi]
        exact hb
      · have hl3 : s3.loops = s.loops := by rw [g3.loops, g2.loops]
        rw [hl3]
        refine hcont.mono fun ρ2 hk v hv hap => ?_
        rw [hk v (by omega) fun j hj => hap j (hsub j hj), updates_ne ds vs ρ' v (hap id hid ds hd1)]
        exact hkept v hv fun _ h => by simp at h
    have hres := arrive_label C.final (p := p) fr3.le hblk (by omega) (hcur ▸ hedge) hgo
    rw [hcur] at hres
    exact hres

theorem updates_ge {ds : List ℕ} {vs : List I32} {ρ : Lang.Env} {N v : ℕ} (h : ∀ d ∈ ds, N ≤ d) (hv : v < N) :
    updates ρ ds vs v = ρ v :=
  updates_ne ds vs ρ v fun hd => by have := h v hd; omega

theorem iter_step {C : Ctx} {n : ℕ} (hE : ExecOk C n) (hI : IterOk C n) : IterOk C (n + 1) := by
  intro s sB sC vs' types ts rest P ρ vs tg ws w hinv al fr hwo hit hcont p ρ' hkept hedge
  simp only [iterate] at hit
  split at hit
  swap
  · cases hit
  rename_i hlen
  obtain ⟨lA, iA, hh, hb⟩ := body_ok hinv ts.length vs' types
  obtain ⟨u, hg1, hg2, g, fr2⟩ := fr.next
  have hu : u = sB := by
    simp only [St.genNode, Except.ok.injEq] at hg1
    exact hg1.symm
  subst hu
  have hdsge : ∀ d ∈ List.range' s.next ts.length, s.next ≤ d := fun d hd => by
    rw [List.mem_range'_1] at hd
    exact hd.1
  have hdslt : ∀ d ∈ List.range' s.next ts.length, d < s.next + ts.length := fun d hd => by
    rw [List.mem_range'_1] at hd
    exact hd.2
  have hAn : (bodyState s ts.length vs' types).next = s.next + ts.length := rfl
  have hBn : s.next + ts.length ≤ u.next := by
    rw [← hAn]
    exact al.le.next
  have hloops : u.loops = ⟨s.blocks.length, List.range' s.next ts.length⟩ :: s.loops := al.loops
  have hcur : u.current = s.blocks.length + 1 := al.current
  -- phi nodes of the labels of the body are new
  have hphi : ∀ j ∈ topIds rest, ∀ ds, C.sF.labelPhis.lookup j = some ds → ∀ d ∈ ds, s.next + ts.length ≤ d := by
    intro j hj ds hds d hd
    obtain ⟨_, ds', _, t2, _⟩ := fr2.inv.pending j (List.mem_append.mpr (Or.inl hj))
    have := fr2.le.phis j ds' t2
    rw [hds, Option.some.injEq] at this
    subst this
    exact al.ids j hj ds t2 d hd
  have hblkh : C.sF.blocks[s.blocks.length]? =
      some ⟨emptyPhis (List.range' s.next ts.length), .Jump (s.blocks.length + 1)⟩ :=
    (al.le.trans fr2.le).closed _ _ hh (by simp)
  have hblkb : u.blocks[u.current]? = some ⟨[], .Unreachable⟩ := by
    rw [hcur, al.blocks _ (List.getElem?_eq_some_iff.mp hb).1]
    exact hb
  -- what happens when the body is left
  have key : ∀ t us, exec C.calls n 1 rest (bind (fun _ => none) 0 vs) = .left t us →
      Cont C.mcalls C.F C.sF C.nres u.loops t us (Kept C.sF s.next [] ρ) w →
      Ret C.mcalls C.F (some p) s.blocks.length ρ' w := by
    intro t us hex hc
    have hgo : Goes C.mcalls C.F C.sF u (updates ρ' (List.range' s.next ts.length) vs) w := by
      refine hE rest u sC (0 + 1) P (flagsOf (.inputs ts :: rest)) false (bind (fun _ => none) 0 vs)
        (updates ρ' (List.range' s.next ts.length) vs) t us w fr2 (Flags.of _).tail ?_ ?_ ?_ hex ?_
      · simp only [wordsOk, Bool.and_eq_true] at hwo
        exact hwo.2
      · rw [hloops]
        simp
      · intro o x ho
        unfold bind at ho
        split at ho
        swap
        · cases ho
        rename_i hnode
        have hlt : o.output < (List.range' s.next ts.length).length := by
          have := (List.getElem?_eq_some_iff.mp ho).1
          rw [List.length_range']
          omega
        have hd0 : (List.range' s.next ts.length)[o.output]? = some (List.range' s.next ts.length)[o.output] :=
          List.getElem?_eq_getElem hlt
        have hmem := List.getElem_mem hlt
        refine ⟨by omega, (List.range' s.next ts.length)[o.output], ?_, ?_, ?_, ?_⟩
        · obtain ⟨mm, e1, _, e3⟩ := al.scope
          have e4 := e3 o (fun j id us hj => by
            cases j with
            | zero => simp at hj
            | succ j => omega)
          have e5 := named_get 0 (List.range' s.next ts.length) 0 o.output _ [] hd0
          rw [List.append_nil] at e5
          have hoo : (⟨0, 0 + o.output⟩ : Origin) = o := by
            cases o
            simp only at hnode
            simp [hnode]
          rw [hoo] at e5
          rw [e1]
          simp only [getIn, e4, e5]
        · have := hdslt _ hmem
          omega
        · intro j hj ds hds hd
          have h1 := hphi j hj ds hds _ hd
          have h2 := hdslt _ hmem
          omega
        · have hflag : flagsOf (.inputs ts :: rest) o = false := by
            simp [flagsOf, hnode]
          rw [hflag]
          exact updates_get _ vs ρ' o.output _ x List.nodup_range' hd0 ho
      · refine hc.mono fun ρ2 hk v hv _ => ?_
        rw [hk v (by omega) fun j hj ds hds hd => by
          have := hphi j hj ds hds v hd
          omega]
        rw [updates_ge hdsge hv]
        exact hkept v hv fun _ h => by simp at h
    have hret := arrive_empty C.final (p := s.blocks.length) fr2.le hblkb hgo
    rw [hcur] at hret
    exact arrive C.final (more := []) hblkh (by simp) (by simp) (by rw [List.length_range']; omega) hedge
      ⟨_, rfl, Or.inr ⟨s.blocks.length + 1, rfl, hret⟩⟩
  split at hit
  · rename_i us hex
    refine key _ us hex ?_
    have ih := hI s u sC vs' types ts rest P ρ us tg ws w hinv al fr hwo hit hcont
    rw [hloops]
    exact fun p ρ2 hk he => ih p ρ2 hk he
  · rename_i d us hex
    simp only [Outcome.left.injEq] at hit
    obtain ⟨rfl, rfl⟩ := hit
    refine key _ us hex ?_
    rw [hloops]
    exact hcont
  · rename_i h1 h2
    cases tg with
    | label id =>
      refine key _ ws hit ?_
      exact hcont
    | outer d =>
      cases d with
      | zero => exact absurd hit (h1 ws)
      | succ d => exact absurd hit (h2 d ws)

theorem target_nodup {s : St} {L : List ℕ} {live : Bool} (hi : Inv s L live) {t : Target} {b : ℕ} {ds : List ℕ}
    (h : targetOf s t = some (b, ds)) : ds.Nodup := by
  cases t with
  | label id =>
    simp only [targetOf] at h
    split at h
    · rename_i h1 h2
      simp only [Option.some.injEq, Prod.mk.injEq] at h
      rw [← h.2]
      exact hi.known id _ h2
    · cases h
  | outer d =>
    simp only [targetOf] at h
    cases hl : s.loops[d]? with
    | none => rw [hl] at h; cases h
    | some l =>
      simp only [hl, Option.map_some, Option.some.injEq, Prod.mk.injEq] at h
      rw [← h.2]
      exact hi.loops l (List.mem_of_getElem? hl)

/-- Going to a target. -/
theorem Cont.go {mcalls : Lang.Calls} {F : Function} {sF s : St} {nres : ℕ} {t : Target} {vs : List I32} {K : Lang.Env → Prop}
    {w : List Val} (h : Cont mcalls F sF nres s.loops t vs K w) (hle : Le s sF) {b : ℕ} {ds : List ℕ}
    (ht : targetOf s t = some (b, ds)) {p : ℕ} {ρ : Lang.Env} (hk : K ρ) (he : EdgeVals sF b p ds ρ vs) :
    Ret mcalls F (some p) b ρ w := by
  cases t with
  | label id =>
    simp only [targetOf] at ht
    split at ht
    · rename_i h1 h2
      simp only [Option.some.injEq, Prod.mk.injEq] at ht
      obtain ⟨rfl, rfl⟩ := ht
      exact h _ _ p ρ (hle.labels id _ h1) (hle.phis id _ h2) hk he
    · cases ht
  | outer d =>
    simp only [targetOf] at ht
    cases hl : s.loops[d]? with
    | none => rw [hl] at ht; cases ht
    | some l =>
      simp only [hl, Option.map_some, Option.some.injEq, Prod.mk.injEq] at ht
      obtain ⟨rfl, rfl⟩ := ht
      simp only [Cont, hl] at h
      exact h p ρ hk he

theorem readAll_last {env : Env} : ∀ {l : List Origin} {o : Origin} {xs : List I32}, readAll env (l ++ [o]) = some xs →
    ∃ ys x, xs = ys ++ [x] ∧ readAll env l = some ys ∧ env o = some x
  | [], o, xs, h => by
    simp only [List.nil_append, readAll] at h
    cases hx : env o with
    | none => rw [hx] at h; cases h
    | some x =>
      rw [hx] at h
      cases h
      exact ⟨[], x, rfl, rfl, rfl⟩
  | o' :: l, o, xs, h => by
    simp only [List.cons_append, readAll] at h
    cases hx : env o' with
    | none => rw [hx] at h; cases h
    | some x =>
      rw [hx] at h
      cases hy : readAll env (l ++ [o]) with
      | none => rw [hy] at h; cases h
      | some zs =>
        rw [hy] at h
        cases h
        obtain ⟨ys, y, h1, h2, h3⟩ := readAll_last hy
        refine ⟨x :: ys, y, by rw [h1]; rfl, ?_, h3⟩
        simp only [readAll, hx, h2]
        rfl

theorem split_cond {env : Env} {ins : List Origin} {vs : List I32} {c : I32} {o : Origin}
    (h : (readAll env ins).bind splitLast = some (vs, c)) (ho : ins.getLast? = some o) :
    readAll env ins.dropLast = some vs ∧ env o = some c := by
  cases hr : readAll env ins with
  | none => rw [hr] at h; cases h
  | some xs =>
    rw [hr] at h
    have hins : ins = ins.dropLast ++ [o] := (List.dropLast_append_getLast? o ho).symm
    rw [hins] at hr
    obtain ⟨ys, x, rfl, h2, h3⟩ := readAll_last hr
    simp only [Option.bind_some, splitLast, List.getLast?_append, List.getLast?_singleton, Option.some_or,
      List.dropLast_concat, Option.some.injEq, Prod.mk.injEq] at h
    obtain ⟨rfl, rfl⟩ := h
    exact ⟨h2, h3⟩

theorem truthy_holds {fl : Bool} {v : Option Val} {x : I32} (h : Holds fl v x) : v.bind truthy = some (decide (x ≠ 0)) := by
  unfold Holds at h
  subst h
  cases fl
  · simp only [Bool.false_eq_true, if_false, Option.bind_some, truthy, Option.some.injEq]
    rw [Bool.eq_iff_iff]
    simp [BitVec.toNat_eq]
  · simp [truthy]

theorem words_edge {ρ : Lang.Env} {vs : List ℕ} {xs : List I32} (h : Words ρ vs xs) (ds : List ℕ) :
    ∀ (i : ℕ) (x : I32), i < ds.length → xs[i]? = some x → ∃ v, vs[i]? = some v ∧ ρ v = some (word x) :=
  fun _ _ _ hx => h.get hx

theorem inputs_length {s : St} : ∀ {ins : List Origin} {vs : List ℕ}, s.inputs ins = .ok vs → vs.length = ins.length
  | [], vs, h => by
    simp only [St.inputs, Except.ok.injEq] at h
    subst h
    rfl
  | o :: os, vs, h => by
    simp only [St.inputs] at h
    obtain ⟨a, _, h⟩ := bindOk h
    obtain ⟨as, h2, h⟩ := bindOk h
    cases h
    simp [inputs_length h2]

theorem readAll_take {env : Env} : ∀ {ins : List Origin} {vs : List I32}, readAll env ins = some vs → ∀ q,
    readAll env (ins.take q) = some (vs.take q)
  | [], vs, h, q => by
    simp only [readAll, Option.some.injEq] at h
    subst h
    simp [readAll]
  | o :: os, vs, h, q => by
    simp only [readAll] at h
    cases hx : env o with
    | none => rw [hx] at h; cases h
    | some x =>
      rw [hx] at h
      cases hy : readAll env os with
      | none => rw [hy] at h; cases h
      | some zs =>
        rw [hy] at h
        cases h
        cases q with
        | zero => rfl
        | succ q =>
          simp only [List.take_succ_cons, readAll, hx, readAll_take hy q]
          rfl

theorem isLabel_of {top : Bool} {t : Target} (h : top = false ∨ t.isLabel = true) (ht : top = true) : t.isLabel = true := by
  rcases h with h | h
  · rw [h] at ht
    cases ht
  · exact h

/-- A conditional branch. -/
theorem cond_step {C : Ctx} {n : ℕ} (hE : ExecOk C n) (hB : BranchOk C n) (onTrue : Bool) {ns : List Node} {s s' u : St} {idx : ℕ}
    {P : List ℕ} {fl : Origin → Bool} {top : Bool} {env : Env} {ρ : Lang.Env} {t tg : Target} {ins : List Origin}
    {vs ws : List I32} {c : I32} {w : List Val} (hinv : Inv s (topIds ns ++ P) true) (hu : s.condBranch onTrue t ins = .ok u)
    (fr : Frame C.m C.sF u s' (idx + 1) ns P true) (hfl : Flags fl (idx + 1) ns) (hwo : wordsOk C.m fl top ns = true)
    (hin : (ins.dropLast.all fun i => !fl i) = true) (hlab : top = true → t.isLabel = true)
    (htop : s.loops = [] → top = true) (hrel : Rel C.sF s.next s idx fl (topIds ns) env ρ)
    (hread : (readAll env ins).bind splitLast = some (vs, c))
    (hrun : (if decide (c ≠ 0) = onTrue then branch C.calls n (idx + 1) ns env t vs else exec C.calls n (idx + 1) ns env) = .left tg ws)
    (hcont : Cont C.mcalls C.F C.sF C.nres s.loops tg ws (Kept C.sF s.next (topIds ns) ρ) w) :
    Goes C.mcalls C.F C.sF s ρ w := by
  obtain ⟨o, v, ho, hv, ⟨b, ds, us, ht, hus, rfl⟩ | ⟨d, us, rfl, hl, rfl⟩⟩ := cond_spec hu
  swap
  · exact absurd (hlab (htop hl)) (by simp [Target.isLabel])
  obtain ⟨hr1, hr2⟩ := split_cond hread ho
  obtain ⟨hw, _⟩ := hrel.inputs hus hr1 hin
  obtain ⟨_, v', k1, _, _, k4⟩ := hrel o c hr2
  rw [hv, Option.some.injEq] at k1
  subst k1
  obtain ⟨cb, hc1, hc2⟩ := hinv.current rfl
  have hlt := current_lt hinv
  obtain ⟨tm, htm⟩ : ∃ tm : Terminator, tm = if onTrue then .If (.Operand v) b s.blocks.length
    else .If (.Operand v) s.blocks.length b := ⟨_, rfl⟩
  have htm' : tm ≠ .Unreachable := by rw [htm]; split <;> simp
  simp only [← htm] at fr
  obtain ⟨u, hus'⟩ : ∃ u : St, u = { s with
    blocks := (s.blocks ++ [(⟨[], .Unreachable⟩ : Block)]).modify s.current fun x => { x with term := tm }
    deferred := s.deferred ++ edges s b ds us
    current := s.blocks.length } := ⟨_, rfl⟩
  rw [← hus'] at fr
  have hul : u.loops = s.loops := by rw [hus']
  have hun : u.next = s.next := by rw [hus']
  have huc : u.current = s.blocks.length := by rw [hus']
  have husc : u.scopes = s.scopes := by rw [hus']
  have hcur : u.blocks[s.current]? = some { cb with term := tm } := by
    rw [hus']
    simp only
    rw [get_modify, if_pos rfl, add_get hc1]
    rfl
  have hclosed : Closed u s.current := ⟨_, hcur, htm'⟩
  have hnew : u.blocks[u.current]? = some ⟨[], .Unreachable⟩ := by
    rw [huc, hus']
    simp only
    rw [get_modify, if_neg (by omega)]
    simp
  have hrel' : Rel C.sF u.next u (idx + 1) fl (topIds ns) env ρ := by
    rw [hun]
    exact hrel.move (Nat.le_refl _) (by omega) (fun _ h => h) (fun o _ => by rw [husc]) (fun _ _ _ => rfl)
  have hle := fr.le
  refine Goes.closed hc1 hcur htm' hle ⟨ρ, rfl, Or.inr ?_⟩
  have htruthy := truthy_holds k4
  have heval : evalTerm (returnTys C.F) ρ tm =
      some (.goto (if decide (c ≠ 0) = onTrue then b else s.blocks.length)) := by
    rw [htm]
    cases onTrue
    · simp only [Bool.false_eq_true, if_false, evalTerm, readPlain, Option.bind_eq_bind]
      rw [← Option.bind_assoc, htruthy]
      generalize decide (c ≠ 0) = q
      cases q <;> rfl
    · simp only [if_true, evalTerm, readPlain, Option.bind_eq_bind]
      rw [← Option.bind_assoc, htruthy]
      generalize decide (c ≠ 0) = q
      cases q <;> rfl
  refine ⟨_, heval, ?_⟩
  by_cases hcond : decide (c ≠ 0) = onTrue
  · rw [if_pos hcond] at hrun ⊢
    have hB' := hB ns u s' (idx + 1) P true fl top env ρ t vs tg ws w u.next fr hfl hwo (by rw [hul]; exact htop) (Nat.le_refl _)
      hrel' hrun (by rw [hul, hun]; exact hcont)
    have ht' : targetOf u t = some (b, ds) := by
      rw [← ht, hus']
      cases t <;> rfl
    refine hB'.go hle ht' (fun _ _ _ => rfl) ?_
    exact edge_vals hinv (by rw [hus']) hclosed hle (target_nodup hinv ht) (words_edge hw ds)
  · rw [if_neg hcond] at hrun ⊢
    have hE' := hE ns u s' (idx + 1) P fl top env ρ tg ws w fr hfl hwo (by rw [hul]; exact htop) hrel' hrun
      (by rw [hul, hun]; exact hcont)
    have := arrive_empty C.final (p := s.current) hle hnew hE'
    rw [huc] at this
    exact this

theorem exec_step {C : Ctx} {n : ℕ} (hE : ExecOk C n) (hB : BranchOk C n) (hI : IterOk C n) : ExecOk C (n + 1) := by
  intro ns s s' idx P fl top env ρ tg ws w fr hfl hwo htop hrel hex hcont
  cases ns with
  | nil => simp [exec] at hex
  | cons node ns =>
  obtain ⟨u, hg1, hg2, g, fr2⟩ := fr.next
  have hfl2 := hfl.tail
  simp only [wordsOk, Bool.and_eq_true] at hwo
  have hsub : ∀ j ∈ topIds ns, j ∈ topIds (node :: ns) := by
    intro j hj
    rw [topIds_cons]
    exact List.mem_append.mpr (Or.inr hj)
  have hloops : u.loops = s.loops := g.loops
  have hnext : s.next ≤ u.next := g.le.next
  cases node with
  | inputs ts =>
    simp only [exec] at hex
    have hu : u = s := by
      simp only [St.genNode, Except.ok.injEq] at hg1
      exact hg1.symm
    subst hu
    refine hE ns u s' (idx + 1) P fl top env ρ tg ws w fr2 hfl2 hwo.2 htop ?_ hex hcont
    exact hrel.move (Nat.le_refl _) (by omega) hsub (fun _ _ => rfl) (fun _ _ _ => rfl)
  | op o ins =>
    simp only [exec] at hex
    cases hr : readAll env ins with
    | none => simp only [hr, Option.bind_none] at hex; cases hex
    | some xs =>
    simp only [hr, Option.bind_some] at hex
    cases hev : o.eval C.calls xs with
    | none => simp only [hev] at hex; cases hex
    | some ys =>
    simp only [hev] at hex
    obtain ⟨vs, is, r, k, u1, hv, hc, he, hn, ht, hle, hinv⟩ := op_gen hg1 fr.inv
    have hw1 := hwo.1
    simp only [Node.words, Bool.and_eq_true] at hw1
    obtain ⟨hw, hlt⟩ := hrel.inputs hv hr hw1.1
    have hlen : xs.length = ins.length := by
      rw [← hw.length]
      exact inputs_length hv
    obtain ⟨ρ1, v, y, rfl, rfl, e1, e2, e3⟩ := op_sim C.callsOk hc hw hlt (by rw [hlen]; exact hw1.2) hev
    obtain ⟨n1, n2⟩ := (code_notPhi hc).2 v rfl
    simp only at ht
    obtain ⟨i1, _⟩ := insert_same u1 ⟨idx, 0⟩ v
    have hucur : u.current = s.current := by
      rw [ht, ← he.current]
      unfold St.insert
      split <;> rfl
    have hunext : u.next = s.next + k := by
      rw [ht, ← hn]
      unfold St.insert
      split <;> rfl
    refine Goes.emits (t := u) (is := is) (ρ' := ρ1) ?_ hucur fr2.le e1 ?_
    · intro c hc
      rw [ht, i1, he.get, if_pos rfl, hc]
      rfl
    · refine hE ns u s' (idx + 1) P fl top _ ρ1 tg ws w fr2 hfl2 hwo.2 (by rw [hloops]; exact htop) ?_ hex ?_
      · intro o' x ho
        unfold bind at ho
        split at ho
        · rename_i hnode
          have hout : o'.output = 0 := by
            have := (List.getElem?_eq_some_iff.mp ho).1
            simpa using this
          have hoo : o' = ⟨idx, 0⟩ := by
            cases o'
            simp only at hnode hout
            simp [hnode, hout]
          subst hoo
          simp only [List.getElem?_cons_zero, Option.some.injEq] at ho
          subst ho
          refine ⟨by simp, v, ?_, by omega, ?_, ?_⟩
          · obtain ⟨mm, ms, hsc, _⟩ := fr.named
            rw [ht]
            simp [St.insert, he.scopes, hsc, getIn]
          · intro j hj ds hds hd
            obtain ⟨_, ds', _, t2, _, _, _, t6⟩ := fr.inv.pending j (List.mem_append.mpr (Or.inl (hsub j hj)))
            have := fr.le.phis j ds' t2
            rw [hds, Option.some.injEq] at this
            subst this
            have := t6 v hd
            omega
          · have hflag : fl ⟨idx, 0⟩ = o.isFlag := hfl 0 _ rfl 0
            rw [hflag]
            exact e2
        · refine Rel.move (s' := u) (idx' := idx + 1) (N' := u.next) (ids' := topIds ns) (ρ' := ρ1) hrel hnext
            (by omega) hsub ?_ ?_ o' x ho
          · intro o ho
            exact g.getIn fr.scopes ho
          · intro v hv _
            exact e3 v hv
      · rw [hloops]
        refine hcont.mono fun ρ2 hk v hv hap => ?_
        rw [hk v (by omega) fun j hj => hap j (hsub j hj)]
        exact e3 v hv
  | label id ts => simp [exec] at hex
  | br t ins =>
    simp only [exec] at hex
    cases hr : readAll env ins with
    | none => simp only [hr] at hex; cases hex
    | some vs =>
    simp only [hr] at hex
    have hw1 := hwo.1
    simp only [Node.words] at hw1
    have hrel' : Rel C.sF s.next u (idx + 1) fl (topIds ns) env ρ :=
      hrel.move (Nat.le_refl _) (by omega) hsub (fun o ho => g.getIn fr.scopes ho) (fun _ _ _ => rfl)
    have hB' := hB ns u s' (idx + 1) P false fl top env ρ t vs tg ws w s.next fr2 hfl2 hwo.2 (by rw [hloops]; exact htop) hnext
      hrel' hex (by rw [hloops]; exact hcont)
    obtain ⟨us, hus, hcase⟩ := br_spec hg1
    obtain ⟨hw, _⟩ := hrel.inputs hus hr hw1
    obtain ⟨cb, hc1, hc2⟩ := fr.inv.current rfl
    have hlt := current_lt fr.inv
    have hle := fr2.le
    rcases hcase with ⟨b, ds, ht, hu⟩ | ⟨d, rfl, hl, hu⟩
    · have hcur : u.blocks[s.current]? = some { cb with term := .Jump b } := by
        rw [hu]
        simp only
        rw [get_modify, if_pos rfl, hc1]
        rfl
      refine Goes.closed hc1 hcur (by simp) hle ⟨ρ, rfl, Or.inr ⟨b, rfl, ?_⟩⟩
      have ht' : targetOf u t = some (b, ds) := by
        rw [← ht, hu]
        cases t <;> rfl
      refine hB'.go hle ht' (fun _ _ _ => rfl) ?_
      exact edge_vals fr.inv (by rw [hu]) ⟨_, hcur, by simp⟩ hle (target_nodup fr.inv ht) (words_edge hw ds)
    · have hcur : u.blocks[s.current]? = some { cb with term := .Jump s.blocks.length } := by
        rw [hu]
        simp only
        rw [get_modify, if_pos rfl, add_get hc1]
        rfl
      have hret : u.blocks[s.blocks.length]? = some ⟨[], .Return (us.map .Operand)⟩ := by
        rw [hu]
        simp only
        rw [get_modify, if_neg (by omega)]
        simp
      refine Goes.closed hc1 hcur (by simp) hle ⟨ρ, rfl, Or.inr ⟨s.blocks.length, rfl, ?_⟩⟩
      have hul : u.loops[d]? = none := by rw [hloops, hl]; rfl
      simp only [Cont, hul] at hB'
      obtain ⟨rfl, hlen⟩ := hB'
      refine arrive C.final (ds := []) (more := []) (vs := []) (hle.closed _ _ hret (by simp)) rfl (by simp) rfl
        (fun i d x h => by simp at h) ⟨ρ, rfl, Or.inl ?_⟩
      have := hw.read
      rw [hw.length, hlen] at this
      simp only [evalTerm, C.final.rets, this, Option.map_some]
  | brIf t ins =>
    simp only [exec] at hex
    cases hr : (readAll env ins).bind splitLast with
    | none => simp only [hr] at hex; cases hex
    | some q =>
    obtain ⟨vs, c⟩ := q
    simp only [hr] at hex
    have hw1 := hwo.1
    simp only [Node.words, Bool.and_eq_true, Bool.or_eq_true, Bool.not_eq_true'] at hw1
    simp only [St.genNode] at hg1
    have hinv : Inv s (topIds ns ++ P) true := fr.inv
    refine cond_step hE hB true hinv hg1 fr2 hfl2 hwo.2 hw1.1 (isLabel_of hw1.2) htop hrel hr ?_ hcont
    rw [← hex]
    by_cases hc : c = 0 <;> simp [hc]
  | brIfZero t ins =>
    simp only [exec] at hex
    cases hr : (readAll env ins).bind splitLast with
    | none => simp only [hr] at hex; cases hex
    | some q =>
    obtain ⟨vs, c⟩ := q
    simp only [hr] at hex
    have hw1 := hwo.1
    simp only [Node.words, Bool.and_eq_true, Bool.or_eq_true, Bool.not_eq_true'] at hw1
    simp only [St.genNode] at hg1
    have hinv : Inv s (topIds ns ++ P) true := fr.inv
    refine cond_step hE hB false hinv hg1 fr2 hfl2 hwo.2 hw1.1 (isLabel_of hw1.2) htop hrel hr ?_ hcont
    rw [← hex]
    by_cases hc : c = 0 <;> simp [hc]
  | brTable ins => simp [exec] at hex
  | loop ins body =>
    simp only [exec] at hex
    cases hr : readAll env ins with
    | none => simp only [hr] at hex; cases hex
    | some vs =>
    simp only [hr] at hex
    have hw1 := hwo.1
    simp only [Node.words, Bool.and_eq_true] at hw1
    obtain ⟨ts, rest, us, types, sB, sC, rfl, hus, ha, hg, hu⟩ := loop_spec hg1
    have hinv : Inv s (topIds ns ++ P) true := fr.inv
    cases hit : iterate C.calls n (.inputs ts :: rest) vs with
    | fault => simp only [hit] at hex; cases hex
    | unfinished => simp only [hit] at hex; cases hex
    | left t vs1 =>
    simp only [hit] at hex
    have hrel' : Rel C.sF s.next u (idx + 1) fl (topIds ns) env ρ :=
      hrel.move (Nat.le_refl _) (by omega) hsub (fun o ho => g.getIn fr.scopes ho) (fun _ _ _ => rfl)
    have hB' := hB ns u s' (idx + 1) P false fl top env ρ t vs1 tg ws w s.next fr2 hfl2 hwo.2 (by rw [hloops]; exact htop) hnext
      hrel' hex (by rw [hloops]; exact hcont)
    rw [hloops] at hB'
    -- the body
    obtain ⟨lA, iA, hh, hb⟩ := body_ok hinv ts.length us types
    have hnd := fr.nodup
    have hdj := fr.disj
    have hfr := fr.fresh
    have hdp := fr.deep
    simp only [topIds, innerIds, Node.inner] at hnd hdj hfr
    simp only [deepOk, Node.deepOk, Bool.and_eq_true] at hdp
    obtain ⟨n1, n2, n3⟩ := List.nodup_append.mp hnd
    obtain ⟨n4, n5, n6⟩ := List.nodup_append.mp n2
    obtain ⟨n7, n8, n9⟩ := List.nodup_append.mp n4
    have al := allocate_ok (.inputs ts :: rest) (bodyState s ts.length us types) sB (topIds ns ++ P) true 0 _ s.scopes ha iA
      (fun i hi => hfr i (List.mem_append.mpr (Or.inl (List.mem_append.mpr (Or.inl hi))))) n7 rfl
    have hleC : Le sC u := by
      rw [hu]
      exact same_ok rfl rfl rfl rfl (Nat.le_refl _)
    obtain ⟨mm, e1, e2, _⟩ := al.scope
    have frB : Frame C.m C.sF sB sC 0 (.inputs ts :: rest) (topIds ns ++ P) true := by
      refine ⟨hg, hdp.1.1, by simpa [deepOk, Node.deepOk] using hdp.1.2, al.inv, n4, ?_, ?_, ⟨mm, s.scopes, e1, e2⟩, hleC.trans fr2.le⟩
      · intro j hj
        rcases List.mem_append.mp hj with hj' | hj'
        · exact ⟨fun h => n3 j hj' j (List.mem_append.mpr (Or.inl (List.mem_append.mpr (Or.inl h)))) rfl,
            fun h => n3 j hj' j (List.mem_append.mpr (Or.inl (List.mem_append.mpr (Or.inr h)))) rfl⟩
        · have := (hdj j hj').2
          simp only [List.mem_append, not_or] at this
          simpa [topIds, innerIds, Node.inner] using this.1
      · intro j hj
        have hne : j ∉ topIds (.inputs ts :: rest) := fun h => n9 j h j hj rfl
        rw [al.labels j hne, al.phis j hne]
        exact hfr j (List.mem_append.mpr (Or.inl (List.mem_append.mpr (Or.inr hj))))
    have hI' := hI s sB sC us types ts rest (topIds ns ++ P) ρ vs t vs1 w hinv al frB hw1.2 hit hB'
    -- the entry
    obtain ⟨cb, hc1, hc2⟩ := hinv.current rfl
    have hlt := current_lt hinv
    have hcur : (bodyState s ts.length us types).blocks[s.current]? = some { cb with term := .Jump s.blocks.length } := by
      simp only [bodyState]
      rw [get_modify, if_neg (by omega)]
      refine add_get ?_
      rw [get_modify, if_pos rfl, add_get hc1]
      rfl
    have hleA : Le (bodyState s ts.length us types) C.sF := al.le.trans frB.le
    refine Goes.closed hc1 hcur (by simp) hleA ⟨ρ, rfl, Or.inr ⟨s.blocks.length, rfl, ?_⟩⟩
    refine hI' s.current ρ (fun _ _ _ => rfl) ?_
    refine edge_vals hinv rfl ⟨_, hcur, by simp⟩ hleA List.nodup_range' ?_
    intro i x hi hx
    rw [List.length_range'] at hi
    have hread : readAll env (ins.take ts.length) = some (vs.take ts.length) := readAll_take hr _
    obtain ⟨hw, _⟩ := hrel.inputs hus hread (by
      have := hw1.1
      rw [List.all_eq_true] at this ⊢
      exact fun y hy => this y (List.mem_of_mem_take hy))
    exact hw.get (by rw [List.getElem?_take, if_pos hi]; exact hx)

theorem run_ok (C : Ctx) : ∀ n, ExecOk C n ∧ BranchOk C n ∧ IterOk C n
  | 0 => by
    refine ⟨?_, ?_, ?_⟩
    · intro ns s s' idx P fl top env ρ tg ws w _ _ _ _ _ h
      simp [exec] at h
    · intro ns s s' idx P live fl top env ρ t vs tg ws w N _ _ _ _ _ _ h
      simp [branch] at h
    · intro s sB sC vs' types ts rest P ρ vs tg ws w _ _ _ _ h
      simp [iterate] at h
  | n + 1 => by
    obtain ⟨h1, h2, h3⟩ := run_ok C n
    exact ⟨exec_step h1 h2 h3, branch_step h1, iter_step h1 h3⟩

end Wasm
end CairoM
