import Verif.LoweringStmt

/-!
# The lowering: returns, conditionals and loops

Helper lemmas.
-/

namespace CairoM
namespace Lower

open Mir Lang Source

variable {st : St} {calls : Calls}

/-! ### Operations on the control flow graph -/

/-- New blocks. -/
def St.grow (st : St) (k : ℕ) : St := { st with count := st.count + k }

theorem newBlock_grow {stk} (hg : Good stk st) : st.newBlock = (st.count, st.grow 1) :=
  Prod.ext rfl (newBlock_same hg)

theorem grow_good (hg : Good [] st) (k : ℕ) : Good [] (st.grow k) ∧ Ext st (st.grow k) := by
  induction k with
  | zero => exact ⟨hg, Ext.refl hg⟩
  | succ k ih =>
    have h := newBlock_good ih.1
    rw [newBlock_grow ih.1] at h
    exact ⟨h.1, ih.2.trans h.2.1⟩

theorem grow_within (hg : Good [] st) (k c : ℕ) : Within c st (st.grow k) :=
  ⟨(grow_good hg k).2, fun _ _ => rfl, fun _ _ => rfl, fun _ h => h, fun _ _ _ h => h, .inl rfl⟩

/-- Block `a` has been ended by `T`. -/
structure Ended (a : BlockId) (T : Terminator) (s t : St) : Prop where
  good : Good [] t
  ext : Ext s t
  start : t.g.start = s.g.start
  sealed : t.sealed = s.sealed
  count : t.count = s.count
  loops : t.loops = s.loops
  current : t.current = s.current
  cur : t.cur = s.cur
  instrs : ∀ b, (t.blocks b).instrs = (s.blocks b).instrs
  term : (t.blocks a).term = T
  other : ∀ b, b ≠ a → (t.blocks b).term = (s.blocks b).term
  pred : ∀ b ∈ T.targets, a ∈ (t.blocks b).preds

theorem setTerm_ended (hg : Good [] st) {a : BlockId} {T : Terminator} {t : St}
    (ha : (st.blocks a).term = .Unreachable) (hs : ∃ k, st.g.start a = some k)
    (ht : ∀ b ∈ T.targets, Target st b) (h : st.setTerm a T = some t) : Ended a T st t := by
  obtain ⟨h1, h2, _⟩ := setTerm_good hg ha hs (fun b hb => (ht b hb).2) h
  have h3 := fun c => setTerm_blocks ha h c
  have h4 := (h3 0).2.2.2.2.2.2
  refine ⟨h1, h2, ?_, ?_, ?_, ?_, ?_, ?_, fun b => (h3 b).2.2.1, ?_, ?_, ?_⟩
  · rw [h4]
  · rw [h4]
  · rw [h4]
  · rw [h4]
  · rw [h4]
  · rw [h4]
  · rw [(h3 a).2.2.2.1, if_pos rfl]
  · intro b hb; rw [(h3 b).2.2.2.1, if_neg hb]
  · intro b hb; exact ((h3 b).2.2.2.2.1 a).2 (.inr ⟨hb, rfl⟩)

theorem terminate_ended (hg : Good [] st) {T : Terminator} {t : St}
    (ht : ∀ b ∈ T.targets, Target st b) (h : st.terminate T = some t) : Ended st.current T st t := by
  unfold St.terminate at h
  split at h
  · cases h
  · rename_i ho
    exact setTerm_ended hg (terminated_false.1 (by simpa using ho)) hg.running.2 ht h

theorem Ended.within {a : BlockId} {T : Terminator} {s t : St} (h : Ended a T s t) {c : ℕ}
    (hc : c ≤ a ∨ a = s.current) : Within c s t where
  ext := h.ext
  start b _ := by rw [h.start]
  sealed b _ := by rw [h.sealed]
  mono b hb := by rw [h.sealed]; exact hb
  term b hb hne hu := by
    rw [h.other b ?_]
    · exact hu
    · rintro rfl
      rcases hc with hc | hc
      · exact absurd hb (not_lt.2 hc)
      · exact hne hc
  current := .inl h.current

theorem SealExt.within {s t : St} {b : BlockId} (h : SealExt s t b) {c : ℕ} (hc : c ≤ b) : Within c s t where
  ext := h.ext
  start x _ := by rw [h.start]
  sealed x hx := by rw [h.sealed, Function.update_of_ne (Nat.ne_of_lt (lt_of_lt_of_le hx hc))]
  mono x hx := by
    rw [h.sealed]
    by_cases hb : x = b
    · subst hb; simp
    · rw [Function.update_of_ne hb]; exact hx
  term x _ _ hu := (h.term x).2 hu
  current := .inl h.keep.current

theorem SealExt.sealed_self {s t : St} {b : BlockId} (h : SealExt s t b) : t.sealed b = true := by
  rw [h.sealed]; simp

theorem switch_within {s : St} {b : BlockId} (h : Ext s (s.switch b)) {c : ℕ} (hc : c ≤ b) :
    Within c s (s.switch b) where
  ext := h
  start x hx := by
    show Function.update s.g.start b _ x = _
    rw [Function.update_of_ne (Nat.ne_of_lt (lt_of_lt_of_le hx hc))]
  sealed _ _ := rfl
  mono _ h := h
  term _ _ _ h := h
  current := .inr hc

theorem switch_start {s : St} {b x : BlockId} (h : x ≠ b) : (s.switch b).g.start x = s.g.start x := by
  show Function.update s.g.start b _ x = _
  rw [Function.update_of_ne h]

theorem switch_open {stk} {s : St} {b : BlockId} (hg : Good stk s) (hs : s.g.start b = none) :
    (s.switch b).terminated = false := by
  rw [terminated_false]
  exact (hg.unstarted b hs).2.2.1

/-- Other enclosing loops. -/
def St.withLoops (st : St) (l : List (BlockId × BlockId)) : St := { st with loops := l }

theorem withLoops_good (hg : Good [] st) (l) : Good [] (st.withLoops l) ∧ Ext st (st.withLoops l) := by
  have h := Ext.refl hg
  exact ⟨{ hg with }, { h with }⟩

theorem withLoops_within (hg : Good [] st) (l) (c : ℕ) : Within c st (st.withLoops l) :=
  ⟨(withLoops_good hg l).2, fun _ _ => rfl, fun _ _ => rfl, fun _ h => h, fun _ _ _ h => h, .inl rfl⟩

/-! ### Returns and jumps -/

theorem ret_ok {S : Sem} {d : ℕ} {ex : ℕ → Store → Outcome}
    (hex : ∀ n s, (n < d ∧ ex n s = .timeout) ∨ ex n s = .ret []) :
    StmtOk S calls [] d (fun st => st.terminate (.Return [])) ex := by
  intro st st' hg ho _ h
  have he := terminate_ended hg (by simp [Terminator.targets]) h
  refine ⟨he.good, ⟨he.within (.inr rfl), he.loops, ?_⟩, ?_⟩
  · intro b hb k hk
    rw [he.start, (hg.beyond b hb).1] at hk; cases hk
  · intro F f hF hsf n s env _ _
    rcases hex n s with ⟨hn, hx⟩ | hx
    · rw [hx]; exact fun k hk => absurd hk (by omega)
    rw [hx]
    obtain ⟨h1, _⟩ := leave (calls := calls) (p := st) hF hsf he.cur (he.instrs _)
      (by rw [he.start]; exact hg.running.2) (.inr (by rw [he.term]; simp)) hsf he.term (by simp)
    refine ⟨0, fun n => ?_⟩
    rw [Nat.add_zero, h1]
    unfold after
    simp [Terminator.rename, evalTerm, hF.rets, readAll]

theorem retE_ok {S : Sem} {d : ℕ} {o : Opts} (hc : CallsTyped S calls) {e : Expr} {t : Ty}
    (hok : e.ok S t = true) {ex' : ℕ → Store → Outcome}
    (hex : ∀ n s, (n < d ∧ ex' n s = .timeout) ∨ ex' n s = match eval false calls s e with
      | some x => .ret [x]
      | none => .fault) :
    StmtOk S calls [t] d (fun st => (lowerExpr o S e st).bind fun p => p.2.terminate (.Return [p.1])) ex' := by
  simp only [Expr.ok, Bool.and_eq_true, decide_eq_true_eq] at hok
  refine expr_then (fun _ _ h hf => h.frame hf) hc hok.1 hok.2 (low := fun v st => st.terminate (.Return [v]))
    (ex := fun _ x _ => .ret [x]) hex ?_
  intro v st st' hg ho _ hv h
  have he := terminate_ended hg (by simp [Terminator.targets]) h
  refine ⟨he.good, ⟨he.within (.inr rfl), he.loops, ?_⟩, ?_⟩
  · intro b hb k hk
    rw [he.start, (hg.beyond b hb).1] at hk; cases hk
  · intro F f hF hsf n s env x _ _ hr _
    obtain ⟨h1, _⟩ := leave (calls := calls) (p := st) hF hsf he.cur (he.instrs _)
      (by rw [he.start]; exact hg.running.2) (.inr (by rw [he.term]; simp)) hsf he.term (by simp)
    refine ⟨0, fun n => ?_⟩
    rw [Nat.add_zero, h1]
    unfold after
    simp only [Terminator.rename, evalTerm, hF.rets, readAll, List.map_cons, List.map_nil, Option.bind_some,
      scalar_mirTy, hr.readAt, Option.bind_eq_bind, Option.map_some]

theorem jump_ok {S : Sem} {d : ℕ} {rets : List Ty} (sel : BlockId × BlockId → BlockId) (hsel : sel = Prod.fst ∨ sel = Prod.snd)
    {ex : ℕ → Store → Outcome}
    (hex : ∀ n s, (n < d ∧ ex n s = .timeout) ∨ (sel = Prod.fst ∧ ex n s = .cont s) ∨ (sel = Prod.snd ∧ ex n s = .brk s)) :
    StmtOk S calls rets d (fun st => st.loops.head?.bind fun l => st.terminate (.Jump (sel l))) ex := by
  intro st st' hg ho hl h
  simp only [Option.bind_eq_some_iff] at h
  obtain ⟨l, hh, h⟩ := h
  have hmem : l ∈ st.loops := List.mem_of_mem_head? hh
  have hT : Target st (sel l) := by
    rcases hsel with rfl | rfl
    · exact (hl l hmem).1
    · exact (hl l hmem).2
  have he := terminate_ended hg (by simp [Terminator.targets]; exact hT) h
  refine ⟨he.good, ⟨he.within (.inr rfl), he.loops, ?_⟩, ?_⟩
  · intro b hb k hk
    rw [he.start, (hg.beyond b hb).1] at hk; cases hk
  · intro F f hF hsf n s env hty hm
    obtain ⟨h1, h2⟩ := leave (calls := calls) (p := st) hF hsf he.cur (he.instrs _)
      (by rw [he.start]; exact hg.running.2) (.inr (by rw [he.term]; simp)) hsf he.term (by simp)
    have h3 := h2 (sel l) (by simp [Terminator.targets]) s env hm
    rcases hex n s with ⟨hn, hx⟩ | ⟨rfl, hx⟩ | ⟨rfl, hx⟩
    · rw [hx]; exact fun k hk => absurd hk (by omega)
    · rw [hx]
      exact ⟨hty, l, hh, st.current, env, 0, h3, fun n => by rw [Nat.add_zero, h1]; rfl⟩
    · rw [hx]
      exact ⟨hty, l, hh, st.current, env, 0, h3, fun n => by rw [Nat.add_zero, h1]; rfl⟩

/-! ### Conditionals -/

/-- `omega` on block numbers. -/
macro "bomega" : tactic =>
  `(tactic| first
    | omega
    | (show @LT.lt ℕ instLTNat _ _; omega)
    | (show @LE.le ℕ instLENat _ _; omega)
    | (show ¬ (@Eq ℕ _ _); omega)
    | (show @Eq ℕ _ _; omega))

/-- The blocks `fs` have been ended by jumps to `m`. -/
structure Joined (fs : List BlockId) (m : BlockId) (s t : St) : Prop where
  good : Good [] t
  ext : Ext s t
  start : t.g.start = s.g.start
  sealed : t.sealed = s.sealed
  count : t.count = s.count
  loops : t.loops = s.loops
  current : t.current = s.current
  cur : t.cur = s.cur
  instrs : ∀ b, (t.blocks b).instrs = (s.blocks b).instrs
  term : ∀ a ∈ fs, (t.blocks a).term = .Jump m
  other : ∀ b, b ∉ fs → (t.blocks b).term = (s.blocks b).term

theorem joins_joined {m : BlockId} : ∀ (fs : List BlockId) (st t : St), Good [] st → Target st m → fs.Nodup →
    (∀ a ∈ fs, (st.blocks a).term = .Unreachable ∧ ∃ k, st.g.start a = some k) → st.joins fs m = some t →
      Joined fs m st t
  | [], st, t, hg, _, _, _, h => by
    simp only [St.joins, List.foldlM_nil, Option.pure_def, Option.some.injEq] at h
    subst h
    exact ⟨hg, Ext.refl hg, rfl, rfl, rfl, rfl, rfl, rfl, fun _ => rfl, by simp, fun _ _ => rfl⟩
  | a :: fs, st, t, hg, hm, hnd, ha, h => by
    simp only [St.joins, List.foldlM_cons, Option.bind_eq_bind, Option.bind_eq_some_iff] at h
    obtain ⟨st1, h1, h2⟩ := h
    obtain ⟨hu, hs⟩ := ha a (by simp)
    have he := setTerm_ended hg hu hs (by simp [Terminator.targets]; exact hm) h1
    simp only [List.nodup_cons] at hnd
    have ih := joins_joined fs st1 t he.good ⟨by rw [he.count]; exact hm.1, by rw [he.start, he.sealed]; exact hm.2⟩
      hnd.2 (by
        intro b hb
        have hne : b ≠ a := by rintro rfl; exact hnd.1 hb
        rw [he.other b hne, he.start]
        exact ha b (List.mem_cons_of_mem _ hb)) h2
    refine ⟨ih.good, he.ext.trans ih.ext, ih.start.trans he.start, ih.sealed.trans he.sealed,
      ih.count.trans he.count, ih.loops.trans he.loops, ih.current.trans he.current, ih.cur.trans he.cur,
      fun b => (ih.instrs b).trans (he.instrs b), ?_, ?_⟩
    · intro b hb
      rcases List.mem_cons.1 hb with rfl | hb
      · rw [ih.other b hnd.1, he.term]
      · exact ih.term b hb
    · intro b hb
      simp only [List.mem_cons, not_or] at hb
      rw [ih.other b hb.2, he.other b hb.1]

theorem Joined.within {fs : List BlockId} {m : BlockId} {s t : St} (h : Joined fs m s t) {c : ℕ}
    (hc : ∀ a ∈ fs, c ≤ a) : Within c s t where
  ext := h.ext
  start b _ := by rw [h.start]
  sealed b _ := by rw [h.sealed]
  mono b hb := by rw [h.sealed]; exact hb
  term b hb _ hu := by
    rw [h.other b (fun hm => absurd hb (not_lt.2 (hc b hm)))]
    exact hu
  current := .inl h.current

theorem mem_finals {a : BlockId} : a ∈ st.finals ↔ st.terminated = false ∧ a = st.current := by
  unfold St.finals
  cases st.terminated <;> simp

theorem ifElse_ok {S : Sem} {rets : List Ty} {o : Opts} (hord : ∀ l, (o.order l).Perm l)
    {lowT lowE : St → Option St} {exT exE : ℕ → Store → Outcome} {d : ℕ} (hT : StmtOk S calls rets d lowT exT)
    (hE : StmtOk S calls rets d lowE exE) (v : Value) (st st' : St) (hg : Good [] st) (hl : LoopsOk st)
    (h : (do
      let (tb, st) := st.newBlock
      let (eb, st) := st.newBlock
      let st ← st.terminate (.If v tb eb)
      let st ← st.seal o tb
      let st ← st.seal o eb
      let st ← lowT (st.switch tb)
      let fs := st.finals
      let st ← lowE (st.switch eb)
      let fs := fs ++ st.finals
      if fs = [] then some st
      else do
        let (m, st) := st.newBlock
        let st ← st.joins fs m
        let st ← st.seal o m
        some (st.switch m)) = some st') :
    Good [] st' ∧ Frame st st' ∧ ∀ F f, Fin F f rets → Ext st' f → ∀ n s env b, Typed S s → Match f st s env →
      Rep f env .bool v (.bool b) →
        Out S calls F f st.loops st' (n + 1 - d) (go calls F f st env) (if b then exT n s else exE n s) := by
  rw [newBlock_grow hg] at h
  simp only [newBlock_grow (grow_good hg 1).1, Option.bind_eq_bind, Option.bind_eq_some_iff] at h
  obtain ⟨s3, h3, s4, h4, s5, h5, s6, h6, s7, h7, h⟩ := h
  have hgr := grow_good hg 2
  have htb : (st.grow 1).count = st.count + 1 := rfl
  rw [htb] at h3 h5 h7
  change (st.grow 2).terminate _ = some s3 at h3
  have hc2 : (st.grow 2).count = st.count + 2 := rfl
  have hb0 := hg.beyond st.count le_rfl
  have hb1 := hg.beyond (st.count + 1) (Nat.le_succ _)
  have e3 := terminate_ended hgr.1 (by
    intro b hb
    simp only [Terminator.targets, List.mem_cons, List.not_mem_nil, or_false] at hb
    rcases hb with rfl | rfl
    · exact ⟨by rw [hc2]; bomega, .inl hb0.1⟩
    · exact ⟨by rw [hc2]; bomega, .inl hb1.1⟩) h3
  have hc3 : s3.count = st.count + 2 := e3.count
  obtain ⟨g4, e4⟩ := seal_good hord e3.good (b := st.count) (by rw [hc3]; bomega) h4
  have hc4 : s4.count = st.count + 2 := e4.count.trans hc3
  obtain ⟨g5, e5⟩ := seal_good hord g4 (b := st.count + 1) (by rw [hc4]; bomega) h5
  have hc5 : s5.count = st.count + 2 := e5.count.trans hc4
  have st5 : s5.g.start = st.g.start := by rw [e5.start, e4.start, e3.start]; rfl
  have hs5 : s5.sealed st.count = true ∧ s5.sealed (st.count + 1) = true :=
    ⟨(e5.within (c := 0) (Nat.zero_le _)).mono _ e4.sealed_self, e5.sealed_self⟩
  have w5 : Within st.count st s5 :=
    (((grow_within hg 2 _).trans (e3.within (.inr rfl))).trans (e4.within le_rfl)).trans (e5.within (Nat.le_succ _))
  have hl5 : s5.loops = st.loops := by rw [e5.loops, e4.loops, e3.loops]; rfl
  obtain ⟨g5', x5'⟩ := switch_good g5 (b := st.count) (by rw [hc5]; bomega) (by rw [st5]; exact hb0.1) (.inl hs5.1)
  have w5' : Within st.count st (s5.switch st.count) := w5.trans (switch_within x5' le_rfl)
  have hlo5 : LoopsOk (s5.switch st.count) := by
    intro l hm
    have hm' : l ∈ st.loops := by rw [← hl5]; exact hm
    obtain ⟨h1, h2⟩ := hl l hm'
    exact ⟨h1.within h1.1 w5', h2.within h2.1 w5'⟩
  have op5 := switch_open (b := st.count) g5 (by rw [st5]; exact hb0.1)
  obtain ⟨g6, f6, sim6⟩ := hT _ _ g5' op5 hlo5 h6
  have hst6 : s6.g.start (st.count + 1) = none := by
    rw [f6.within.start _ (by show _ < s5.count; rw [hc5]; bomega), switch_start (by bomega), st5]; exact hb1.1
  have hse6 : s6.sealed (st.count + 1) = true := f6.within.mono _ hs5.2
  have hc6 : st.count + 2 ≤ s6.count := by
    have : s5.count ≤ s6.count := f6.ext.count
    bomega
  obtain ⟨g6', x6'⟩ := switch_good g6 (b := st.count + 1) (by bomega) hst6 (.inl hse6)
  have w6 : Within st.count st s6 := w5'.trans (f6.within.le (by show _ ≤ s5.count; bomega))
  have w6' : Within st.count st (s6.switch (st.count + 1)) := w6.trans (switch_within x6' (Nat.le_succ _))
  have hl6 : s6.loops = st.loops := f6.loops.trans hl5
  have hlo6 : LoopsOk (s6.switch (st.count + 1)) := by
    intro l hm
    have hm' : l ∈ st.loops := by rw [← hl6]; exact hm
    obtain ⟨h1, h2⟩ := hl l hm'
    exact ⟨h1.within h1.1 w6', h2.within h2.1 w6'⟩
  have op6 := switch_open (b := st.count + 1) g6 hst6
  obtain ⟨g7, f7, sim7⟩ := hE _ _ g6' op6 hlo6 h7
  have w7 : Within st.count st s7 := w6'.trans (f7.within.le (by show _ ≤ s6.count; bomega))
  have hl7 : s7.loops = st.loops := f7.loops.trans hl6
  have hc7 : s6.count ≤ s7.count := f7.ext.count
  -- every block started since then is sealed
  have fresh7 : ∀ b, st.count ≤ b → ∀ k, s7.g.start b = some k → s7.sealed b = true := by
    intro b hb k hk
    by_cases hlt : b < s6.count
    · rw [f7.within.start b hlt] at hk
      by_cases hb' : b = st.count + 1
      · subst hb'; exact f7.within.mono _ hse6
      · rw [switch_start hb'] at hk
        refine f7.within.mono b ?_
        show s6.sealed b = true
        by_cases hlt' : b < s5.count
        · have hbe : b = st.count := by bomega
          subst hbe
          exact f6.within.mono _ hs5.1
        · exact f6.fresh b (not_lt.1 hlt') k hk
    · exact f7.fresh b (not_lt.1 hlt) k hk
  -- the end of the first branch
  have hcur6 : st.count ≤ s6.current := by
    rcases f6.within.current with h | h
    · rw [h]; exact le_rfl
    · have : s5.count ≤ s6.current := h
      bomega
  have hcur7 : st.count ≤ s7.current := by
    rcases f7.within.current with h | h
    · rw [h]; exact Nat.le_succ _
    · have : s6.count ≤ s7.current := h
      bomega
  have hne6 : s6.current ≠ st.count + 1 := by
    intro he
    obtain ⟨k, hk⟩ := g6.running.2
    rw [he, hst6] at hk; cases hk
  have hlt6 := g6.current_lt
  have hne67 : s6.current ≠ s7.current := by
    rcases f7.within.current with h | h
    · rw [h]; exact hne6
    · intro he
      have : s6.count ≤ s7.current := h
      rw [← he] at this
      exact absurd hlt6 (not_lt.2 this)
  have hstart67 : ∃ k, s7.g.start s6.current = some k := by
    obtain ⟨k, hk⟩ := g6.running.2
    exact ⟨k, by rw [f7.within.start _ hlt6, switch_start hne6]; exact hk⟩
  have hterm67 : s6.terminated = false → (s7.blocks s6.current).term = .Unreachable := by
    intro hh
    exact f7.within.term _ hlt6 hne6 (terminated_false.1 hh)
  -- the two parts of the simulation that do not depend on the end
  have part : ∀ F f, Fin F f rets → Ext s7 f → ∀ n s env b, Typed S s → Match f st s env →
      Rep f env .bool v (.bool b) →
        if b then Out S calls F f st.loops s6 (n + 1 - d) (go calls F f st env) (exT n s)
        else Out S calls F f st.loops s7 (n + 1 - d) (go calls F f st env) (exE n s) := by
    intro F f hF hsf n s env b hty hm hr
    have h6f := x6'.trans (f7.ext.trans hsf)
    have h5f := (x5'.trans f6.ext).trans h6f
    have h3f := (e4.ext.trans e5.ext).trans h5f
    obtain ⟨l1, l2⟩ := leave (calls := calls) (p := st) hF h3f e3.cur (e3.instrs _)
      (by rw [e3.start]; exact hg.running.2) (.inr (by show (s3.blocks (st.grow 2).current).term ≠ _; rw [e3.term]; simp))
      h3f e3.term (by simp)
    cases b with
    | true =>
      obtain ⟨env1, a1, a2⟩ := arrive (calls := calls) hF g5 (by rw [hc5]; bomega) (by rw [st5]; exact hb0.1)
        (f6.ext.trans h6f) (l2 st.count (by simp [Terminator.targets]) s env hm)
      have := sim6 F f hF h6f n s env1 hty a2
      rw [show (s5.switch st.count).loops = st.loops from hl5] at this
      refine this.pre 1 (fun n => ?_)
      rw [l1, ← a1 n]
      exact after_if hr _
    | false =>
      obtain ⟨env1, a1, a2⟩ := arrive (calls := calls) hF g6 (by bomega) hst6
        (f7.ext.trans hsf) (l2 (st.count + 1) (by simp [Terminator.targets]) s env hm)
      have := sim7 F f hF hsf n s env1 hty a2
      rw [show (s6.switch (st.count + 1)).loops = st.loops from hl6] at this
      refine this.pre 1 (fun n => ?_)
      rw [l1, ← a1 n]
      exact after_if hr _
  split at h
  · rename_i hfs
    cases h
    simp only [List.append_eq_nil_iff] at hfs
    refine ⟨g7, ⟨w7, hl7, fresh7⟩, ?_⟩
    intro F f hF hsf n s env b hty hm hr
    have := part F f hF hsf n s env b hty hm hr
    cases b with
    | true =>
      refine Out.abrupt ?_ this
      intro s' hs'
      simp only [if_true] at this hs'
      rw [hs'] at this
      have hh := mem_finals.2 ⟨this.1, rfl⟩
      rw [hfs.1] at hh; cases hh
    | false => exact this
  · rename_i hfs
    rw [newBlock_grow g7] at h
    simp only [Option.bind_eq_some_iff, Option.some.injEq] at h
    obtain ⟨s9, h9, s10, h10, rfl⟩ := h
    have hgr7 := grow_good g7 1
    have hbm := g7.beyond s7.count le_rfl
    have hmem : ∀ a ∈ s6.finals ++ s7.finals, (s6.terminated = false ∧ a = s6.current) ∨
        (s7.terminated = false ∧ a = s7.current) := by
      intro a ha
      rcases List.mem_append.1 ha with ha | ha
      · exact .inl (mem_finals.1 ha)
      · exact .inr (mem_finals.1 ha)
    have j9 := joins_joined (m := s7.count) _ (s7.grow 1) s9 hgr7.1 ⟨by show _ < s7.count + 1; bomega, .inl hbm.1⟩
      (by
        rw [List.nodup_append]
        refine ⟨by unfold St.finals; split <;> simp, by unfold St.finals; split <;> simp, ?_⟩
        intro a ha b hb
        rw [(mem_finals.1 ha).2, (mem_finals.1 hb).2]
        exact hne67)
      (by
        intro a ha
        rcases hmem a ha with ⟨ht, rfl⟩ | ⟨ht, rfl⟩
        · exact ⟨hterm67 ht, hstart67⟩
        · exact ⟨terminated_false.1 ht, g7.running.2⟩) h9
    have hc9 : s9.count = s7.count + 1 := j9.count
    obtain ⟨g10, e10⟩ := seal_good hord j9.good (b := s7.count) (by rw [hc9]; bomega) h10
    have hc10 : s10.count = s7.count + 1 := e10.count.trans hc9
    have st10 : s10.g.start = s7.g.start := by rw [e10.start, j9.start]; rfl
    obtain ⟨g11, x11⟩ := switch_good g10 (b := s7.count) (by rw [hc10]; bomega) (by rw [st10]; exact hbm.1)
      (.inl e10.sealed_self)
    have hcle : st.count ≤ s7.count := w7.ext.count
    have w9 : Within st.count s7 s9 := (grow_within g7 1 _).trans (j9.within (by
      intro a ha
      rcases hmem a ha with ⟨_, rfl⟩ | ⟨_, rfl⟩
      · exact hcur6
      · exact hcur7))
    have w11 : Within st.count s7 (s10.switch s7.count) :=
      (w9.trans (e10.within hcle)).trans (switch_within x11 hcle)
    refine ⟨g11, ⟨w7.trans w11, ?_, ?_⟩, ?_⟩
    · show s10.loops = st.loops
      rw [e10.loops, j9.loops]; exact hl7
    · intro b hb k hk
      by_cases hb' : b = s7.count
      · subst hb'; exact e10.sealed_self
      · rw [switch_start hb', st10] at hk
        exact w11.mono b (fresh7 b hb k hk)
    · intro F f hF hsf n s env b hty hm hr
      have h10f := x11.trans hsf
      have h9f := e10.ext.trans h10f
      have h7f := w9.ext.trans h9f
      have h := part F f hF h7f n s env b hty hm hr
      -- from the end of a branch to the block after the conditional
      have join : ∀ (p q : St), p.terminated = false → p.current ∈ s6.finals ++ s7.finals → Ext q f → q.cur = p.cur →
          (q.blocks p.current).instrs = (p.blocks p.current).instrs → (∃ k, q.g.start p.current = some k) →
          (p.current ≠ q.current ∨ (q.blocks p.current).term ≠ .Unreachable) → ∀ R x,
          Out S calls F f st.loops p (n + 1 - d) R x →
            Out S calls F f st.loops (s10.switch s7.count) (n + 1 - d) R x := by
        intro p q hp hpm hq hqc hqi hqs hqn R x hout
        cases x with
        | normal s' =>
          obtain ⟨_, hty', env', N, hm', hgo⟩ := hout
          obtain ⟨l1, l2⟩ := leave (calls := calls) (p := p) hF hq hqc hqi hqs hqn h9f (j9.term _ hpm) (by simp)
          obtain ⟨env1, a1, a2⟩ := arrive (calls := calls) hF g10 (by rw [hc10]; bomega) (by rw [st10]; exact hbm.1)
            hsf (l2 s7.count (by simp [Terminator.targets]) s' env' hm')
          refine ⟨switch_open g10 (by rw [st10]; exact hbm.1), hty', env1, 1 + N, a2, fun n => ?_⟩
          rw [← Nat.add_assoc, hgo, l1, ← a1 n]
          exact after_jump
        | _ => exact hout
      cases b with
      | true =>
        simp only [if_true] at h ⊢
        cases hx : exT n s with
        | normal s' =>
          rw [hx] at h
          have hp := h.1
          exact join s6 (s6.switch (st.count + 1)) hp (List.mem_append_left _ (mem_finals.2 ⟨hp, rfl⟩))
            (f7.ext.trans h7f) rfl rfl
            (by obtain ⟨k, hk⟩ := g6.running.2; exact ⟨k, by rw [switch_start hne6]; exact hk⟩) (.inl hne6) _ _ h
        | _ => rw [hx] at h; exact h
      | false =>
        simp only [Bool.false_eq_true, if_false] at h ⊢
        cases hx : exE n s with
        | normal s' =>
          rw [hx] at h
          have hp := h.1
          have hmem7 : s7.current ∈ s6.finals ++ s7.finals := List.mem_append_right _ (mem_finals.2 ⟨hp, rfl⟩)
          exact join s7 s9 hp hmem7 h9f j9.cur (j9.instrs _)
            (by rw [j9.start]; exact g7.running.2) (.inr (by rw [j9.term _ hmem7]; simp)) _ _ h
        | _ => rw [hx] at h; exact h

theorem connect_switch (a b m : BlockId) : (st.switch m).connect a b = (st.connect a b).map fun t => t.switch m := by
  unfold St.connect
  show (if b < st.count then _ else _) = _
  split <;> rfl

theorem connects_switch (a m : BlockId) (ts : List BlockId) : ∀ st : St,
    ts.foldlM (fun (st : St) b => st.connect a b) (st.switch m) =
      (ts.foldlM (fun (st : St) b => st.connect a b) st).map fun t => t.switch m := by
  induction ts with
  | nil => intro st; rfl
  | cons b ts ih =>
    intro st
    simp only [List.foldlM_cons, connect_switch, Option.bind_eq_bind]
    cases st.connect a b with
    | none => rfl
    | some t => simp only [Option.map_some, Option.bind_some, ih]

theorem disconnects_switch (a m : BlockId) (ts : List BlockId) : ∀ st : St,
    ts.foldl (fun (st : St) b => st.disconnect a b) (st.switch m) =
      (ts.foldl (fun (st : St) b => st.disconnect a b) st).switch m := by
  induction ts with
  | nil => intro st; rfl
  | cons b ts ih => intro st; exact ih (st.disconnect a b)

theorem setTerm_switch (a m : BlockId) (T : Terminator) :
    (st.switch m).setTerm a T = (st.setTerm a T).map fun t => t.switch m := by
  unfold St.setTerm
  simp only
  rw [show (st.switch m).blocks = st.blocks from rfl, disconnects_switch]
  exact connects_switch a m T.targets
    (St.modify (List.foldl (fun (st : St) b => st.disconnect a b) st (st.blocks a).term.targets) a
      fun blk => { blk with term := T })

theorem joins_switch (m : BlockId) (fs : List BlockId) : ∀ st : St,
    (st.switch m).joins fs m = (st.joins fs m).map fun t => t.switch m := by
  induction fs with
  | nil => intro st; rfl
  | cons a fs ih =>
    intro st
    simp only [St.joins, List.foldlM_cons, setTerm_switch, Option.bind_eq_bind] at ih ⊢
    cases st.setTerm a (.Jump m) with
    | none => rfl
    | some t => simp only [Option.map_some, Option.bind_some, ih]

theorem ifThen_ok {S : Sem} {rets : List Ty} {o : Opts} (hord : ∀ l, (o.order l).Perm l)
    {lowT : St → Option St} {exT : ℕ → Store → Outcome} {d : ℕ} (hT : StmtOk S calls rets d lowT exT)
    (v : Value) (st st' : St) (hg : Good [] st) (hl : LoopsOk st)
    (h : (do
      let (tb, st) := st.newBlock
      let (m, st) := st.newBlock
      let st ← st.terminate (.If v tb m)
      let st ← st.seal o tb
      let st ← st.seal o m
      let st ← lowT (st.switch tb)
      let fs := st.finals
      (st.switch m).joins fs m) = some st') :
    Good [] st' ∧ Frame st st' ∧ ∀ F f, Fin F f rets → Ext st' f → ∀ n s env b, Typed S s → Match f st s env →
      Rep f env .bool v (.bool b) →
        Out S calls F f st.loops st' (n + 1 - d) (go calls F f st env) (if b then exT n s else .normal s) := by
  rw [newBlock_grow hg] at h
  simp only [newBlock_grow (grow_good hg 1).1, Option.bind_eq_bind, Option.bind_eq_some_iff, joins_switch,
    Option.map_eq_some_iff] at h
  obtain ⟨s3, h3, s4, h4, s5, h5, s6, h6, s9, h9, rfl⟩ := h
  have hgr := grow_good hg 2
  have htb : (st.grow 1).count = st.count + 1 := rfl
  rw [htb] at h3 h5 h9 ⊢
  change (st.grow 2).terminate _ = some s3 at h3
  have hc2 : (st.grow 2).count = st.count + 2 := rfl
  have hb0 := hg.beyond st.count le_rfl
  have hb1 := hg.beyond (st.count + 1) (Nat.le_succ _)
  have e3 := terminate_ended hgr.1 (by
    intro b hb
    simp only [Terminator.targets, List.mem_cons, List.not_mem_nil, or_false] at hb
    rcases hb with rfl | rfl
    · exact ⟨by rw [hc2]; bomega, .inl hb0.1⟩
    · exact ⟨by rw [hc2]; bomega, .inl hb1.1⟩) h3
  have hc3 : s3.count = st.count + 2 := e3.count
  obtain ⟨g4, e4⟩ := seal_good hord e3.good (b := st.count) (by rw [hc3]; bomega) h4
  have hc4 : s4.count = st.count + 2 := e4.count.trans hc3
  obtain ⟨g5, e5⟩ := seal_good hord g4 (b := st.count + 1) (by rw [hc4]; bomega) h5
  have hc5 : s5.count = st.count + 2 := e5.count.trans hc4
  have st5 : s5.g.start = st.g.start := by rw [e5.start, e4.start, e3.start]; rfl
  have hs5 : s5.sealed st.count = true ∧ s5.sealed (st.count + 1) = true :=
    ⟨(e5.within (c := 0) (Nat.zero_le _)).mono _ e4.sealed_self, e5.sealed_self⟩
  have w5 : Within st.count st s5 :=
    (((grow_within hg 2 _).trans (e3.within (.inr rfl))).trans (e4.within le_rfl)).trans (e5.within (Nat.le_succ _))
  have hl5 : s5.loops = st.loops := by rw [e5.loops, e4.loops, e3.loops]; rfl
  obtain ⟨g5', x5'⟩ := switch_good g5 (b := st.count) (by rw [hc5]; bomega) (by rw [st5]; exact hb0.1) (.inl hs5.1)
  have w5' : Within st.count st (s5.switch st.count) := w5.trans (switch_within x5' le_rfl)
  have hlo5 : LoopsOk (s5.switch st.count) := by
    intro l hm
    have hm' : l ∈ st.loops := by rw [← hl5]; exact hm
    obtain ⟨h1, h2⟩ := hl l hm'
    exact ⟨h1.within h1.1 w5', h2.within h2.1 w5'⟩
  have op5 := switch_open (b := st.count) g5 (by rw [st5]; exact hb0.1)
  obtain ⟨g6, f6, sim6⟩ := hT _ _ g5' op5 hlo5 h6
  have hst6 : s6.g.start (st.count + 1) = none := by
    rw [f6.within.start _ (by show _ < s5.count; rw [hc5]; bomega), switch_start (by bomega), st5]; exact hb1.1
  have hse6 : s6.sealed (st.count + 1) = true := f6.within.mono _ hs5.2
  have hc6 : st.count + 2 ≤ s6.count := by
    have : s5.count ≤ s6.count := f6.ext.count
    bomega
  have w6 : Within st.count st s6 := w5'.trans (f6.within.le (by show _ ≤ s5.count; bomega))
  have hl6 : s6.loops = st.loops := f6.loops.trans hl5
  have hcur6 : st.count ≤ s6.current := by
    rcases f6.within.current with h | h
    · rw [h]; exact le_rfl
    · have : s5.count ≤ s6.current := h
      bomega
  have hmem : ∀ a ∈ s6.finals, s6.terminated = false ∧ a = s6.current := fun a ha => mem_finals.1 ha
  have j9 := joins_joined (m := st.count + 1) _ s6 s9 g6 ⟨by bomega, .inl hst6⟩
    (by unfold St.finals; split <;> simp)
    (by
      intro a ha
      obtain ⟨ht, rfl⟩ := hmem a ha
      exact ⟨terminated_false.1 ht, g6.running.2⟩) h9
  have hst9 : s9.g.start (st.count + 1) = none := by rw [j9.start]; exact hst6
  have hc9 : st.count + 1 < s9.count := by rw [j9.count]; bomega
  obtain ⟨g10, x10⟩ := switch_good j9.good (b := st.count + 1) hc9 hst9 (.inl (by rw [j9.sealed]; exact hse6))
  have w10 : Within st.count st (s9.switch (st.count + 1)) :=
    (w6.trans (j9.within (by intro a ha; rw [(hmem a ha).2]; exact hcur6))).trans
      (switch_within x10 (Nat.le_succ _))
  have hop : (s9.switch (st.count + 1)).terminated = false := switch_open j9.good hst9
  refine ⟨g10, ⟨w10, ?_, ?_⟩, ?_⟩
  · show s9.loops = st.loops
    rw [j9.loops]; exact hl6
  · intro b hb k hk
    show s9.sealed b = true
    rw [j9.sealed]
    by_cases hb' : b = st.count + 1
    · subst hb'; exact hse6
    · rw [switch_start hb', j9.start] at hk
      by_cases hlt : b < s5.count
      · have hbe : b = st.count := by bomega
        subst hbe
        exact f6.within.mono _ hs5.1
      · exact f6.fresh b (not_lt.1 hlt) k hk
  · intro F f hF hsf n s env b hty hm hr
    have h9f := x10.trans hsf
    have h6f := j9.ext.trans h9f
    have h5f := (x5'.trans f6.ext).trans h6f
    have h3f := (e4.ext.trans e5.ext).trans h5f
    obtain ⟨l1, l2⟩ := leave (calls := calls) (p := st) hF h3f e3.cur (e3.instrs _)
      (by rw [e3.start]; exact hg.running.2) (.inr (by show (s3.blocks (st.grow 2).current).term ≠ _; rw [e3.term]; simp))
      h3f e3.term (by simp)
    cases b with
    | true =>
      obtain ⟨env1, a1, a2⟩ := arrive (calls := calls) hF g5 (by rw [hc5]; bomega) (by rw [st5]; exact hb0.1)
        (f6.ext.trans h6f) (l2 st.count (by simp [Terminator.targets]) s env hm)
      have h := sim6 F f hF h6f n s env1 hty a2
      rw [show (s5.switch st.count).loops = st.loops from hl5] at h
      refine Out.pre (R' := go calls F f (s5.switch st.count) env1) 1 (fun n => ?_) ?_
      · rw [l1, ← a1 n]
        exact after_if hr _
      · simp only [if_true]
        cases hx : exT n s with
        | normal s' =>
          rw [hx] at h
          obtain ⟨hp, hty', env', N, hm', hgo⟩ := h
          have hpm : s6.current ∈ s6.finals := mem_finals.2 ⟨hp, rfl⟩
          obtain ⟨l1, l2⟩ := leave (calls := calls) (p := s6) hF h9f j9.cur (j9.instrs _)
            (by rw [j9.start]; exact g6.running.2) (.inr (by rw [j9.term _ hpm]; simp)) h9f (j9.term _ hpm) (by simp)
          obtain ⟨env2, b1, b2⟩ := arrive (calls := calls) hF j9.good hc9 hst9 hsf
            (l2 (st.count + 1) (by simp [Terminator.targets]) s' env' hm')
          refine ⟨hop, hty', env2, 1 + N, b2, fun n => ?_⟩
          rw [← Nat.add_assoc, hgo, l1, ← b1 n]
          exact after_jump
        | _ => rw [hx] at h; exact h
    | false =>
      obtain ⟨env1, a1, a2⟩ := arrive (calls := calls) hF j9.good hc9 hst9
        hsf (l2 (st.count + 1) (by simp [Terminator.targets]) s env hm)
      refine ⟨hop, hty, env1, 1, a2, fun n => ?_⟩
      rw [l1, ← a1 n]
      exact after_if hr _

/-! ### Loops -/

/-- The end of a loop body: a jump when it is reached. -/
theorem jumpIfOpen_good (hg : Good [] st) {b : BlockId} {t : St} (hb : Target st b) (h : st.jumpIfOpen b = some t) :
    Good [] t ∧ Ext st t ∧ t.g.start = st.g.start ∧ t.sealed = st.sealed ∧ t.count = st.count ∧
      t.loops = st.loops ∧ t.current = st.current ∧ (∀ c, Within c st t) ∧
      (st.terminated = false → Ended st.current (.Jump b) st t) := by
  unfold St.jumpIfOpen at h
  split at h
  · rename_i ht
    cases h
    refine ⟨hg, Ext.refl hg, rfl, rfl, rfl, rfl, rfl, fun _ => Within.refl hg, ?_⟩
    intro h; rw [ht] at h; cases h
  · have he := terminate_ended hg (by simp [Terminator.targets]; exact hb) h
    exact ⟨he.good, he.ext, he.start, he.sealed, he.count, he.loops, he.current, fun _ => he.within (.inr rfl),
      fun _ => he⟩

theorem loop_ok {S : Sem} {rets : List Ty} {o : Opts} (hord : ∀ l, (o.order l).Perm l)
    {low : St → Option St} {ex exL : ℕ → Store → Outcome} {d : ℕ} (hB : StmtOk S calls rets d low ex)
    (hL0 : ∀ s, exL 0 s = .timeout)
    (hL : ∀ n s, exL (n + 1) s = match ex n s with
      | .normal s' | .cont s' => exL n s'
      | .brk s' => .normal s'
      | x => x) :
    StmtOk S calls rets (d + 1) (fun st => do
      let (b, st) := st.newBlock
      let (x, st) := st.newBlock
      let st ← st.terminate (.Jump b)
      let st ← st.seal o x
      let st := { st with loops := (b, x) :: st.loops }
      let st ← low (st.switch b)
      let st ← st.jumpIfOpen b
      let st ← st.seal o b
      some ({ st with loops := st.loops.tail }.switch x)) exL := by
  intro st st' hg ho hl h
  simp only [newBlock_grow hg] at h
  simp only [newBlock_grow (grow_good hg 1).1, Option.bind_eq_bind, Option.bind_eq_some_iff, Option.some.injEq] at h
  obtain ⟨s2, h2, s3, h3, s5, h5, s6, h6, s7, h7, rfl⟩ := h
  have hgr := grow_good hg 2
  rw [show (st.grow 1).count = st.count + 1 from rfl] at h3 h5 ⊢
  change (st.grow 2).terminate _ = some s2 at h2
  have hc2' : (st.grow 2).count = st.count + 2 := rfl
  have hb0 := hg.beyond st.count le_rfl
  have hb1 := hg.beyond (st.count + 1) (Nat.le_succ _)
  have e2 := terminate_ended hgr.1 (by
    intro b hb
    simp only [Terminator.targets, List.mem_cons, List.not_mem_nil, or_false] at hb
    subst hb
    exact ⟨by rw [hc2']; bomega, .inl hb0.1⟩) h2
  have hc2 : s2.count = st.count + 2 := e2.count
  obtain ⟨g3, e3⟩ := seal_good hord e2.good (b := st.count + 1) (by rw [hc2]; bomega) h3
  have hc3 : s3.count = st.count + 2 := e3.count.trans hc2
  have st3 : s3.g.start = st.g.start := by rw [e3.start, e2.start]; rfl
  have hl3 : s3.loops = st.loops := by rw [e3.loops, e2.loops]; rfl
  have hse3 : s3.sealed st.count = false := by
    rw [e3.sealed, Function.update_of_ne (by bomega), e2.sealed]; exact hb0.2.2
  have hpred3 : (s3.blocks st.count).preds ≠ [] := by
    rw [e3.preds]
    intro hnil
    have := e2.pred st.count (by simp [Terminator.targets])
    rw [hnil] at this; cases this
  -- entering the body
  change low ((s3.withLoops ((st.count, st.count + 1) :: s3.loops)).switch st.count) = some s5 at h5
  obtain ⟨g4, x4⟩ := withLoops_good g3 ((st.count, st.count + 1) :: s3.loops)
  have w4 := withLoops_within g3 ((st.count, st.count + 1) :: s3.loops) st.count
  generalize hs4 : s3.withLoops ((st.count, st.count + 1) :: s3.loops) = s4 at *
  have hc4 : s4.count = st.count + 2 := by rw [← hs4]; exact hc3
  have st4 : s4.g.start = st.g.start := by rw [← hs4]; exact st3
  have hl4 : s4.loops = (st.count, st.count + 1) :: st.loops := by rw [← hs4, ← hl3]; rfl
  have hse4 : s4.sealed = s3.sealed := by rw [← hs4]; rfl
  have hst4 : s4.g.start st.count = none := by rw [st4]; exact hb0.1
  have w3 : Within st.count st s3 := ((grow_within hg 2 _).trans (e2.within (.inr rfl))).trans (e3.within (Nat.le_succ _))
  obtain ⟨g4', x4'⟩ := switch_good g4 (b := st.count) (by rw [hc4]; bomega) hst4
    (.inr (by rw [← hs4]; exact hpred3))
  have w4' : Within st.count st (s4.switch st.count) := (w3.trans w4).trans (switch_within x4' le_rfl)
  have hlo4 : LoopsOk (s4.switch st.count) := by
    intro l hm
    have hm' : l ∈ (st.count, st.count + 1) :: st.loops := by rw [← hl4]; exact hm
    rcases List.mem_cons.1 hm' with rfl | hm'
    · refine ⟨⟨by show _ < s4.count; rw [hc4]; bomega, .inr ?_⟩, ⟨by show _ < s4.count; rw [hc4]; bomega, .inl ?_⟩⟩
      · show s4.sealed st.count = false
        rw [hse4]; exact hse3
      · show (s4.switch st.count).g.start (st.count + 1) = none
        rw [switch_start (by bomega), st4]; exact hb1.1
    · obtain ⟨h1, h2⟩ := hl l hm'
      exact ⟨h1.within h1.1 w4', h2.within h2.1 w4'⟩
  obtain ⟨g5, f5, sim5⟩ := hB _ _ g4' (switch_open g4 hst4) hlo4 h5
  have hcle5 : st.count + 2 ≤ s5.count := by
    have : s4.count ≤ s5.count := f5.ext.count
    bomega
  have hse5 : s5.sealed st.count = false := by
    rw [f5.within.sealed _ (by show _ < s4.count; rw [hc4]; bomega)]
    show s4.sealed st.count = false
    rw [hse4]; exact hse3
  have hst5 : s5.g.start (st.count + 1) = none := by
    rw [f5.within.start _ (by show _ < s4.count; rw [hc4]; bomega), switch_start (by bomega), st4]; exact hb1.1
  -- the jump back
  obtain ⟨g6, x6, st6, se6, c6, l6, cu6, w6, end6⟩ := jumpIfOpen_good g5 (b := st.count) ⟨by bomega, .inr hse5⟩ h6
  obtain ⟨g7, e7⟩ := seal_good hord g6 (b := st.count) (by rw [c6]; bomega) h7
  have hl7 : s7.loops.tail = st.loops := by
    rw [e7.loops, l6, f5.loops]
    show s4.loops.tail = _
    rw [hl4]; rfl
  change Good [] ((s7.withLoops s7.loops.tail).switch (st.count + 1)) ∧ _
  obtain ⟨g8, x8⟩ := withLoops_good g7 s7.loops.tail
  have w8 := withLoops_within g7 s7.loops.tail st.count
  change _ ∧ Frame st ((s7.withLoops s7.loops.tail).switch (st.count + 1)) ∧ ∀ F f, _ →
    Ext ((s7.withLoops s7.loops.tail).switch (st.count + 1)) f → ∀ n s env, _ → _ →
      Out S calls F f st.loops ((s7.withLoops s7.loops.tail).switch (st.count + 1)) _ _ _
  generalize hs8 : s7.withLoops s7.loops.tail = s8 at *
  have st8 : s8.g.start = s5.g.start := by rw [← hs8, ← st6, ← e7.start]; rfl
  have hst8 : s8.g.start (st.count + 1) = none := by rw [st8]; exact hst5
  have hc8 : st.count + 1 < s8.count := by
    have : s8.count = s5.count := by rw [← c6, ← e7.count, ← hs8]; rfl
    bomega
  have w58 : Within st.count s5 s8 := ((w6 st.count).trans (e7.within le_rfl)).trans w8
  have hse8b : s8.sealed st.count = true := by rw [← hs8]; exact e7.sealed_self
  have hse8x : s8.sealed (st.count + 1) = true := by
    refine w58.mono _ (f5.within.mono _ ?_)
    show s4.sealed _ = true
    rw [hse4]; exact e3.sealed_self
  obtain ⟨g9, x9⟩ := switch_good g8 (b := st.count + 1) hc8 hst8 (.inl hse8x)
  have w5 : Within st.count st s5 := w4'.trans (f5.within.le (by show _ ≤ s4.count; bomega))
  have w9 : Within st.count st (s8.switch (st.count + 1)) :=
    (w5.trans w58).trans (switch_within x9 (Nat.le_succ _))
  refine ⟨g9, ⟨w9, ?_, ?_⟩, ?_⟩
  · show s8.loops = st.loops
    rw [← hs8]; exact hl7
  · intro c hb k hk
    show s8.sealed c = true
    by_cases hb' : c = st.count + 1
    · subst hb'; exact hse8x
    · rw [switch_start hb', st8] at hk
      by_cases hlt : c < s4.count
      · have hbe : c = st.count := by bomega
        subst hbe
        exact hse8b
      · exact w58.mono _ (f5.fresh c (not_lt.1 hlt) k hk)
  · intro F f hF hsf n s env hty hm
    have h8f := x9.trans hsf
    have h5f := w58.ext.trans h8f
    have h4f := f5.ext.trans h5f
    have h2f := e3.ext.trans (x4.trans (x4'.trans h4f))
    obtain ⟨l1, l2⟩ := leave (calls := calls) (p := st) hF h2f e2.cur (e2.instrs _)
      (by rw [e2.start]; exact hg.running.2) (.inr (by show (s2.blocks (st.grow 2).current).term ≠ _; rw [e2.term]; simp))
      h2f e2.term (by simp)
    have main : ∀ n s a env, Typed S s → EdgeMatch f a st.count s env →
        Out S calls F f st.loops (s8.switch (st.count + 1)) (n - d)
          (fun m => Lang.exec calls F m (some a) st.count env) (exL n s) := by
      intro n
      induction n with
      | zero => intro s a env _ _; rw [hL0]; exact fun k hk => absurd hk (by omega)
      | succ n ih =>
        intro s a env hty hed
        obtain ⟨env1, a1, a2⟩ := arrive (calls := calls) hF g4 (by rw [hc4]; bomega) hst4 h4f hed
        have h := sim5 F f hF h5f n s env1 hty a2
        rw [show (s4.switch st.count).loops = (st.count, st.count + 1) :: st.loops from hl4] at h
        refine Out.less (by omega) (Out.step (b := n - d) (R' := go calls F f (s4.switch st.count) env1) 0 a1 rfl ?_)
        rw [hL]
        cases hx : ex n s with
        | normal s' =>
          rw [hx] at h
          obtain ⟨hp, hty', env', N, hm', hgo⟩ := h
          have e6 := end6 hp
          have h6f := (e7.ext.trans x8).trans h8f
          obtain ⟨l1, l2⟩ := leave (calls := calls) (p := s5) hF h6f e6.cur (e6.instrs _)
            (by rw [e6.start]; exact g5.running.2) (.inr (by rw [e6.term]; simp)) h6f e6.term (by simp)
          refine (ih s' s5.current env' hty' (l2 st.count (by simp [Terminator.targets]) s' env' hm')).pre N ?_
          intro n
          rw [hgo, l1]; rfl
        | cont s' =>
          rw [hx] at h
          obtain ⟨hty', l, hl, a', env', N, hed', hgo⟩ := h
          simp only [List.head?_cons, Option.some.injEq] at hl
          subst hl
          exact (ih s' a' env' hty' hed').pre N hgo
        | brk s' =>
          rw [hx] at h
          obtain ⟨hty', l, hl, a', env', N, hed', hgo⟩ := h
          simp only [List.head?_cons, Option.some.injEq] at hl
          subst hl
          obtain ⟨env2, b1, b2⟩ := arrive (calls := calls) hF g8 hc8 hst8 hsf hed'
          refine ⟨switch_open g8 hst8, hty', env2, 1 + N, b2, fun n => ?_⟩
          rw [← Nat.add_assoc, hgo, ← b1 n]
        | ret vs => rw [hx] at h; exact h
        | fault => rw [hx] at h; exact h
        | timeout => rw [hx] at h; exact Out.less (x := .timeout) (by omega) h
    refine (main n s st.current env hty (l2 st.count (by simp [Terminator.targets]) s env hm)).less (by omega) |>.pre 0 ?_
    intro n
    rw [Nat.add_zero, l1]; rfl

theorem while_ok {S : Sem} {rets : List Ty} {o : Opts} (hord : ∀ l, (o.order l).Perm l) (hc : CallsTyped S calls)
    {e : Expr} (hok : e.ok S .bool = true)
    {low : St → Option St} {ex exL : ℕ → Store → Outcome} {d : ℕ} (hB : StmtOk S calls rets d low ex)
    (hL0 : ∀ s, exL 0 s = .timeout)
    (hL : ∀ n s, exL (n + 1) s = match eval false calls s e with
      | some (.bool true) =>
        match ex n s with
        | .normal s' | .cont s' => exL n s'
        | .brk s' => .normal s'
        | x => x
      | some (.bool false) => .normal s
      | _ => .fault) :
    StmtOk S calls rets (d + 1) (fun st => do
      let (h, st) := st.newBlock
      let (b, st) := st.newBlock
      let (x, st) := st.newBlock
      let st ← st.terminate (.Jump h)
      let st := { st with loops := (h, x) :: st.loops }
      let (v, st) ← lowerExpr o S e (st.switch h)
      let st ← st.terminate (.If v b x)
      let st ← st.seal o b
      let st ← st.seal o x
      let st ← low (st.switch b)
      let st ← st.jumpIfOpen h
      let st ← st.seal o h
      some ({ st with loops := st.loops.tail }.switch x)) exL := by
  intro st st' hg ho hl h
  simp only [Expr.ok, Bool.and_eq_true, decide_eq_true_eq] at hok
  simp only [newBlock_grow hg] at h
  simp only [newBlock_grow (grow_good hg 1).1] at h
  simp only [show (st.grow 1).grow 1 = st.grow 2 from rfl, newBlock_grow (grow_good hg 2).1,
    show (st.grow 2).grow 1 = st.grow 3 from rfl, show (st.grow 1).count = st.count + 1 from rfl,
    show (st.grow 2).count = st.count + 2 from rfl,
    Option.bind_eq_bind, Option.bind_eq_some_iff, Option.some.injEq] at h
  obtain ⟨s2, h2, ⟨v, s4⟩, h4, s5, h5, s6, h6, s7, h7, s8, h8, s9, h9, s10, h10, rfl⟩ := h
  have hgr := grow_good hg 3
  have hc2' : (st.grow 3).count = st.count + 3 := rfl
  have hb0 := hg.beyond st.count le_rfl
  have hb1 := hg.beyond (st.count + 1) (Nat.le_add_right _ _)
  have hb2 := hg.beyond (st.count + 2) (Nat.le_add_right _ _)
  have e2 := terminate_ended hgr.1 (by
    intro b hb
    simp only [Terminator.targets, List.mem_cons, List.not_mem_nil, or_false] at hb
    subst hb
    exact ⟨by rw [hc2']; bomega, .inl hb0.1⟩) h2
  have hc2 : s2.count = st.count + 3 := e2.count
  have st2 : s2.g.start = st.g.start := by rw [e2.start]; rfl
  have se2 : s2.sealed = st.sealed := by rw [e2.sealed]; rfl
  have hl2 : s2.loops = st.loops := by rw [e2.loops]; rfl
  have hpred2 : (s2.blocks st.count).preds ≠ [] := by
    intro hnil
    have := e2.pred st.count (by simp [Terminator.targets])
    rw [hnil] at this; cases this
  have w2 : Within st.count st s2 := (grow_within hg 3 _).trans (e2.within (.inr rfl))
  -- the header
  change lowerExpr o S e ((s2.withLoops ((st.count, st.count + 2) :: s2.loops)).switch st.count) = some (v, s4) at h4
  obtain ⟨g3, x3⟩ := withLoops_good e2.good ((st.count, st.count + 2) :: s2.loops)
  have w3 := withLoops_within e2.good ((st.count, st.count + 2) :: s2.loops) st.count
  generalize hs3 : s2.withLoops ((st.count, st.count + 2) :: s2.loops) = s3 at *
  have hc3 : s3.count = st.count + 3 := by rw [← hs3]; exact hc2
  have st3 : s3.g.start = st.g.start := by rw [← hs3]; exact st2
  have se3 : s3.sealed = st.sealed := by rw [← hs3]; exact se2
  have hl3 : s3.loops = (st.count, st.count + 2) :: st.loops := by rw [← hs3, ← hl2]; rfl
  have hst3 : s3.g.start st.count = none := by rw [st3]; exact hb0.1
  obtain ⟨g3', x3'⟩ := switch_good g3 (b := st.count) (by rw [hc3]; bomega) hst3
    (.inr (by rw [← hs3]; exact hpred2))
  have op3 := switch_open g3 hst3
  obtain ⟨g4, m4, v4⟩ := lowerExpr_good o S e _ v s4 g3' op3 h4
  have hc4 : s4.count = st.count + 3 := m4.count.trans hc3
  have st4 : ∀ c, c ≠ st.count → s4.g.start c = st.g.start c := by
    intro c hc; rw [m4.start, switch_start hc, st3]
  have se4 : s4.sealed = st.sealed := m4.sealed.trans se3
  have cu4 : s4.current = st.count := m4.keep.current
  have e5 := terminate_ended g4 (by
    intro b hb
    simp only [Terminator.targets, List.mem_cons, List.not_mem_nil, or_false] at hb
    rcases hb with rfl | rfl
    · exact ⟨by rw [hc4]; bomega, .inl (by rw [st4 _ (by bomega)]; exact hb1.1)⟩
    · exact ⟨by rw [hc4]; bomega, .inl (by rw [st4 _ (by bomega)]; exact hb2.1)⟩) h5
  have hc5 : s5.count = st.count + 3 := e5.count.trans hc4
  obtain ⟨g6, e6⟩ := seal_good hord e5.good (b := st.count + 1) (by rw [hc5]; bomega) h6
  have hc6 : s6.count = st.count + 3 := e6.count.trans hc5
  obtain ⟨g7, e7⟩ := seal_good hord g6 (b := st.count + 2) (by rw [hc6]; bomega) h7
  have hc7 : s7.count = st.count + 3 := e7.count.trans hc6
  have st7 : ∀ c, c ≠ st.count → s7.g.start c = st.g.start c := by
    intro c hc; rw [e7.start, e6.start, e5.start, st4 c hc]
  have hse7 : s7.sealed (st.count + 1) = true ∧ s7.sealed (st.count + 2) = true ∧ s7.sealed st.count = false := by
    refine ⟨(e7.within (c := 0) (Nat.zero_le _)).mono _ e6.sealed_self, e7.sealed_self, ?_⟩
    rw [e7.sealed, Function.update_of_ne (by bomega), e6.sealed, Function.update_of_ne (by bomega), e5.sealed, se4]
    exact hb0.2.2
  have hl7 : s7.loops = (st.count, st.count + 2) :: st.loops := by
    rw [e7.loops, e6.loops, e5.loops, m4.loops]; exact hl3
  have w7 : Within st.count st s7 :=
    ((((((w2.trans w3).trans (switch_within x3' le_rfl)).trans (m4.within _)).trans
      (e5.within (.inr rfl))).trans (e6.within (Nat.le_add_right _ _))).trans (e7.within (Nat.le_add_right _ _)))
  have hst7 : s7.g.start (st.count + 1) = none := by rw [st7 _ (by bomega)]; exact hb1.1
  obtain ⟨g7', x7'⟩ := switch_good g7 (b := st.count + 1) (by rw [hc7]; bomega) hst7 (.inl hse7.1)
  have w7' : Within st.count st (s7.switch (st.count + 1)) := w7.trans (switch_within x7' (Nat.le_add_right _ _))
  have hlo7 : LoopsOk (s7.switch (st.count + 1)) := by
    intro l hm
    have hm' : l ∈ (st.count, st.count + 2) :: st.loops := by rw [← hl7]; exact hm
    rcases List.mem_cons.1 hm' with rfl | hm'
    · refine ⟨⟨by show _ < s7.count; rw [hc7]; bomega, .inr hse7.2.2⟩,
        ⟨by show _ < s7.count; rw [hc7]; bomega, .inl ?_⟩⟩
      show (s7.switch (st.count + 1)).g.start (st.count + 2) = none
      rw [switch_start (by bomega), st7 _ (by bomega)]; exact hb2.1
    · obtain ⟨h1, h2⟩ := hl l hm'
      exact ⟨h1.within h1.1 w7', h2.within h2.1 w7'⟩
  obtain ⟨g8, f8, sim8⟩ := hB _ _ g7' (switch_open g7 hst7) hlo7 h8
  have hcle8 : st.count + 3 ≤ s8.count := by
    have : s7.count ≤ s8.count := f8.ext.count
    bomega
  have hse8 : s8.sealed st.count = false := by
    rw [f8.within.sealed _ (by show _ < s7.count; rw [hc7]; bomega)]
    exact hse7.2.2
  have hst8 : s8.g.start (st.count + 2) = none := by
    rw [f8.within.start _ (by show _ < s7.count; rw [hc7]; bomega), switch_start (by bomega), st7 _ (by bomega)]
    exact hb2.1
  -- the jump back
  obtain ⟨g9, x9, st9, se9, c9, l9, cu9, w9, end9⟩ := jumpIfOpen_good g8 (b := st.count) ⟨by bomega, .inr hse8⟩ h9
  obtain ⟨g10, e10⟩ := seal_good hord g9 (b := st.count) (by rw [c9]; bomega) h10
  have hl10 : s10.loops.tail = st.loops := by
    rw [e10.loops, l9, f8.loops]
    show s7.loops.tail = _
    rw [hl7]; rfl
  obtain ⟨g11, x11⟩ := withLoops_good g10 s10.loops.tail
  have w11 := withLoops_within g10 s10.loops.tail st.count
  change Good [] ((s10.withLoops s10.loops.tail).switch (st.count + 2)) ∧
    Frame st ((s10.withLoops s10.loops.tail).switch (st.count + 2)) ∧ ∀ F f, _ →
    Ext ((s10.withLoops s10.loops.tail).switch (st.count + 2)) f → ∀ n s env, _ → _ →
      Out S calls F f st.loops ((s10.withLoops s10.loops.tail).switch (st.count + 2)) _ _ _
  generalize hs11 : s10.withLoops s10.loops.tail = s11 at *
  have st11 : s11.g.start = s8.g.start := by rw [← hs11, ← st9, ← e10.start]; rfl
  have hst11 : s11.g.start (st.count + 2) = none := by rw [st11]; exact hst8
  have hc11 : st.count + 2 < s11.count := by
    have : s11.count = s8.count := by rw [← c9, ← e10.count, ← hs11]; rfl
    bomega
  have w8_11 : Within st.count s8 s11 := ((w9 st.count).trans (e10.within le_rfl)).trans w11
  have hse11h : s11.sealed st.count = true := by rw [← hs11]; exact e10.sealed_self
  have hse11x : s11.sealed (st.count + 2) = true := w8_11.mono _ (f8.within.mono _ hse7.2.1)
  have hse11b : s11.sealed (st.count + 1) = true := w8_11.mono _ (f8.within.mono _ hse7.1)
  obtain ⟨g12, x12⟩ := switch_good g11 (b := st.count + 2) hc11 hst11 (.inl hse11x)
  have w8 : Within st.count st s8 := w7'.trans (f8.within.le (by show _ ≤ s7.count; bomega))
  have w12 : Within st.count st (s11.switch (st.count + 2)) :=
    (w8.trans w8_11).trans (switch_within x12 (Nat.le_add_right _ _))
  refine ⟨g12, ⟨w12, ?_, ?_⟩, ?_⟩
  · show s11.loops = st.loops
    rw [← hs11]; exact hl10
  · intro c hb k hk
    show s11.sealed c = true
    by_cases hb' : c = st.count + 2
    · subst hb'; exact hse11x
    · rw [switch_start hb', st11] at hk
      by_cases hlt : c < s7.count
      · have hbe : c = st.count ∨ c = st.count + 1 := by bomega
        rcases hbe with rfl | rfl
        · exact hse11h
        · exact hse11b
      · exact w8_11.mono _ (f8.fresh c (not_lt.1 hlt) k hk)
  · intro F f hF hsf n s env hty hm
    have h11f := x12.trans hsf
    have h8f := w8_11.ext.trans h11f
    have h7f := f8.ext.trans h8f
    have h5f := ((e6.ext.trans e7.ext).trans x7').trans h7f
    have h4f := e5.ext.trans h5f
    have h3f := m4.ext.trans h4f
    have h2f := (x3.trans x3').trans h3f
    obtain ⟨l1, l2⟩ := leave (calls := calls) (p := st) hF h2f e2.cur (e2.instrs _)
      (by rw [e2.start]; exact hg.running.2) (.inr (by show (s2.blocks (st.grow 3).current).term ≠ _; rw [e2.term]; simp))
      h2f e2.term (by simp)
    have main : ∀ n s a env, Typed S s → EdgeMatch f a st.count s env →
        Out S calls F f st.loops (s11.switch (st.count + 2)) (n - d)
          (fun m => Lang.exec calls F m (some a) st.count env) (exL n s) := by
      intro n
      induction n with
      | zero => intro s a env _ _; rw [hL0]; exact fun k hk => absurd hk (by omega)
      | succ n ih =>
        intro s a env hty hed
        obtain ⟨env1, a1, a2⟩ := arrive (calls := calls) hF g3 (by rw [hc3]; bomega) hst3 h3f hed
        refine Out.less (by omega) (Out.step (b := n - d) (R' := go calls F f (s3.switch st.count) env1) 0 a1 rfl ?_)
        have hes := lowerExpr_sim o S hc hF e _ v s4 g3' op3 h4 h4f .bool hok.1 hok.2 s env1 hty a2
        rw [hL]
        cases hev : eval false calls s e with
        | none =>
          rw [hev] at hes
          exact ⟨0, fun n => hes n⟩
        | some y =>
          rw [hev] at hes
          obtain ⟨hyt, env2, hgo2, hag2, hrep⟩ := hes
          have hm2 := match_keep g3' hF.good m4.ext h4f m4.keep a2 hag2
          cases y <;> simp [valTy] at hyt
          rename_i y
          obtain ⟨k1, k2⟩ := leave (calls := calls) (p := s4) hF h5f e5.cur (e5.instrs _)
            (by rw [e5.start]; exact g4.running.2) (.inr (by rw [e5.term]; simp)) h5f e5.term (by simp)
          cases y with
          | false =>
            obtain ⟨env3, b1, b2⟩ := arrive (calls := calls) hF g11 hc11 hst11 hsf
              (k2 (st.count + 2) (by simp [Terminator.targets]) s env2 hm2)
            refine ⟨switch_open g11 hst11, hty, env3, 1, b2, fun n => ?_⟩
            rw [hgo2, k1, ← b1 n]
            exact after_if hrep _
          | true =>
            obtain ⟨env3, b1, b2⟩ := arrive (calls := calls) hF g7 (by rw [hc7]; bomega) hst7 h7f
              (k2 (st.count + 1) (by simp [Terminator.targets]) s env2 hm2)
            refine Out.pre (R' := go calls F f (s7.switch (st.count + 1)) env3) 1 (fun n => ?_) ?_
            · rw [hgo2, k1, ← b1 n]
              exact after_if hrep _
            have h := sim8 F f hF h8f n s env3 hty b2
            rw [show (s7.switch (st.count + 1)).loops = (st.count, st.count + 2) :: st.loops from hl7] at h
            simp only
            cases hx : ex n s with
            | normal s' =>
              rw [hx] at h
              obtain ⟨hp, hty', env', N, hm', hgo⟩ := h
              have e9 := end9 hp
              have h9f := (e10.ext.trans x11).trans h11f
              obtain ⟨l1, l2⟩ := leave (calls := calls) (p := s8) hF h9f e9.cur (e9.instrs _)
                (by rw [e9.start]; exact g8.running.2) (.inr (by rw [e9.term]; simp)) h9f e9.term (by simp)
              refine (ih s' s8.current env' hty' (l2 st.count (by simp [Terminator.targets]) s' env' hm')).pre N ?_
              intro n
              rw [hgo, l1]; rfl
            | cont s' =>
              rw [hx] at h
              obtain ⟨hty', l, hl, a', env', N, hed', hgo⟩ := h
              simp only [List.head?_cons, Option.some.injEq] at hl
              subst hl
              exact (ih s' a' env' hty' hed').pre N hgo
            | brk s' =>
              rw [hx] at h
              obtain ⟨hty', l, hl, a', env', N, hed', hgo⟩ := h
              simp only [List.head?_cons, Option.some.injEq] at hl
              subst hl
              obtain ⟨env2, b1, b2⟩ := arrive (calls := calls) hF g11 hc11 hst11 hsf hed'
              refine ⟨switch_open g11 hst11, hty', env2, 1 + N, b2, fun n => ?_⟩
              rw [← Nat.add_assoc, hgo, ← b1 n]
            | ret vs => rw [hx] at h; exact h
            | fault => rw [hx] at h; exact h
            | timeout => rw [hx] at h; exact Out.less (x := .timeout) (by omega) h
    refine (main n s st.current env hty (l2 st.count (by simp [Terminator.targets]) s env hm)).less (by omega) |>.pre 0 ?_
    intro n
    rw [Nat.add_zero, l1]; rfl

end Lower
end CairoM
