import Verif.LoweringFlow

/-!
# The lowering: `for` loops

Helper lemmas.
-/

namespace CairoM
namespace Lower

open Mir Lang Source

variable {st : St} {calls : Calls}

theorem for_ok {S : Sem} {rets : List Ty} {o : Opts} (hord : ∀ l, (o.order l).Perm l) (hc : CallsTyped S calls)
    {e : Expr} (hok : e.ok S .bool = true)
    {low lowS : St → Option St} {ex exS exL : ℕ → Store → Outcome} {d : ℕ}
    (hB : StmtOk S calls rets d low ex)
    (hS : StmtOkL (fun _ => True) S calls rets d lowS exS)
    (hsimple : ∀ n s s', exS n s ≠ .brk s' ∧ exS n s ≠ .cont s')
    (hL : ∀ n s, exL n s = exec.forLoop (eval false calls · e) (ex n) (exS n) n s) :
    StmtOk S calls rets (d + 1) (fun st => do
      let (h, st) := st.newBlock
      let (b, st) := st.newBlock
      let (s, st) := st.newBlock
      let (x, st) := st.newBlock
      let st ← st.terminate (.Jump h)
      let st := { st with loops := (s, x) :: st.loops }
      let (v, st) ← lowerExpr o S e (st.switch h)
      let st ← st.terminate (.If v b x)
      let st ← st.seal o b
      let st ← st.seal o x
      let st ← low (st.switch b)
      let st ← st.jumpIfOpen s
      let st ← st.seal o s
      let st ← lowS (st.switch s)
      let st ← st.jumpIfOpen h
      let st ← st.seal o h
      some ({ st with loops := st.loops.tail }.switch x)) exL := by
  intro st st' hg ho hl h
  simp only [Expr.ok, Bool.and_eq_true, decide_eq_true_eq] at hok
  simp only [newBlock_grow hg] at h
  simp only [newBlock_grow (grow_good hg 1).1] at h
  simp only [show (st.grow 1).grow 1 = st.grow 2 from rfl, newBlock_grow (grow_good hg 2).1] at h
  simp only [show (st.grow 2).grow 1 = st.grow 3 from rfl, newBlock_grow (grow_good hg 3).1] at h
  simp only [show (st.grow 3).grow 1 = st.grow 4 from rfl, show (st.grow 1).count = st.count + 1 from rfl,
    show (st.grow 2).count = st.count + 2 from rfl, show (st.grow 3).count = st.count + 3 from rfl,
    Option.bind_eq_bind, Option.bind_eq_some_iff, Option.some.injEq] at h
  obtain ⟨s2, h2, ⟨v, s4⟩, h4, s5, h5, s6, h6, s7, h7, s8, h8, s9, h9, s10, h10, s11, h11, s12, h12, s13, h13,
    rfl⟩ := h
  have hgr := grow_good hg 4
  have hc2' : (st.grow 4).count = st.count + 4 := rfl
  have hb0 := hg.beyond st.count le_rfl
  have hb1 := hg.beyond (st.count + 1) (Nat.le_add_right _ _)
  have hb2 := hg.beyond (st.count + 2) (Nat.le_add_right _ _)
  have hb3 := hg.beyond (st.count + 3) (Nat.le_add_right _ _)
  have e2 := terminate_ended hgr.1 (by
    intro b hb
    simp only [Terminator.targets, List.mem_cons, List.not_mem_nil, or_false] at hb
    subst hb
    exact ⟨by rw [hc2']; bomega, .inl hb0.1⟩) h2
  have hc2 : s2.count = st.count + 4 := e2.count
  have st2 : s2.g.start = st.g.start := by rw [e2.start]; rfl
  have se2 : s2.sealed = st.sealed := by rw [e2.sealed]; rfl
  have hl2 : s2.loops = st.loops := by rw [e2.loops]; rfl
  have hpred2 : (s2.blocks st.count).preds ≠ [] := by
    intro hnil
    have := e2.pred st.count (by simp [Terminator.targets])
    rw [hnil] at this; cases this
  have w2 : Within st.count st s2 := (grow_within hg 4 _).trans (e2.within (.inr rfl))
  -- the header
  change lowerExpr o S e ((s2.withLoops ((st.count + 2, st.count + 3) :: s2.loops)).switch st.count) =
    some (v, s4) at h4
  obtain ⟨g3, x3⟩ := withLoops_good e2.good ((st.count + 2, st.count + 3) :: s2.loops)
  have w3 := withLoops_within e2.good ((st.count + 2, st.count + 3) :: s2.loops) st.count
  generalize hs3 : s2.withLoops ((st.count + 2, st.count + 3) :: s2.loops) = s3 at *
  have hc3 : s3.count = st.count + 4 := by rw [← hs3]; exact hc2
  have st3 : s3.g.start = st.g.start := by rw [← hs3]; exact st2
  have se3 : s3.sealed = st.sealed := by rw [← hs3]; exact se2
  have hl3 : s3.loops = (st.count + 2, st.count + 3) :: st.loops := by rw [← hs3, ← hl2]; rfl
  have hst3 : s3.g.start st.count = none := by rw [st3]; exact hb0.1
  obtain ⟨g3', x3'⟩ := switch_good g3 (b := st.count) (by rw [hc3]; bomega) hst3
    (.inr (by rw [← hs3]; exact hpred2))
  have op3 := switch_open g3 hst3
  obtain ⟨g4, m4, v4⟩ := lowerExpr_good o S e _ v s4 g3' op3 h4
  have hc4 : s4.count = st.count + 4 := m4.count.trans hc3
  have st4 : ∀ c, c ≠ st.count → s4.g.start c = st.g.start c := by
    intro c hc; rw [m4.start, switch_start hc, st3]
  have se4 : s4.sealed = st.sealed := m4.sealed.trans se3
  have cu4 : s4.current = st.count := m4.keep.current
  have e5 := terminate_ended g4 (by
    intro b hb
    simp only [Terminator.targets, List.mem_cons, List.not_mem_nil, or_false] at hb
    rcases hb with rfl | rfl
    · exact ⟨by rw [hc4]; bomega, .inl (by rw [st4 _ (by bomega)]; exact hb1.1)⟩
    · exact ⟨by rw [hc4]; bomega, .inl (by rw [st4 _ (by bomega)]; exact hb3.1)⟩) h5
  have hc5 : s5.count = st.count + 4 := e5.count.trans hc4
  obtain ⟨g6, e6⟩ := seal_good hord e5.good (b := st.count + 1) (by rw [hc5]; bomega) h6
  have hc6 : s6.count = st.count + 4 := e6.count.trans hc5
  obtain ⟨g7, e7⟩ := seal_good hord g6 (b := st.count + 3) (by rw [hc6]; bomega) h7
  have hc7 : s7.count = st.count + 4 := e7.count.trans hc6
  have st7 : ∀ c, c ≠ st.count → s7.g.start c = st.g.start c := by
    intro c hc; rw [e7.start, e6.start, e5.start, st4 c hc]
  have hse7 : s7.sealed (st.count + 1) = true ∧ s7.sealed (st.count + 3) = true ∧ s7.sealed st.count = false ∧
      s7.sealed (st.count + 2) = false := by
    refine ⟨(e7.within (c := 0) (Nat.zero_le _)).mono _ e6.sealed_self, e7.sealed_self, ?_, ?_⟩
    · rw [e7.sealed, Function.update_of_ne (by bomega), e6.sealed, Function.update_of_ne (by bomega), e5.sealed, se4]
      exact hb0.2.2
    · rw [e7.sealed, Function.update_of_ne (by bomega), e6.sealed, Function.update_of_ne (by bomega), e5.sealed, se4]
      exact hb2.2.2
  have hl7 : s7.loops = (st.count + 2, st.count + 3) :: st.loops := by
    rw [e7.loops, e6.loops, e5.loops, m4.loops]; exact hl3
  have w7 : Within st.count st s7 :=
    ((((((w2.trans w3).trans (switch_within x3' le_rfl)).trans (m4.within _)).trans
      (e5.within (.inr rfl))).trans (e6.within (Nat.le_add_right _ _))).trans (e7.within (Nat.le_add_right _ _)))
  have hst7 : s7.g.start (st.count + 1) = none := by rw [st7 _ (by bomega)]; exact hb1.1
  obtain ⟨g7', x7'⟩ := switch_good g7 (b := st.count + 1) (by rw [hc7]; bomega) hst7 (.inl hse7.1)
  have w7' : Within st.count st (s7.switch (st.count + 1)) := w7.trans (switch_within x7' (Nat.le_add_right _ _))
  have hlo7 : LoopsOk (s7.switch (st.count + 1)) := by
    intro l hm
    have hm' : l ∈ (st.count + 2, st.count + 3) :: st.loops := by rw [← hl7]; exact hm
    rcases List.mem_cons.1 hm' with rfl | hm'
    · refine ⟨⟨by show _ < s7.count; rw [hc7]; bomega, .inr hse7.2.2.2⟩,
        ⟨by show _ < s7.count; rw [hc7]; bomega, .inl ?_⟩⟩
      show (s7.switch (st.count + 1)).g.start (st.count + 3) = none
      rw [switch_start (by bomega), st7 _ (by bomega)]; exact hb3.1
    · obtain ⟨h1, h2⟩ := hl l hm'
      exact ⟨h1.within h1.1 w7', h2.within h2.1 w7'⟩
  obtain ⟨g8, f8, sim8⟩ := hB _ _ g7' (switch_open g7 hst7) hlo7 h8
  have hcle8 : st.count + 4 ≤ s8.count := by
    have : s7.count ≤ s8.count := f8.ext.count
    bomega
  have hse8 : ∀ c, c < st.count + 4 → s8.sealed c = s7.sealed c := by
    intro c hc'
    exact f8.within.sealed c (by show _ < s7.count; rw [hc7]; bomega)
  have hst8 : ∀ c, c < st.count + 4 → c ≠ st.count + 1 → c ≠ st.count → s8.g.start c = st.g.start c := by
    intro c h1 h2 h3
    rw [f8.within.start _ (by show _ < s7.count; rw [hc7]; bomega), switch_start h2, st7 _ h3]
  -- the step
  obtain ⟨g9, x9, st9, se9, c9, l9, cu9, w9, end9⟩ := jumpIfOpen_good g8 (b := st.count + 2)
    ⟨by bomega, .inr (by rw [hse8 _ (by bomega)]; exact hse7.2.2.2)⟩ h9
  obtain ⟨g10, e10⟩ := seal_good hord g9 (b := st.count + 2) (by rw [c9]; bomega) h10
  have hc10 : s10.count = s8.count := e10.count.trans c9
  have st10 : s10.g.start = s8.g.start := e10.start.trans st9
  have hst10 : s10.g.start (st.count + 2) = none := by
    rw [st10, hst8 _ (by bomega) (by bomega) (by bomega)]; exact hb2.1
  obtain ⟨g10', x10'⟩ := switch_good g10 (b := st.count + 2) (by bomega) hst10 (.inl e10.sealed_self)
  have w8 : Within st.count st s8 := w7'.trans (f8.within.le (by show _ ≤ s7.count; bomega))
  have w8_10 : Within st.count s8 (s10.switch (st.count + 2)) :=
    ((w9 st.count).trans (e10.within (Nat.le_add_right _ _))).trans (switch_within x10' (Nat.le_add_right _ _))
  have hl10 : s10.loops = (st.count + 2, st.count + 3) :: st.loops := by
    rw [e10.loops, l9, f8.loops]; exact hl7
  have hstx : (s10.switch (st.count + 2)).g.start (st.count + 3) = none := by
    rw [switch_start (by bomega), st10, hst8 _ (by bomega) (by bomega) (by bomega)]; exact hb3.1
  obtain ⟨g11, f11, sim11⟩ := hS _ _ g10' (switch_open g10 hst10) trivial h11
  have hcle11 : st.count + 4 ≤ s11.count := by
    have : s10.count ≤ s11.count := f11.ext.count
    bomega
  have hcs10 : (s10.switch (st.count + 2)).count = s8.count := hc10
  have hse11 : s11.sealed st.count = false := by
    rw [f11.within.sealed _ (by rw [hcs10]; bomega)]
    show s10.sealed st.count = false
    rw [e10.sealed, Function.update_of_ne (by bomega), se9, hse8 _ (by bomega)]
    exact hse7.2.2.1
  have hst11 : s11.g.start (st.count + 3) = none := by
    rw [f11.within.start _ (by rw [hcs10]; bomega)]; exact hstx
  have hse10 : ∀ c, s8.sealed c = true → s11.sealed c = true := fun c hcs =>
    f11.within.mono _ (w8_10.mono _ hcs)
  -- the jump back
  obtain ⟨g12, x12, st12, se12, c12, l12, cu12, w12, end12⟩ := jumpIfOpen_good g11 (b := st.count)
    ⟨by bomega, .inr hse11⟩ h12
  obtain ⟨g13, e13⟩ := seal_good hord g12 (b := st.count) (by rw [c12]; bomega) h13
  have hl13 : s13.loops.tail = st.loops := by
    rw [e13.loops, l12, f11.loops]
    show s10.loops.tail = _
    rw [hl10]; rfl
  obtain ⟨g14, x14⟩ := withLoops_good g13 s13.loops.tail
  have w14 := withLoops_within g13 s13.loops.tail st.count
  change Good [] ((s13.withLoops s13.loops.tail).switch (st.count + 3)) ∧
    Frame st ((s13.withLoops s13.loops.tail).switch (st.count + 3)) ∧ ∀ F f, _ →
    Ext ((s13.withLoops s13.loops.tail).switch (st.count + 3)) f → ∀ n s env, _ → _ →
      Out S calls F f st.loops ((s13.withLoops s13.loops.tail).switch (st.count + 3)) _ _ _
  generalize hs14 : s13.withLoops s13.loops.tail = s14 at *
  have st14 : s14.g.start = s11.g.start := by rw [← hs14, ← st12, ← e13.start]; rfl
  have hst14 : s14.g.start (st.count + 3) = none := by rw [st14]; exact hst11
  have hc14 : st.count + 3 < s14.count := by
    have : s14.count = s11.count := by rw [← c12, ← e13.count, ← hs14]; rfl
    bomega
  have w11_14 : Within st.count s11 s14 := ((w12 st.count).trans (e13.within le_rfl)).trans w14
  have hse14h : s14.sealed st.count = true := by rw [← hs14]; exact e13.sealed_self
  have hse14x : s14.sealed (st.count + 3) = true :=
    w11_14.mono _ (hse10 _ (by rw [hse8 _ (by bomega)]; exact hse7.2.1))
  have hse14b : s14.sealed (st.count + 1) = true :=
    w11_14.mono _ (hse10 _ (by rw [hse8 _ (by bomega)]; exact hse7.1))
  have hse14s : s14.sealed (st.count + 2) = true := w11_14.mono _ (f11.within.mono _ e10.sealed_self)
  obtain ⟨g15, x15⟩ := switch_good g14 (b := st.count + 3) hc14 hst14 (.inl hse14x)
  have w11 : Within st.count st s11 := (w8.trans w8_10).trans (f11.within.le (by rw [hcs10]; bomega))
  have w15 : Within st.count st (s14.switch (st.count + 3)) :=
    (w11.trans w11_14).trans (switch_within x15 (Nat.le_add_right _ _))
  refine ⟨g15, ⟨w15, ?_, ?_⟩, ?_⟩
  · show s14.loops = st.loops
    rw [← hs14]; exact hl13
  · intro c hb k hk
    show s14.sealed c = true
    by_cases hb' : c = st.count + 3
    · subst hb'; exact hse14x
    · rw [switch_start hb', st14] at hk
      by_cases hlt : c < s7.count
      · have hbe : c = st.count ∨ c = st.count + 1 ∨ c = st.count + 2 := by bomega
        rcases hbe with rfl | rfl | rfl
        · exact hse14h
        · exact hse14b
        · exact hse14s
      · by_cases hlt' : c < s8.count
        · rw [f11.within.start c (by rw [hcs10]; exact hlt'), switch_start (by bomega), st10] at hk
          exact w11_14.mono _ (hse10 _ (f8.fresh c (not_lt.1 hlt) k hk))
        · exact w11_14.mono _ (f11.fresh c (by rw [hcs10]; exact not_lt.1 hlt') k hk)
  · intro F f hF hsf n s env hty hm
    have h14f := x15.trans hsf
    have h11f := w11_14.ext.trans h14f
    have h10f := f11.ext.trans h11f
    have h9f := (e10.ext.trans x10').trans h10f
    have h8f := w8_10.ext.trans h10f
    have h7f := f8.ext.trans h8f
    have h5f := ((e6.ext.trans e7.ext).trans x7').trans h7f
    have h4f := e5.ext.trans h5f
    have h3f := m4.ext.trans h4f
    have h2f := (x3.trans x3').trans h3f
    obtain ⟨l1, l2⟩ := leave (calls := calls) (p := st) hF h2f e2.cur (e2.instrs _)
      (by rw [e2.start]; exact hg.running.2) (.inr (by show (s2.blocks (st.grow 4).current).term ≠ _; rw [e2.term]; simp))
      h2f e2.term (by simp)
    -- from the block of the step
    have step : ∀ m k s a env, (∀ s a env, Typed S s → EdgeMatch f a st.count s env →
        Out S calls F f st.loops (s14.switch (st.count + 3)) (min k (m + 1 - d)) (fun m => Lang.exec calls F m (some a) st.count env)
          (exec.forLoop (eval false calls · e) (ex m) (exS m) k s)) → Typed S s →
        EdgeMatch f a (st.count + 2) s env →
        Out S calls F f st.loops (s14.switch (st.count + 3)) (min k (m + 1 - d))
          (fun m => Lang.exec calls F m (some a) (st.count + 2) env) (match exS m s with
            | .normal s' => exec.forLoop (eval false calls · e) (ex m) (exS m) k s'
            | x => x) := by
      intro m k s a env ih hty hed
      obtain ⟨env1, a1, a2⟩ := arrive (calls := calls) hF g10 (by bomega) hst10 h10f hed
      refine Out.pre (R' := go calls F f (s10.switch (st.count + 2)) env1) 1 a1 ?_
      have h := sim11 F f hF h11f m s env1 hty a2
      cases hx : exS m s with
      | normal s' =>
        rw [hx] at h
        obtain ⟨hp, hty', env', N, hm', hgo⟩ := h
        have e12 := end12 hp
        have h12f := (e13.ext.trans x14).trans h14f
        obtain ⟨l1, l2⟩ := leave (calls := calls) (p := s11) hF h12f e12.cur (e12.instrs _)
          (by rw [e12.start]; exact g11.running.2) (.inr (by rw [e12.term]; simp)) h12f e12.term (by simp)
        refine (ih s' s11.current env' hty' (l2 st.count (by simp [Terminator.targets]) s' env' hm')).pre N ?_
        intro n
        rw [hgo, l1]; rfl
      | cont s' => exact absurd hx (hsimple m s s').2
      | brk s' => exact absurd hx (hsimple m s s').1
      | ret vs => rw [hx] at h; exact h
      | fault => rw [hx] at h; exact h
      | timeout => rw [hx] at h; exact Out.less (x := .timeout) (by omega) h
    have main : ∀ m k s a env, Typed S s → EdgeMatch f a st.count s env →
        Out S calls F f st.loops (s14.switch (st.count + 3)) (min k (m + 1 - d))
          (fun m => Lang.exec calls F m (some a) st.count env)
          (exec.forLoop (eval false calls · e) (ex m) (exS m) k s) := by
      intro m k
      induction k with
      | zero => intro s a env _ _; simp only [exec.forLoop]; exact fun k hk => absurd hk (by omega)
      | succ k ih =>
        intro s a env hty hed
        obtain ⟨env1, a1, a2⟩ := arrive (calls := calls) hF g3 (by rw [hc3]; bomega) hst3 h3f hed
        refine Out.less (by omega) (Out.step (b := min k (m + 1 - d)) (R' := go calls F f (s3.switch st.count) env1) 0 a1
          rfl ?_)
        have hes := lowerExpr_sim o S hc hF e _ v s4 g3' op3 h4 h4f .bool hok.1 hok.2 s env1 hty a2
        simp only [exec.forLoop]
        cases hev : eval false calls s e with
        | none =>
          rw [hev] at hes
          exact ⟨0, fun n => hes n⟩
        | some y =>
          rw [hev] at hes
          obtain ⟨hyt, env2, hgo2, hag2, hrep⟩ := hes
          have hm2 := match_keep g3' hF.good m4.ext h4f m4.keep a2 hag2
          cases y <;> simp [valTy] at hyt
          rename_i y
          obtain ⟨k1, k2⟩ := leave (calls := calls) (p := s4) hF h5f e5.cur (e5.instrs _)
            (by rw [e5.start]; exact g4.running.2) (.inr (by rw [e5.term]; simp)) h5f e5.term (by simp)
          cases y with
          | false =>
            obtain ⟨env3, b1, b2⟩ := arrive (calls := calls) hF g14 hc14 hst14 hsf
              (k2 (st.count + 3) (by simp [Terminator.targets]) s env2 hm2)
            refine ⟨switch_open g14 hst14, hty, env3, 1, b2, fun n => ?_⟩
            rw [hgo2, k1, ← b1 n]
            exact after_if hrep _
          | true =>
            obtain ⟨env3, b1, b2⟩ := arrive (calls := calls) hF g7 (by rw [hc7]; bomega) hst7 h7f
              (k2 (st.count + 1) (by simp [Terminator.targets]) s env2 hm2)
            refine Out.pre (R' := go calls F f (s7.switch (st.count + 1)) env3) 1 (fun n => ?_) ?_
            · rw [hgo2, k1, ← b1 n]
              exact after_if hrep _
            have h := sim8 F f hF h8f m s env3 hty b2
            rw [show (s7.switch (st.count + 1)).loops = (st.count + 2, st.count + 3) :: st.loops from hl7] at h
            simp only
            cases hx : ex m s with
            | normal s' =>
              rw [hx] at h
              obtain ⟨hp, hty', env', N, hm', hgo⟩ := h
              have e9 := end9 hp
              obtain ⟨l1, l2⟩ := leave (calls := calls) (p := s8) hF h9f e9.cur (e9.instrs _)
                (by rw [e9.start]; exact g8.running.2) (.inr (by rw [e9.term]; simp)) h9f e9.term (by simp)
              refine (step m k s' s8.current env' ih hty'
                (l2 (st.count + 2) (by simp [Terminator.targets]) s' env' hm')).pre N ?_
              intro n
              rw [hgo, l1]; rfl
            | cont s' =>
              rw [hx] at h
              obtain ⟨hty', l, hl, a', env', N, hed', hgo⟩ := h
              simp only [List.head?_cons, Option.some.injEq] at hl
              subst hl
              exact (step m k s' a' env' ih hty' hed').pre N hgo
            | brk s' =>
              rw [hx] at h
              obtain ⟨hty', l, hl, a', env', N, hed', hgo⟩ := h
              simp only [List.head?_cons, Option.some.injEq] at hl
              subst hl
              obtain ⟨env2, b1, b2⟩ := arrive (calls := calls) hF g14 hc14 hst14 hsf hed'
              refine ⟨switch_open g14 hst14, hty', env2, 1 + N, b2, fun n => ?_⟩
              rw [← Nat.add_assoc, hgo, ← b1 n]
            | ret vs => rw [hx] at h; exact h
            | fault => rw [hx] at h; exact h
            | timeout => rw [hx] at h; exact Out.less (x := .timeout) (by omega) h
    rw [hL]
    refine (main n n s st.current env hty (l2 st.count (by simp [Terminator.targets]) s env hm)).less (by omega) |>.pre 0 ?_
    intro n
    rw [Nat.add_zero, l1]; rfl

end Lower
end CairoM
