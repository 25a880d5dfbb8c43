import Verif.LoweringMain

/-!
# Whole functions: the parameters, the finished function

The state after the parameters meets the invariant; a finished function in which every name is defined meets what
the simulation assumes of the final state.
-/

namespace CairoM
namespace Lower

open Mir Lang Source

variable {calls : Calls}

/-! ### More steps do not change a result -/

theorem run_more {F : Function} {n : ℕ} {args : List Val} (h : Lang.run calls F n args ≠ .unfinished) (m : ℕ) :
    Lang.run calls F (n + m) args = Lang.run calls F n args := by
  simp only [Lang.run] at h ⊢
  cases hb : Lang.bind (fun _ => none) F.params args with
  | none => rfl
  | some env =>
    rw [hb] at h
    exact exec_mono calls F none 0 env n m h

/-! ### Closed functions -/

/-- The names that a function defines: its parameters and the destinations of its instructions. -/
def defined (F : Function) : List ValueId :=
  F.params ++ (F.blocks.flatMap Block.instrs).flatMap Instr.destinations

/-- Every name that a function uses is defined in it, and nothing is merged at its entry. -/
def closed (F : Function) : Bool :=
  (F.blocks.all fun b =>
    (b.instrs.all fun i => i.uses.all fun v => decide (v ∈ defined F)) &&
      b.term.uses.all fun v => decide (v ∈ defined F)) &&
  ((F.blocks.head?.map Block.instrs).getD []).all fun i => !isPhi i

theorem value_fix {τ : ValueId → ValueId} {v : Value} (h : ∀ x ∈ v.ids, τ x = x) : Value.rename τ v = v := by
  cases v with
  | Operand x => simp only [Value.rename]; rw [h x (by simp [Value.ids])]
  | Literal _ => rfl
  | Error => rfl

theorem values_fix {τ : ValueId → ValueId} {vs : List Value} (h : ∀ x ∈ valuesIds vs, τ x = x) :
    vs.map (Value.rename τ) = vs := by
  conv_rhs => rw [← List.map_id vs]
  refine List.map_congr_left fun v hv => ?_
  exact value_fix fun x hx => h x (by simp only [valuesIds, List.mem_flatMap]; exact ⟨v, hv, hx⟩)

theorem pairs_fix {α : Type} {τ : ValueId → ValueId} {vs : List (α × Value)}
    (h : ∀ x ∈ valuesIds (vs.map Prod.snd), τ x = x) : vs.map (fun s => (s.1, Value.rename τ s.2)) = vs := by
  conv_rhs => rw [← List.map_id vs]
  refine List.map_congr_left fun v hv => ?_
  have : Value.rename τ v.2 = v.2 := value_fix fun x hx => h x (by
    simp only [valuesIds, List.mem_flatMap, List.mem_map]
    exact ⟨v.2, ⟨v, hv, rfl⟩, hx⟩)
  rw [this]; rfl

theorem place_fix {τ : ValueId → ValueId} {p : Place} (h : ∀ x ∈ p.ids, τ x = x) : Place.rename τ p = p := by
  obtain ⟨b, ps⟩ := p
  simp only [Place.rename, Place.mk.injEq]
  refine ⟨h b (by simp [Place.ids]), ?_⟩
  conv_rhs => rw [← List.map_id ps]
  refine List.map_congr_left fun q hq => ?_
  cases q with
  | Index v =>
    have : Value.rename τ v = v := value_fix fun x hx => h x (by
      simp only [Place.ids, List.mem_cons, List.mem_flatMap]
      exact .inr ⟨_, hq, hx⟩)
    simp only [this, id]
  | _ => rfl

theorem instr_fix {τ : ValueId → ValueId} {i : Instr} (h : ∀ x ∈ i.uses, τ x = x) : Instr.rename τ i = i := by
  cases i <;> simp only [Instr.uses, List.mem_append] at h <;> simp only [Instr.rename] <;> first
    | rw [value_fix h]
    | rw [values_fix h]
    | rw [place_fix h]
    | rw [pairs_fix h]
    | rw [value_fix fun x hx => h x (.inl hx), value_fix fun x hx => h x (.inr hx)]
    | rw [place_fix fun x hx => h x (.inl hx), value_fix fun x hx => h x (.inr hx)]

theorem term_fix {τ : ValueId → ValueId} {t : Terminator} (h : ∀ x ∈ t.uses, τ x = x) : Terminator.rename τ t = t := by
  cases t <;> simp only [Terminator.uses, List.mem_append] at h <;> simp only [Terminator.rename] <;> first
    | rw [value_fix h]
    | rw [values_fix h]
    | rw [value_fix fun x hx => h x (.inl hx), value_fix fun x hx => h x (.inr hx)]

/-! ### The parameters -/

/-- The entry block is sealed; it has no incomplete phi nodes. -/
def St.sealZero (st : St) : St :=
  { st with sealed := Function.update st.sealed 0 true, incomplete := Function.update st.incomplete 0 [] }

theorem params_seal (S : Sem) : ∀ (xs : List Var) (st : St),
    lowerParams S xs st.sealZero = ((lowerParams S xs st).1, (lowerParams S xs st).2.sealZero)
  | [], st => rfl
  | x :: xs, st => by
    simp only [lowerParams]
    have := params_seal S xs ((st.newId (mirTy (S.varTy x))).2.write x (st.newId (mirTy (S.varTy x))).2.current
      (st.newId (mirTy (S.varTy x))).1)
    have e : (st.sealZero.newId (mirTy (S.varTy x))).2.write x (st.sealZero.newId (mirTy (S.varTy x))).2.current
        (st.sealZero.newId (mirTy (S.varTy x))).1 = St.sealZero ((st.newId (mirTy (S.varTy x))).2.write x
          (st.newId (mirTy (S.varTy x))).2.current (st.newId (mirTy (S.varTy x))).1) := rfl
    rw [e, this]; rfl

theorem params_incomplete (S : Sem) : ∀ (xs : List Var) (st : St),
    (lowerParams S xs st).2.incomplete = st.incomplete
  | [], st => rfl
  | x :: xs, st => by
    simp only [lowerParams]
    rw [params_incomplete S xs]; rfl

theorem initial_good : Good [] St.initial.sealZero where
  idem x := rfl
  subFresh x _ := rfl
  subLt x h := h
  subPlain x _ := rfl
  phiFresh x _ := rfl
  phis b φ h := by simp [St.initial, St.sealZero, BlockS.empty] at h
  nodup b := by simp [St.initial, St.sealZero, BlockS.empty]
  dests b i h := by simp [St.initial, St.sealZero, BlockS.empty] at h
  curLt v b x h := by simp [St.initial, St.sealZero] at h
  curStart v b x h := by simp [St.initial, St.sealZero] at h
  curStop v b x j h := by simp [St.initial, St.sealZero] at h
  curNow v x h := by simp [St.initial, St.sealZero] at h
  entCur v b e h := by simp [St.initial, St.sealZero] at h
  entFix v b e h := by simp [St.initial, St.sealZero] at h
  entStamp v b e k h := by simp [St.initial, St.sealZero] at h
  entry v b e h := by simp [St.initial, St.sealZero] at h
  waiting v b p h := by
    by_cases hb : b = 0
    · subst hb; simp [St.initial, St.sealZero] at h
    · simp [St.initial, St.sealZero] at h
  waitNodup b := by
    by_cases hb : b = 0
    · subst hb; simp [St.initial, St.sealZero]
    · simp [St.initial, St.sealZero]
  stack v b p h := by simp at h
  stackNodup := List.nodup_nil
  edge a b := by simp [St.initial, St.sealZero, BlockS.empty, Terminator.targets]
  forward b k h := by
    left
    simp only [St.initial, St.sealZero] at h
    split_ifs at h with hb
    subst hb
    simp [St.initial, St.sealZero, BlockS.empty]
  startLt b k h := by
    simp only [St.initial, St.sealZero] at h
    split_ifs at h with hb
    simp only [Option.some.injEq] at h
    subst h
    simp [St.initial, St.sealZero]
  stopLt b j h := by simp [St.initial, St.sealZero] at h
  stopped b k h hb := by
    simp only [St.initial, St.sealZero] at h hb
    split_ifs at h with hb'
    exact absurd hb' hb
  running := ⟨rfl, 0, rfl⟩
  unstarted b h := by
    refine ⟨rfl, rfl, rfl, ?_⟩
    by_cases hb : b = 0
    · subst hb; simp [St.initial, St.sealZero]
    · simp [St.initial, St.sealZero]
  beyond b h := by
    have hb : b ≠ 0 := Nat.one_le_iff_ne_zero.1 h
    refine ⟨by simp [St.initial, St.sealZero, hb], rfl, ?_⟩
    simp [St.initial, St.sealZero, Function.update_of_ne hb]
  types x t h := by simp [St.initial, St.sealZero] at h

/-- After the parameters, the values of the arguments are in the environment. -/
theorem params_ok (S : Sem) : ∀ (xs : List Var) (st : St), Good [] st → st.terminated = false →
    Good [] (lowerParams S xs st).2 ∧ Frame st (lowerParams S xs st).2 ∧ (lowerParams S xs st).2.terminated = false ∧
      (lowerParams S xs st).2.current = st.current ∧ (lowerParams S xs st).2.blocks = st.blocks ∧
      (lowerParams S xs st).2.count = st.count ∧ (lowerParams S xs st).2.sealed = st.sealed ∧
      (∀ d ∈ (lowerParams S xs st).1, d < (lowerParams S xs st).2.next ∧ (lowerParams S xs st).2.g.phi d = none) ∧
      ∀ F f rets, Fin F f rets → Ext (lowerParams S xs st).2 f → ∀ s env, Typed S s → Match f st s env → ∀ vs,
        vs.map valTy = xs.map S.varTy → ∃ s' env', bindParams s xs vs = some s' ∧
          Lang.bind env (lowerParams S xs st).1 vs = some env' ∧ Typed S s' ∧ Match f (lowerParams S xs st).2 s' env'
  | [], st, hg, ho => by
    refine ⟨hg, Frame.refl hg, ho, rfl, rfl, rfl, rfl, by simp [lowerParams], ?_⟩
    intro F f rets hF hsf s env hty hm vs hvs
    cases vs with
    | nil => exact ⟨s, env, rfl, rfl, hty, hm⟩
    | cons => simp at hvs
  | x :: xs, st, hg, ho => by
    obtain ⟨hg1, _, _⟩ := newId_good hg (scalar_some (S.varTy x))
    have he1 := newId_emitted hg (scalar_some (S.varTy x))
    have hd1 := newId_defined hg (mirTy (S.varTy x))
    have ho1 := he1.open ho
    have hv1 := hd1.valOk hg1
    obtain ⟨hg2, hx2⟩ := write_good hg1 ho1 (x := x) hv1.1 hv1.2
    have hf2 := write_frame hg1 ho1 (x := x) hv1.1 hv1.2
    have hid : (st.newId (mirTy (S.varTy x))).1 = st.next := rfl
    have hcu1 : (st.newId (mirTy (S.varTy x))).2.current = st.current := rfl
    have hbl1 : (st.newId (mirTy (S.varTy x))).2.blocks = st.blocks := rfl
    have hse1 : (st.newId (mirTy (S.varTy x))).2.sealed = st.sealed := rfl
    have hct1 : (st.newId (mirTy (S.varTy x))).2.count = st.count := rfl
    simp only [lowerParams, hid]
    generalize (st.newId (mirTy (S.varTy x))).2 = st1 at *
    have ho2 : (st1.write x st1.current st.next).terminated = false := ho1
    obtain ⟨g3, f3, o3, cu3, bl3, ct3, se3, ph3, sim3⟩ := params_ok S xs _ hg2 ho2
    refine ⟨g3, ((he1.frame hg).trans hf2).trans f3, o3, cu3.trans hcu1, bl3.trans hbl1, ct3.trans hct1,
      se3.trans hse1, ?_, ?_⟩
    · intro d hd
      rcases List.mem_cons.1 hd with rfl | hd
      · exact ⟨lt_of_lt_of_le hd1.lt f3.ext.next, by rw [f3.ext.phi _ hd1.lt]; exact hd1.plain⟩
      · exact ph3 d hd
    · intro F f rets hF hsf s env hty hm vs hvs
      cases vs with
      | nil => simp at hvs
      | cons v vs =>
        simp only [List.map_cons, List.cons.injEq] at hvs
        have h2f := f3.ext.trans hsf
        have h1f := hx2.trans h2f
        have hm1 := match_keep hg hF.good he1.ext h1f he1.keep hm (hd1.agree hF.good h1f env (some v))
        have hm2 := write_match (x := x) hm1 (id := st.next) (y := v)
          (by rw [(hd1.fix hF.good h1f).1, Function.update_self])
        obtain ⟨s', env', h1, h2, h3, h4⟩ := sim3 F f rets hF hsf (Function.update s x (some v))
          (Function.update env st.next (some v)) (typed_update hty hvs.1) hm2 vs hvs.2
        exact ⟨s', env', h1, h2, h3, h4⟩

/-! ### The finished function -/

/-- The finished function. -/
def St.finish (st : St) (name : Name) (ps rs : List ValueId) : Function :=
  { name := name, blocks := (List.range st.count).map fun b => (st.blocks b).done, params := ps,
    returns := rs, nextValue := st.next, types := st.types }

/-- The final state of the lowering of a closed function meets what the simulation assumes. -/
theorem fin_of_closed {S : Sem} {f : Fn} {name : Name} {st1 : St} (hg1 : Good [] st1)
    (hf : Frame (lowerParams S f.params St.initial.sealZero).2 st1) {F : Function}
    (hF : F = (st1.newIds (f.rets.map mirTy)).2.finish name (lowerParams S f.params St.initial.sealZero).1
      (st1.newIds (f.rets.map mirTy)).1)
    (hcl : closed F = true) : Fin F (st1.newIds (f.rets.map mirTy)).2 f.rets := by
  obtain ⟨hg2, he2, hlen, hcur2, hbl2, hty2, hds⟩ := newIds_good f.rets st1 hg1
  obtain ⟨g0, f0, o0, cu0, bl0, ct0, se0, ph0, sim0⟩ := params_ok S f.params _ initial_good rfl
  generalize hst2 : (st1.newIds (f.rets.map mirTy)).2 = st2 at *
  have hblocks : ∀ b, F.blocks[b]? = if b < st2.count then some (st2.blocks b).done else none := by
    intro b
    subst hF
    by_cases hb : b < st2.count
    · simp [St.finish, hb]
    · simp [St.finish, hb]
  have hmem : ∀ b, b < st2.count → (st2.blocks b).done ∈ F.blocks := by
    intro b hb
    have := hblocks b
    rw [if_pos hb] at this
    exact List.mem_of_getElem? this
  simp only [closed, Bool.and_eq_true, List.all_eq_true, decide_eq_true_eq] at hcl
  have hfix : ∀ x ∈ defined F, st2.g.sub x = x := by
    intro x hx
    simp only [defined, List.mem_append, List.mem_flatMap] at hx
    rcases hx with hx | ⟨i, ⟨B, hB, hi⟩, hx⟩
    · subst hF
      refine hg2.subPlain x ?_
      rw [(hf.ext.trans he2.ext).phi x (ph0 x hx).1]
      exact (ph0 x hx).2
    · have : ∃ b, b < st2.count ∧ B = (st2.blocks b).done := by
        subst hF
        simp only [St.finish, List.mem_map, List.mem_range] at hB
        obtain ⟨b, hb, rfl⟩ := hB
        exact ⟨b, hb, rfl⟩
      obtain ⟨b, hb, rfl⟩ := this
      simp only [BlockS.done, List.mem_append, List.mem_map] at hi
      rcases hi with ⟨φ, hφ, rfl⟩ | hi
      · simp only [Phi.instr, Instr.destinations, List.mem_singleton] at hx
        subst hx
        exact (hg2.phis b φ hφ).2.1
      · exact hg2.subPlain x ((hg2.dests b i hi).2 x hx).2
  have hout : ∀ b, ¬ b < st2.count → (st2.blocks b).phis = [] ∧ (st2.blocks b).instrs = [] ∧
      (st2.blocks b).term = .Unreachable := by
    intro b hb
    obtain ⟨h1, h2, h3, _⟩ := hg2.unstarted b (hg2.beyond b (not_lt.1 hb)).1
    exact ⟨h1, h2, h3⟩
  have hct : 0 < st2.count := lt_of_le_of_lt (Nat.zero_le _) hg2.current_lt
  refine ⟨hg2, ?_, hblocks, ?_, ?_, ?_, ?_, ?_⟩
  · intro b k hk
    rw [he2.sealed]
    rw [he2.start] at hk
    by_cases hb : b = 0
    · subst hb
      refine hf.within.mono 0 ?_
      rw [se0]; simp [St.sealZero]
    · exact hf.fresh b (by rw [ct0]; exact Nat.one_le_iff_ne_zero.2 hb) k hk
  · subst hF; exact hty2
  · intro b i hi
    by_cases hb : b < st2.count
    · exact instr_fix fun x hx => hfix x ((hcl.1 _ (hmem b hb)).1 i (by simp [BlockS.done, hi]) x hx)
    · rw [(hout b hb).2.1] at hi; simp at hi
  · intro b
    by_cases hb : b < st2.count
    · exact term_fix fun x hx => hfix x ((hcl.1 _ (hmem b hb)).2 x hx)
    · rw [(hout b hb).2.2]; rfl
  · intro b φ hφ s hs
    by_cases hb : b < st2.count
    · refine hfix _ ((hcl.1 _ (hmem b hb)).1 φ.instr (by simp only [BlockS.done, List.mem_append, List.mem_map]; exact .inl ⟨φ, hφ, rfl⟩) _ ?_)
      simp only [Phi.instr, Instr.uses, valuesIds, List.mem_flatMap, List.mem_map]
      exact ⟨.Operand s.2, ⟨(s.1, .Operand s.2), ⟨s, hs, rfl⟩, rfl⟩, by simp [Value.ids]⟩
    · rw [(hout b hb).1] at hφ; simp at hφ
  · have hh : F.blocks.head? = some (st2.blocks 0).done := by
      rw [List.head?_eq_getElem?, hblocks, if_pos hct]
    rw [hh] at hcl
    cases hph : (st2.blocks 0).phis with
    | nil => rfl
    | cons φ φs =>
      have := hcl.2 φ.instr (by simp [BlockS.done, hph])
      simp [Phi.instr, isPhi] at this

/-- The result of the lowered function is the meaning of the source function. -/
theorem lowerFn_run {o : Opts} (hord : ∀ l, (o.order l).Perm l) {S : Sem} (hc : CallsTyped S calls) {f : Fn}
    (hok : f.ok S = true) {name : Name} {F : Function} (hlow : lowerFn o S name f = some F) (hcl : closed F = true)
    {args : List Val} (hargs : args.map valTy = f.params.map S.varTy) :
    ∃ d, ∀ n, (Source.run false calls f n args ≠ .unfinished →
        ∃ N, ∀ m, Lang.run calls F (m + N) args = Source.run false calls f n args) ∧
      (Source.run false calls f n args = .unfinished → ∀ k, k + d ≤ n → Lang.run calls F k args = .unfinished) := by
  simp only [lowerFn, Option.bind_eq_bind, Option.bind_eq_some_iff, Option.some.injEq] at hlow
  obtain ⟨st0, h0, st1, h1, hF⟩ := hlow
  have hst0 : st0 = (lowerParams S f.params St.initial.sealZero).2 ∧
      (lowerParams S f.params St.initial).1 = (lowerParams S f.params St.initial.sealZero).1 := by
    have hp := params_seal S f.params St.initial
    rw [hp]
    refine ⟨?_, rfl⟩
    have hi : (lowerParams S f.params St.initial).2.incomplete 0 = [] := by rw [params_incomplete]; rfl
    have ho : o.order [] = [] := (hord []).eq_nil
    simp only [St.seal, hi, ho, completePhis, Option.some.injEq] at h0
    rw [← h0]; rfl
  obtain ⟨rfl, hps⟩ := hst0
  obtain ⟨g0, f0, o0, cu0, bl0, ct0, se0, ph0, sim0⟩ := params_ok S f.params _ initial_good rfl
  have hloops : (lowerParams S f.params St.initial.sealZero).2.loops = [] := f0.loops
  obtain ⟨d, hbody⟩ := stmts_ok (calls := calls) o hord S f.rets hc f.body hok
  obtain ⟨g1, f1, sim1⟩ := hbody _ st1 g0 o0
    (by intro l hl; rw [hloops] at hl; simp at hl) h1
  rw [hps] at hF
  have hfin' := fin_of_closed (name := name) g1 f1 (F := F) hF.symm hcl
  obtain ⟨hg2, he2, _, hcur2, hbl2, _, _⟩ := newIds_good f.rets st1 g1
  generalize hst2 : (st1.newIds (f.rets.map mirTy)).2 = st2 at *
  generalize hs0 : (lowerParams S f.params St.initial.sealZero).2 = s0 at *
  have h0f : Ext St.initial.sealZero st2 := f0.ext.trans (f1.ext.trans he2.ext)
  have hstart : st2.g.start 0 = some 0 := h0f.start 0 0 rfl
  have hpreds : (st2.blocks 0).preds = [] := by
    rcases hg2.forward 0 0 hstart with h | ⟨e, _, j, hj, hle⟩
    · exact h.2
    · obtain ⟨_, k, _, hk⟩ := hg2.stopLt e j hj
      exact absurd (lt_of_lt_of_le hk hle) (Nat.not_lt_zero _)
  obtain ⟨s', env', hb, hbind, hty', hm'⟩ := sim0 F st2 f.rets hfin' (f1.ext.trans he2.ext) (fun _ => none)
    (fun _ => none) (by intro v x h; simp at h) (by
      intro v id h
      have h : st2.g.ent v 0 = some id := h
      rcases (hfin'.entry_cases h).1 with h | h
      · obtain ⟨_, _, _, ss, ⟨φ, hφ, _⟩, _⟩ := h
        rw [hfin'.entry] at hφ; simp at hφ
      · exact absurd hpreds h.2.1) args hargs
  have hps' : F.params = (lowerParams S f.params St.initial.sealZero).1 := by rw [← hF]
  have hlen : s0.current = 0 ∧ s0.len = 0 := by
    refine ⟨cu0, ?_⟩
    unfold St.len
    rw [bl0, cu0]; rfl
  have hct : 0 < st2.count := lt_of_le_of_lt (Nat.zero_le _) hg2.current_lt
  have hexec : ∀ m, Lang.run calls F (m + 1) args = go calls F st2 s0 env' m := by
    intro m
    have hphi : evalPhis env' none (st2.blocks 0).done.instrs env' = some (env', (st2.blocks 0).instrs) := by
      simp only [BlockS.done, hfin'.entry, List.map_nil, List.nil_append]
      cases hi : (st2.blocks 0).instrs with
      | nil => rfl
      | cons i is =>
        have := (hg2.dests 0 i (by simp [hi])).1
        cases i <;> first | rfl | simp [isPhi] at this
    simp only [Lang.run, hps', hbind, Lang.exec, hfin'.blocks, if_pos hct, evalBlock, hphi, go, goFrom, hlen,
      List.drop_zero, after, Option.bind_eq_bind, Option.bind_some]
    cases evalInstrs calls (st2.blocks 0).instrs env' with
    | none => rfl
    | some e =>
      simp only [Option.bind_some, BlockS.done]
      cases evalTerm (returnTys F) e (st2.blocks 0).term with
      | none => rfl
      | some x => cases x <;> rfl
  have hzero : Lang.run calls F 0 args = .unfinished := by simp only [Lang.run, hps', hbind, Lang.exec]
  refine ⟨d, fun n => ?_⟩
  simp only [Source.run, hb]
  cases n with
  | zero =>
    refine ⟨fun h => by simp [Source.exec] at h, fun _ k hk => ?_⟩
    rw [show k = 0 by omega, hzero]
  | succ n =>
    have hs := sim1 F st2 hfin' he2.ext n s' env' hty' hm'
    beta_reduce at hs
    simp only [Source.exec]
    have lift : ∀ r, (∃ N, ∀ n, go calls F st2 s0 env' (n + N) = r) → ∃ N, ∀ m, Lang.run calls F (m + N) args = r := by
      rintro r ⟨N, h⟩
      exact ⟨N + 1, fun m => by rw [← Nat.add_assoc, hexec, h]⟩
    cases hx : execList (Source.exec false calls n) f.body s' with
    | normal s =>
      rw [hx] at hs
      obtain ⟨hop, _, env, N, _, hgo⟩ := hs
      refine ⟨fun _ => lift _ ⟨N, fun m => ?_⟩, fun h => by simp at h⟩
      rw [hgo]
      have ht : (st2.blocks st1.current).term = .Unreachable := by
        rw [hbl2]; exact terminated_false.1 hop
      have hd : (st2.blocks st1.current).instrs.drop st1.len = [] := by
        rw [hbl2]; exact List.drop_length
      simp only [go, goFrom, hd, evalInstrs, after, ht, evalTerm]
    | brk s =>
      rw [hx] at hs
      obtain ⟨_, l, hl, _⟩ := hs
      rw [hloops] at hl; simp at hl
    | cont s =>
      rw [hx] at hs
      obtain ⟨_, l, hl, _⟩ := hs
      rw [hloops] at hl; simp at hl
    | ret vs => rw [hx] at hs; exact ⟨fun _ => lift _ hs, fun h => by simp at h⟩
    | fault => rw [hx] at hs; exact ⟨fun _ => lift _ hs, fun h => by simp at h⟩
    | timeout =>
      rw [hx] at hs
      refine ⟨fun h => by simp at h, fun _ k hk => ?_⟩
      cases k with
      | zero => exact hzero
      | succ k => rw [hexec]; exact hs k (by omega)

end Lower
end CairoM
