import Verif.LoweringExpr

/-!
# The lowering: what is known of a lowered statement, and the statements without control flow

Helper lemmas.
-/

namespace CairoM
namespace Lower

open Mir Lang Source

variable {st : St} {calls : Calls}

/-! ### What a statement leaves alone -/

/-- Between `s` and `t` only blocks from `c` on have been started, sealed or, apart from the current one of `s`,
ended. -/
structure Within (c : ℕ) (s t : St) : Prop where
  ext : Ext s t
  start : ∀ b, b < c → t.g.start b = s.g.start b
  sealed : ∀ b, b < c → t.sealed b = s.sealed b
  mono : ∀ b, s.sealed b = true → t.sealed b = true
  term : ∀ b, b < c → b ≠ s.current → (s.blocks b).term = .Unreachable → (t.blocks b).term = .Unreachable
  current : t.current = s.current ∨ c ≤ t.current

theorem Within.refl {stk} (hg : Good stk st) {c : ℕ} : Within c st st :=
  ⟨Ext.refl hg, fun _ _ => rfl, fun _ _ => rfl, fun _ h => h, fun _ _ _ h => h, .inl rfl⟩

theorem Within.trans {c : ℕ} {s t u : St} (h1 : Within c s t) (h2 : Within c t u) : Within c s u where
  ext := h1.ext.trans h2.ext
  start b hb := (h2.start b hb).trans (h1.start b hb)
  sealed b hb := (h2.sealed b hb).trans (h1.sealed b hb)
  mono b h := h2.mono b (h1.mono b h)
  term b hb hne h := by
    refine h2.term b hb ?_ (h1.term b hb hne h)
    rcases h1.current with hc | hc
    · rw [hc]; exact hne
    · exact fun he => absurd hc (by rw [← he]; exact not_le.2 hb)
  current := by
    rcases h2.current with h | h
    · rw [h]; exact h1.current
    · exact .inr h

theorem Within.le {c d : ℕ} {s t : St} (h : Within c s t) (hd : d ≤ c) : Within d s t where
  ext := h.ext
  start b hb := h.start b (lt_of_lt_of_le hb hd)
  sealed b hb := h.sealed b (lt_of_lt_of_le hb hd)
  mono := h.mono
  term b hb := h.term b (lt_of_lt_of_le hb hd)
  current := h.current.imp_right fun h => hd.trans h

/-- What lowering a statement leaves alone. -/
structure Frame (s t : St) : Prop where
  within : Within s.count s t
  loops : t.loops = s.loops
  fresh : ∀ b, s.count ≤ b → ∀ k, t.g.start b = some k → t.sealed b = true

theorem Frame.ext {s t : St} (h : Frame s t) : Ext s t := h.within.ext

theorem Frame.refl {stk} (hg : Good stk st) : Frame st st :=
  ⟨Within.refl hg, rfl, fun b hb k hk => by rw [(hg.beyond b hb).1] at hk; cases hk⟩

theorem Frame.trans {s t u : St} (h1 : Frame s t) (h2 : Frame t u) : Frame s u where
  within := h1.within.trans (h2.within.le h1.ext.count)
  loops := h2.loops.trans h1.loops
  fresh b hb k hk := by
    by_cases hlt : b < t.count
    · rw [h2.within.start b hlt] at hk
      exact h2.within.mono b (h1.fresh b hb k hk)
    · exact h2.fresh b (not_lt.1 hlt) k hk

theorem Emitted.within {s t : St} (h : Emitted s t) (c : ℕ) : Within c s t where
  ext := h.ext
  start b _ := by rw [h.start]
  sealed b _ := by rw [h.sealed]
  mono b hb := by rw [h.sealed]; exact hb
  term b _ _ hb := (h.term b).2 hb
  current := .inl h.keep.current

theorem Emitted.frame {stk} {s t : St} (hg : Good stk s) (h : Emitted s t) : Frame s t where
  within := h.within _
  loops := h.loops
  fresh b hb k hk := by rw [h.start, (hg.beyond b hb).1] at hk; cases hk

/-- A block that control may still be sent to. -/
def Target (st : St) (b : BlockId) : Prop := b < st.count ∧ (st.g.start b = none ∨ st.sealed b = false)

theorem Target.within {c : ℕ} {s t : St} {b : BlockId} (hb : b < c) (h : Target s b) (hw : Within c s t) :
    Target t b :=
  ⟨lt_of_lt_of_le h.1 hw.ext.count, by rw [hw.start b hb, hw.sealed b hb]; exact h.2⟩

/-- Control may be sent to the start and to the end of the enclosing loops. -/
def LoopsOk (st : St) : Prop := ∀ l ∈ st.loops, Target st l.1 ∧ Target st l.2

theorem LoopsOk.frame {s t : St} (h : LoopsOk s) (hf : Frame s t) : LoopsOk t := by
  intro l hl
  rw [hf.loops] at hl
  obtain ⟨h1, h2⟩ := h l hl
  exact ⟨h1.within h1.1 hf.within, h2.within h2.1 hf.within⟩

theorem Good.current_lt {stk} (hg : Good stk st) : st.current < st.count := by
  obtain ⟨k, hk⟩ := hg.running.2
  by_contra h
  rw [(hg.beyond _ (not_lt.1 h)).1] at hk
  cases hk

theorem terminated_false : st.terminated = false ↔ (st.blocks st.current).term = .Unreachable := by
  simp [St.terminated]

/-! ### Leaving a block and arriving at one -/

section
variable {F : Function} {f : St} {rets : List Ty}

/-- At the end of a block control goes where its terminator says. -/
theorem leave (hF : Fin F f rets) {p q t : St} (hq : Ext q f) (hcur : q.cur = p.cur)
    (hin : (q.blocks p.current).instrs = (p.blocks p.current).instrs) (hst : ∃ k, q.g.start p.current = some k)
    (hne : p.current ≠ q.current ∨ (q.blocks p.current).term ≠ .Unreachable) (ht : Ext t f) {T : Terminator}
    (hT : (t.blocks p.current).term = T) (hTne : T ≠ .Unreachable) :
    (∀ env n, go calls F f p env n = after calls F p.current (Terminator.rename f.g.sub T) env n) ∧
      ∀ b ∈ T.targets, ∀ s env, Match f p s env → EdgeMatch f p.current b s env := by
  obtain ⟨k, hk⟩ := hst
  have hterm : (f.blocks p.current).term = Terminator.rename f.g.sub T := by
    have := ht.term p.current (by rw [hT]; exact hTne)
    rw [hF.fixT, hT] at this
    exact this
  constructor
  · intro env n
    obtain ⟨l, h1, h2⟩ := hq.instrs p.current k hk
    rw [h2 hne, List.append_nil, hF.map_fix, hin] at h1
    have hd : (f.blocks p.current).instrs.drop p.len = [] := by
      rw [h1]; simp [St.len]
    unfold go goFrom
    rw [hd]
    simp only [evalInstrs, hterm]
  · intro b hb s env hm
    refine ⟨(hF.good.edge _ _).2 (by rw [hterm, rename_targets]; exact hb), ?_⟩
    intro v id h
    rw [hq.cur v p.current k hk hne, hcur] at h
    exact hm v id h

/-- Arriving at a block when control comes over an edge. -/
theorem arrive {stk} (hF : Fin F f rets) {u : St} {a b : BlockId} (hg : Good stk u) (hb : b < u.count)
    (hs : u.g.start b = none) (hu : Ext (u.switch b) f) {s : Store} {env : Env} (h : EdgeMatch f a b s env) :
    ∃ env', (∀ n, Lang.exec calls F (n + 1) (some a) b env = go calls F f (u.switch b) env' n) ∧
      Match f (u.switch b) s env' := by
  obtain ⟨env', h1, h2⟩ := enter_block (calls := calls) hF h (lt_of_lt_of_le hb hu.count)
  refine ⟨env', ?_, ?_⟩
  · intro n
    rw [h1 n]
    unfold go St.len
    have : ((u.switch b).blocks (u.switch b).current).instrs = [] := (hg.unstarted b hs).2.1
    rw [this]
    rfl
  · intro v id hd
    refine h2 v id ?_
    unfold defAt at hd
    have : (u.switch b).cur v (u.switch b).current = none := by
      show u.cur v b = none
      cases hc : u.cur v b with
      | none => rfl
      | some x =>
        obtain ⟨k, hk⟩ := hg.curStart v b x hc
        rw [hs] at hk; cases hk
    rw [this] at hd
    exact hd

theorem after_jump {a b : BlockId} {env : Env} {n : ℕ} :
    after calls F a (Terminator.rename f.g.sub (.Jump b)) env n = Lang.exec calls F n (some a) b env := rfl

theorem after_if {a b c : BlockId} {env : Env} {v : Value} {x : Bool} (h : Rep f env .bool v (.bool x)) (n : ℕ) :
    after calls F a (Terminator.rename f.g.sub (.If v b c)) env n =
      Lang.exec calls F n (some a) (if x then b else c) env := by
  unfold after
  simp only [Terminator.rename, evalTerm, h.readPlain (.inr rfl), Option.bind_eq_bind, Option.bind_some, truthy, choose]
  cases x <;> rfl

/-! ### Outcomes -/

/-- More steps do not change a result. -/
def Mono (R : ℕ → Result) : Prop := ∀ n m, R n ≠ .unfinished → R (n + m) = R n

theorem exec_mono (calls : Calls) (F : Function) (pred : Option BlockId) (b : BlockId) (env : Env) :
    Mono (fun n => Lang.exec calls F n pred b env) := by
  intro n
  induction n generalizing pred b env with
  | zero => intro m h; simp [Lang.exec] at h
  | succ n ih =>
    intro m h
    rw [Nat.add_right_comm]
    simp only [Lang.exec] at h ⊢
    cases hb : F.blocks[b]? with
    | none => rfl
    | some blk =>
      rw [hb] at h
      simp only at h ⊢
      cases he : evalBlock calls (returnTys F) blk pred env with
      | none => rfl
      | some x =>
        obtain ⟨x, env'⟩ := x
        rw [he] at h
        cases x with
        | ret vs => rfl
        | goto t => exact ih (some b) t env' m h

theorem go_mono (calls : Calls) (F : Function) (f st : St) (env : Env) : Mono (go calls F f st env) := by
  intro n m h
  simp only [go, goFrom] at h ⊢
  cases he : evalInstrs calls ((f.blocks st.current).instrs.drop st.len) env with
  | none => rfl
  | some env' =>
    rw [he] at h
    simp only [after] at h ⊢
    cases ht : evalTerm (returnTys F) env' (f.blocks st.current).term with
    | none => rfl
    | some x =>
      rw [ht] at h
      cases x with
      | ret vs => rfl
      | goto t => exact exec_mono calls F _ t env' n m h

theorem Mono.before {R : ℕ → Result} (h : Mono R) {k n : ℕ} (hk : k ≤ n) (hn : R n = .unfinished) :
    R k = .unfinished := by
  by_contra hne
  obtain ⟨m, rfl⟩ := Nat.exists_eq_add_of_le hk
  rw [h k m hne] at hn
  exact hne hn

/-- Running `R` has the given outcome, and reaches the point `t` when it is a normal one; `b` is how long it runs at
least when there is no outcome. -/
def Out (S : Sem) (calls : Calls) (F : Function) (f : St) (loops : List (BlockId × BlockId)) (t : St) (b : ℕ)
    (R : ℕ → Result) : Outcome → Prop
  | .normal s => t.terminated = false ∧ Typed S s ∧ ∃ env N, Match f t s env ∧ ∀ n, R (n + N) = go calls F f t env n
  | .brk s => Typed S s ∧ ∃ l, loops.head? = some l ∧ ∃ a env N, EdgeMatch f a l.2 s env ∧
      ∀ n, R (n + N) = Lang.exec calls F n (some a) l.2 env
  | .cont s => Typed S s ∧ ∃ l, loops.head? = some l ∧ ∃ a env N, EdgeMatch f a l.1 s env ∧
      ∀ n, R (n + N) = Lang.exec calls F n (some a) l.1 env
  | .ret vs => ∃ N, ∀ n, R (n + N) = .returned vs
  | .fault => ∃ N, ∀ n, R (n + N) = .fault
  | .timeout => ∀ k, k < b → R k = .unfinished

variable {S : Sem} {loops : List (BlockId × BlockId)} {t : St}

/-- Runs from a point and runs of blocks are monotone. -/
macro "mono" : tactic => `(tactic| first | exact go_mono _ _ _ _ _ | exact exec_mono _ _ _ _ _ | assumption)

theorem Out.pre {R R' : ℕ → Result} {b : ℕ} {x : Outcome} (N : ℕ) (h : ∀ n, R (n + N) = R' n)
    (ho : Out S calls F f loops t b R' x) (hR : Mono R := by mono) : Out S calls F f loops t b R x := by
  cases x with
  | normal s =>
    obtain ⟨h1, h2, env, M, h3, h4⟩ := ho
    exact ⟨h1, h2, env, M + N, h3, fun n => by rw [← Nat.add_assoc, h, h4]⟩
  | brk s =>
    obtain ⟨h2, l, hl, a, env, M, h3, h4⟩ := ho
    exact ⟨h2, l, hl, a, env, M + N, h3, fun n => by rw [← Nat.add_assoc, h, h4]⟩
  | cont s =>
    obtain ⟨h2, l, hl, a, env, M, h3, h4⟩ := ho
    exact ⟨h2, l, hl, a, env, M + N, h3, fun n => by rw [← Nat.add_assoc, h, h4]⟩
  | ret vs =>
    obtain ⟨M, h4⟩ := ho
    exact ⟨M + N, fun n => by rw [← Nat.add_assoc, h, h4]⟩
  | fault =>
    obtain ⟨M, h4⟩ := ho
    exact ⟨M + N, fun n => by rw [← Nat.add_assoc, h, h4]⟩
  | timeout => exact fun k hk => hR.before (Nat.le_add_right k N) (by rw [h, ho k hk])

theorem Out.less {R : ℕ → Result} {b b' : ℕ} {x : Outcome} (hb : b' ≤ b) (ho : Out S calls F f loops t b R x) :
    Out S calls F f loops t b' R x := by
  cases x with
  | timeout => exact fun k hk => ho k (lt_of_lt_of_le hk hb)
  | _ => exact ho

/-- A run that begins with at least one block is longer by one. -/
theorem Out.step {R R' : ℕ → Result} {b : ℕ} {x : Outcome} (N : ℕ) (h : ∀ n, R (n + (N + 1)) = R' n)
    (h0 : R 0 = .unfinished) (ho : Out S calls F f loops t b R' x) (hR : Mono R := by mono) :
    Out S calls F f loops t (b + 1) R x := by
  cases x with
  | timeout =>
    intro k hk
    cases k with
    | zero => exact h0
    | succ k =>
      refine hR.before (n := k + (N + 1)) (by omega) ?_
      rw [h, ho k (by omega)]
  | normal s => exact Out.pre (x := .normal s) (N + 1) h ho
  | brk s => exact Out.pre (x := .brk s) (N + 1) h ho
  | cont s => exact Out.pre (x := .cont s) (N + 1) h ho
  | ret vs => exact Out.pre (x := .ret vs) (N + 1) h ho
  | fault => exact Out.pre (x := .fault) (N + 1) h ho

/-- An outcome that is not a normal one does not depend on the point reached. -/
theorem Out.abrupt {R : ℕ → Result} {b : ℕ} {x : Outcome} {t' : St} (hx : ∀ s, x ≠ .normal s)
    (ho : Out S calls F f loops t b R x) : Out S calls F f loops t' b R x := by
  cases x with
  | normal s => exact absurd rfl (hx s)
  | _ => exact ho

end

/-- What is proved of each statement: `low` lowers it, `ex` is its meaning; `L` is what it needs of the enclosing
loops, `d` bounds the number of steps of `ex` without a block. -/
def StmtOkL (L : St → Prop) (S : Sem) (calls : Calls) (rets : List Ty) (d : ℕ) (low : St → Option St)
    (ex : ℕ → Store → Outcome) : Prop :=
  ∀ st st', Good [] st → st.terminated = false → L st → low st = some st' →
    Good [] st' ∧ Frame st st' ∧ ∀ F f, Fin F f rets → Ext st' f → ∀ n s env, Typed S s → Match f st s env →
      Out S calls F f st.loops st' (n + 1 - d) (go calls F f st env) (ex n s)

/-- What is proved of a statement that may jump to the enclosing loops. -/
abbrev StmtOk := StmtOkL LoopsOk

theorem StmtOkL.le {L : St → Prop} {S : Sem} {calls : Calls} {rets : List Ty} {d d' : ℕ} {low : St → Option St}
    {ex : ℕ → Store → Outcome} (h : StmtOkL L S calls rets d low ex) (hd : d ≤ d') :
    StmtOkL L S calls rets d' low ex := by
  intro st st' hg ho hl hlow
  obtain ⟨h1, h2, h3⟩ := h st st' hg ho hl hlow
  exact ⟨h1, h2, fun F f hF hsf n s env hty hm => (h3 F f hF hsf n s env hty hm).less (by omega)⟩

/-! ### Assignments -/

theorem write_frame (hg : Good [] st) (hopen : st.terminated = false) {x : Var} {id : ValueId} (hid : id < st.next)
    (hstamp : st.g.stamp (st.g.sub id) < st.g.clock) : Frame st (st.write x st.current id) where
  within := ⟨(write_good hg hopen hid hstamp).2, fun _ _ => rfl, fun _ _ => rfl, fun _ h => h, fun _ _ _ h => h,
    .inl rfl⟩
  loops := rfl
  fresh b hb k hk := by
    have : st.g.start b = some k := hk
    rw [(hg.beyond b hb).1] at this; cases this

theorem write_match {f : St} {x : Var} {id : ValueId} {s : Store} {env : Env} (hm : Match f st s env) {y : Val}
    (hy : env (f.g.sub id) = some y) :
    Match f (st.write x st.current id) (Function.update s x (some y)) env := by
  intro v i h
  by_cases hv : v = x
  · subst hv
    simp [defAt, St.write] at h
    subst h
    exact ⟨y, by simp, hy⟩
  · have : defAt f (st.write x st.current id) v = defAt f st v := by
      simp [defAt, St.write, Function.update_of_ne hv]
    rw [this] at h
    rw [Function.update_of_ne hv]
    exact hm v i h

theorem bindVar_ok {S : Sem} {x : Var} {v : Value} {st' : St} (hg : Good [] st) (hopen : st.terminated = false)
    (hv : ValOk st v) (h : st.bindVar S x v = some st') :
    Good [] st' ∧ Frame st st' ∧ st'.terminated = false ∧
      ∀ F f rets, Fin F f rets → Ext st' f → ∀ s env y, Match f st s env → Rep f env (S.varTy x) v y →
        ∃ env', (∀ n, go calls F f st env n = go calls F f st' env' n) ∧
          Match f st' (Function.update s x (some y)) env' := by
  cases v with
  | Operand id =>
    simp only [St.bindVar, Option.some.injEq] at h
    subst h
    refine ⟨(write_good hg hopen hv.1 hv.2).1, write_frame hg hopen hv.1 hv.2, hopen, ?_⟩
    intro F f rets _ _ s env y hm hr
    exact ⟨env, fun n => (go_same rfl rfl env n).symm, write_match hm hr⟩
  | Literal l =>
    obtain ⟨hd, hg1, he1, hdef⟩ := define_good hg hopen (scalar_some (S.varTy x))
      (mk := fun d => .Assign d (.Literal l) (mirTy (S.varTy x))) (fun _ => rfl) (fun _ => rfl)
    simp only [St.bindVar, Option.some.injEq] at h
    subst h
    rw [hd]
    have ho1 := he1.open hopen
    have hv1 := hdef.valOk hg1
    refine ⟨(write_good hg1 ho1 hv1.1 hv1.2).1, (he1.frame hg).trans (write_frame hg1 ho1 hv1.1 hv1.2), ho1, ?_⟩
    intro F f rets hF hsf s env y hm hr
    have h1f := (write_frame hg1 ho1 (x := x) hv1.1 hv1.2).ext.trans hsf
    refine ⟨Function.update env st.next (some y), ?_, ?_⟩
    · intro n
      rw [go_define hF hg (scalar_some (S.varTy x)) h1f]
      have hra : readAt env (S.varTy x) (.Literal l) = some y := hr.readAt
      simp only [Instr.rename, evalInstr, Value.rename, scalar_mirTy, Option.bind_eq_bind, Option.bind_some, hra]
      exact (go_same rfl rfl _ n).symm
    · refine write_match (match_keep hg hF.good he1.ext h1f he1.keep hm (hdef.agree hF.good h1f _ _)) ?_
      rw [(hdef.fix hF.good h1f).1]; simp
  | Error => exact hv.elim

/-- An expression followed by something that depends on its value. -/
theorem expr_then {L : St → Prop} (hL : ∀ s t, L s → Frame s t → L t) {S : Sem} {calls : Calls} {d : ℕ} {rets : List Ty} {o : Opts} (hc : CallsTyped S calls) {e : Expr} {t : Ty}
    (hty : e.ty S = some t) (hsm : e.small = true) {low : Value → St → Option St} {ex : ℕ → Val → Store → Outcome}
    {ex' : ℕ → Store → Outcome}
    (hex : ∀ n s, (n < d ∧ ex' n s = .timeout) ∨ ex' n s = match eval false calls s e with
      | some x => ex n x s
      | none => .fault)
    (hlow : ∀ v st st', Good [] st → st.terminated = false → L st → ValOk st v → low v st = some st' →
      Good [] st' ∧ Frame st st' ∧ ∀ F f, Fin F f rets → Ext st' f → ∀ n s env x, Typed S s → Match f st s env →
        Rep f env t v x → valTy x = t → Out S calls F f st.loops st' (n + 1 - d) (go calls F f st env) (ex n x s)) :
    StmtOkL L S calls rets d (fun st => (lowerExpr o S e st).bind fun p => low p.1 p.2) ex' := by
  intro st st' hg ho hl h
  simp only [Option.bind_eq_some_iff] at h
  obtain ⟨⟨v, st1⟩, h1, h2⟩ := h
  obtain ⟨hg1, he1, hv1⟩ := lowerExpr_good o S e st v st1 hg ho h1
  obtain ⟨hg2, hf2, hs2⟩ := hlow v st1 st' hg1 (he1.open ho) (hL _ _ hl (he1.frame hg)) hv1 h2
  refine ⟨hg2, (he1.frame hg).trans hf2, ?_⟩
  intro F f hF hsf n s env hts hm
  have h1f := hf2.ext.trans hsf
  rcases hex n s with ⟨hn, hx⟩ | hx
  · rw [hx]; exact fun k hk => absurd hk (by omega)
  · rw [hx]
    have := lowerExpr_sim o S hc hF e st v st1 hg ho h1 h1f t hty hsm s env hts hm
    cases hev : eval false calls s e with
    | none =>
      rw [hev] at this
      exact ⟨0, fun n => this n⟩
    | some x =>
      rw [hev] at this
      obtain ⟨hxt, env1, hgo, hag, hrep⟩ := this
      have h3 := hs2 F f hF hsf n s env1 x hts (match_keep hg hF.good he1.ext h1f he1.keep hm hag) hrep hxt
      rw [he1.loops] at h3
      exact h3.pre 0 hgo

theorem typed_update {S : Sem} {s : Store} (h : Typed S s) {x : Var} {y : Val} (hy : valTy y = S.varTy x) :
    Typed S (Function.update s x (some y)) := by
  intro v z hz
  by_cases hv : v = x
  · subst hv; simp at hz; subst hz; exact hy
  · rw [Function.update_of_ne hv] at hz; exact h v z hz

theorem assign_ok {L : St → Prop} (hL : ∀ s t, L s → Frame s t → L t) {S : Sem} {d : ℕ} {rets : List Ty} {o : Opts} (hc : CallsTyped S calls) {e : Expr} {x : Var}
    (hok : e.ok S (S.varTy x) = true) {ex' : ℕ → Store → Outcome}
    (hex : ∀ n s, (n < d ∧ ex' n s = .timeout) ∨ ex' n s = match eval false calls s e with
      | some y => .normal (Function.update s x (some y))
      | none => .fault) :
    StmtOkL L S calls rets d (fun st => (lowerExpr o S e st).bind fun p => p.2.bindVar S x p.1) ex' := by
  simp only [Expr.ok, Bool.and_eq_true, decide_eq_true_eq] at hok
  refine expr_then hL hc hok.1 hok.2 (low := fun v st => st.bindVar S x v)
    (ex := fun _ y s => .normal (Function.update s x (some y))) hex ?_
  intro v st st' hg ho _ hv h
  obtain ⟨h1, h2, h3, h4⟩ := bindVar_ok (calls := calls) hg ho hv h
  refine ⟨h1, h2, ?_⟩
  intro F f hF hsf _ s env y hts hm hr hy
  obtain ⟨env', h5, h6⟩ := h4 F f rets hF hsf s env y hm hr
  exact ⟨h3, typed_update hts hy, env', 0, h6, fun n => h5 n⟩

theorem expr_ok {L : St → Prop} (hL : ∀ s t, L s → Frame s t → L t) {S : Sem} {d : ℕ} {rets : List Ty} {o : Opts} (hc : CallsTyped S calls) {e : Expr}
    (hok : ((e.ty S).isSome && e.small) = true) {ex' : ℕ → Store → Outcome}
    (hex : ∀ n s, (n < d ∧ ex' n s = .timeout) ∨ ex' n s = match eval false calls s e with
      | some _ => .normal s
      | none => .fault) :
    StmtOkL L S calls rets d (fun st => (lowerExpr o S e st).bind fun p => some p.2) ex' := by
  simp only [Bool.and_eq_true, Option.isSome_iff_exists] at hok
  obtain ⟨⟨t, ht⟩, hsm⟩ := hok
  refine expr_then hL hc ht hsm (low := fun _ st => some st) (ex := fun _ _ s => .normal s) hex ?_
  intro v st st' hg ho _ _ h
  cases h
  refine ⟨hg, Frame.refl hg, ?_⟩
  intro F f _ _ _ s env y hts hm _ _
  exact ⟨ho, hts, env, 0, hm, fun _ => rfl⟩

theorem assert_ok {L : St → Prop} (hL : ∀ s t, L s → Frame s t → L t) {S : Sem} {d : ℕ} {rets : List Ty} {o : Opts} (hc : CallsTyped S calls) {e : Expr}
    (hok : e.ok S .bool = true) {ex' : ℕ → Store → Outcome}
    (hex : ∀ n s, (n < d ∧ ex' n s = .timeout) ∨ ex' n s = match eval false calls s e with
      | some (.bool true) => .normal s
      | _ => .fault) :
    StmtOkL L S calls rets d
      (fun st => (lowerExpr o S e st).bind fun p => some (p.2.emit (.AssertEq p.1 (.Literal (.Integer 1))))) ex' := by
  simp only [Expr.ok, Bool.and_eq_true, decide_eq_true_eq] at hok
  refine expr_then hL hc hok.1 hok.2 (low := fun v st => some (st.emit (.AssertEq v (.Literal (.Integer 1)))))
    (ex := fun _ x s => match x with
      | .bool true => .normal s
      | _ => .fault) ?_ ?_
  · intro n s
    rcases hex n s with h | h
    · exact .inl h
    · right
      rw [h]
      cases eval false calls s e with
      | none => rfl
      | some x =>
        cases x with
        | bool b => cases b <;> rfl
        | _ => rfl
  · intro v st st' hg ho _ _ h
    cases h
    have he := emit_emitted hg ho (.AssertEq v (.Literal (.Integer 1)))
    refine ⟨emit_good hg rfl (by simp [Instr.destinations]), he.frame hg, ?_⟩
    intro F f hF hsf _ s env x hts hm hr hx
    cases x <;> simp [valTy] at hx
    rename_i b
    have h1 : residue (1 : BitVec 32).toNat = 1 := by unfold residue; rfl
    have hev : evalInstr calls (Instr.rename f.g.sub (.AssertEq v (.Literal (.Integer 1)))) env =
        if b then some env else none := by
      simp only [Instr.rename, evalInstr, hr.readPlain (.inr rfl), Option.bind_eq_bind, Option.bind_some]
      simp only [Value.rename, readPlain, plainTy, denote, h1, Option.bind_some, sameScalar]
      cases b <;> simp
    have hgo := go_emit (calls := calls) hF hg hsf env
    rw [hev] at hgo
    cases b
    · exact ⟨0, fun n => hgo n⟩
    · refine ⟨he.open ho, hts, env, 0, match_keep hg hF.good he.ext hsf he.keep hm Agree.refl, fun n => hgo n⟩

/-! ### Calls -/

theorem newIds_good (ts : List Ty) : ∀ st : St, Good [] st →
    Good [] (st.newIds (ts.map mirTy)).2 ∧ Emitted st (st.newIds (ts.map mirTy)).2 ∧
      (st.newIds (ts.map mirTy)).1.length = ts.length ∧
      (st.newIds (ts.map mirTy)).2.cur = st.cur ∧
      (st.newIds (ts.map mirTy)).2.blocks = st.blocks ∧
      (st.newIds (ts.map mirTy)).1.map (st.newIds (ts.map mirTy)).2.types = ts.map (fun t => some (mirTy t)) ∧
      ∀ d ∈ (st.newIds (ts.map mirTy)).1, d < (st.newIds (ts.map mirTy)).2.next ∧
        (st.newIds (ts.map mirTy)).2.g.phi d = none ∧
        st.g.clock ≤ (st.newIds (ts.map mirTy)).2.g.stamp d := by
  induction ts with
  | nil => intro st hg; exact ⟨hg, Emitted.refl hg, rfl, rfl, rfl, rfl, by simp [St.newIds]⟩
  | cons t ts ih =>
    intro st hg
    have h1 := (newId_good hg (scalar_some t)).1
    have h2 := newId_emitted hg (scalar_some t)
    have h3 := newId_defined hg (mirTy t)
    obtain ⟨i1, i2, i3, i4, i5, i6, i7⟩ := ih (st.newId (mirTy t)).2 h1
    have hn : (st.newId (mirTy t)).1 = st.next := rfl
    simp only [List.map_cons, St.newIds, hn]
    refine ⟨i1, h2.trans i2, by simp [i3], i4, i5, ?_, ?_⟩
    · rw [i6, i2.ext.types _ h3.lt]
      simp [St.newId]
    · intro d hd
      rcases List.mem_cons.1 hd with rfl | hd
      · have hlt : st.next < (st.newId (mirTy t)).2.next := h3.lt
        refine ⟨lt_of_lt_of_le hlt i2.ext.next, ?_, ?_⟩
        · rw [i2.ext.phi _ hlt, h3.plain]
        · rw [i2.ext.stamp _ hlt, h3.stamp]
      · obtain ⟨j1, j2, j3⟩ := i7 d hd
        exact ⟨j1, j2, le_trans (le_of_lt h3.clock) j3⟩

theorem bind_agree : ∀ (ds : List ValueId) (ys : List Val) (env : Env), ds.length = ys.length →
    ∃ env', Lang.bind env ds ys = some env' ∧ ∀ x, x ∉ ds → env' x = env x
  | [], [], env, _ => ⟨env, rfl, fun _ _ => rfl⟩
  | [], _ :: _, _, h => by simp at h
  | _ :: _, [], _, h => by simp at h
  | d :: ds, y :: ys, env, h => by
    obtain ⟨env', h1, h2⟩ := bind_agree ds ys (Function.update env d (some y)) (by simpa using h)
    refine ⟨env', h1, ?_⟩
    intro x hx
    simp only [List.mem_cons, not_or] at hx
    rw [h2 x hx.2, Function.update_of_ne hx.1]

theorem call_ok {L : St → Prop} {S : Sem} {d : ℕ} {rets : List Ty} {o : Opts} (hc : CallsTyped S calls) {g : ℕ} {args : List Expr}
    {ps rs : List Ty} (hsig : S.sig g = some (ps, rs)) (hts : Expr.tys S args = some ps)
    (hsm : Expr.smalls args = true) {ex' : ℕ → Store → Outcome}
    (hex : ∀ n s, (n < d ∧ ex' n s = .timeout) ∨ ex' n s = match (evalArgs false calls s args).bind (calls g) with
      | some _ => .normal s
      | none => .fault) :
    StmtOkL L S calls rets d
      (fun st => (lowerArgs o S args st).bind fun p =>
        some ((p.2.newIds (rs.map mirTy)).2.emit
          (.Call (p.2.newIds (rs.map mirTy)).1 g p.1 ⟨ps.map mirTy, rs.map mirTy⟩))) ex' := by
  intro st st' hg ho hl h
  simp only [Option.bind_eq_some_iff, Option.some.injEq] at h
  obtain ⟨⟨xs, st1⟩, h1, rfl⟩ := h
  obtain ⟨hg1, he1, hv1⟩ := lowerArgs_good o S args st xs st1 hg ho h1
  obtain ⟨hg2, he2, hlen, hcur2, hbl2, _, hds⟩ := newIds_good rs st1 hg1
  simp only
  generalize hst2 : (st1.newIds (rs.map mirTy)).2 = st2 at *
  generalize hds2 : (st1.newIds (rs.map mirTy)).1 = ds at *
  have he12 := he1.trans he2
  have ho2 := he12.open ho
  have he3 := emit_emitted hg2 ho2 (.Call ds g xs ⟨ps.map mirTy, rs.map mirTy⟩)
  have hg3 : Good [] (st2.emit (.Call ds g xs ⟨ps.map mirTy, rs.map mirTy⟩)) :=
    emit_good hg2 rfl (fun d hd => ⟨(hds d hd).1, (hds d hd).2.1⟩)
  refine ⟨hg3, (he12.trans he3).frame hg, ?_⟩
  intro F f hF hsf n s env hty hm
  rcases hex n s with ⟨hn, hx⟩ | hx
  · rw [hx]; exact fun k hk => absurd hk (by omega)
  rw [hx]
  have h2f := he3.ext.trans hsf
  have h1f := he2.ext.trans h2f
  have := lowerArgs_sim o S hc hF args st xs st1 hg ho h1 h1f ps hts hsm s env hty hm
  cases hev : evalArgs false calls s args with
  | none =>
    rw [hev] at this
    exact ⟨0, fun n => this n⟩
  | some zs =>
    rw [hev] at this
    obtain ⟨hzt, env1, hgo, hag, hrd⟩ := this
    have hgo2 : ∀ n, go calls F f st1 env1 n = go calls F f st2 env1 n := fun n =>
      (go_same he2.keep.current (by rw [hbl2]) env1 n).symm
    have hstep : evalInstr calls (Instr.rename f.g.sub (.Call ds g xs ⟨ps.map mirTy, rs.map mirTy⟩)) env1 =
        (calls g zs).bind fun ys => Lang.bind env1 ds ys := by
      simp only [Instr.rename, evalInstr, List.map_map, Function.comp_def, hrd, Option.bind_eq_bind,
        Option.bind_some]
    simp only [Option.bind_some]
    have hgo3 := go_emit (calls := calls) hF hg2 hsf env1
    rw [hstep] at hgo3
    cases hcl : calls g zs with
    | none =>
      rw [hcl] at hgo3
      exact ⟨0, fun n => by
        have := hgo3 n
        simp only [Option.bind_none] at this
        rw [Nat.add_zero, hgo n, hgo2 n, this]⟩
    | some ys =>
      have hys := hc g ps rs zs ys hsig hzt hcl
      obtain ⟨env2, hb, hfr⟩ := bind_agree ds ys env1 (by rw [hlen, ← hys]; simp)
      rw [hcl] at hgo3
      simp only [Option.bind_some, hb] at hgo3
      have hag2 : Agree f st1 env1 env2 := by
        intro y hy
        refine hfr y (fun hmem => ?_)
        obtain ⟨j1, j2, j3⟩ := hds y hmem
        rw [h2f.stamp y j1] at hy
        omega
      refine ⟨he3.open ho2, hty, env2, 0, ?_, fun n => by rw [Nat.add_zero, hgo n, hgo2 n, hgo3 n]⟩
      exact match_keep hg hF.good (he12.trans he3).ext hsf (he12.trans he3).keep hm (hag.trans he1.ext hag2)

/-! ### Statements one after the other -/

theorem nil_ok {S : Sem} {rets : List Ty} {ex : ℕ → Stmt → Store → Outcome} :
    StmtOk S calls rets 0 some (fun n s => execList (ex n) [] s) := by
  intro st st' hg ho _ h
  cases h
  refine ⟨hg, Frame.refl hg, ?_⟩
  intro F f _ _ n s env hty hm
  exact ⟨ho, hty, env, 0, hm, fun _ => rfl⟩

theorem seq_ok {S : Sem} {rets : List Ty} {low low' : St → Option St} {ex ex1 ex2 : ℕ → Store → Outcome}
    {d1 d2 d : ℕ} (h1 : StmtOk S calls rets d1 low ex1) (h2 : StmtOk S calls rets d2 low' ex2)
    (hex : ∀ n s, (n < d ∧ ex n s = .timeout) ∨ ∃ m1 m2, n + d1 ≤ m1 + d ∧ n + d2 ≤ m2 + d ∧ ex n s = match ex1 m1 s with
      | .normal s' => ex2 m2 s'
      | x => x) :
    StmtOk S calls rets d (fun st => (low st).bind fun st => if st.terminated then some st else low' st) ex := by
  intro st st' hg ho hl h
  simp only [Option.bind_eq_some_iff] at h
  obtain ⟨st1, ha, hb⟩ := h
  obtain ⟨hg1, hf1, hs1⟩ := h1 st st1 hg ho hl ha
  cases ht : st1.terminated with
  | true =>
    rw [ht, if_pos rfl] at hb
    cases hb
    refine ⟨hg1, hf1, ?_⟩
    intro F f hF hsf n s env hty hm
    rcases hex n s with ⟨hn, hx⟩ | ⟨m1, m2, hm1, hm2, hx⟩
    · rw [hx]; exact fun k hk => absurd hk (by omega)
    rw [hx]
    have := hs1 F f hF hsf m1 s env hty hm
    cases he : ex1 m1 s with
    | normal s' => rw [he] at this; rw [this.1] at ht; cases ht
    | timeout => rw [he] at this; exact Out.less (by omega) this
    | _ => rw [he] at this; exact this
  | false =>
    rw [ht] at hb
    simp only [Bool.false_eq_true, if_false] at hb
    obtain ⟨hg2, hf2, hs2⟩ := h2 st1 st' hg1 ht (hl.frame hf1) hb
    refine ⟨hg2, hf1.trans hf2, ?_⟩
    intro F f hF hsf n s env hty hm
    rcases hex n s with ⟨hn, hx⟩ | ⟨m1, m2, hm1, hm2, hx⟩
    · rw [hx]; exact fun k hk => absurd hk (by omega)
    rw [hx]
    have := hs1 F f hF (hf2.ext.trans hsf) m1 s env hty hm
    cases he : ex1 m1 s with
    | normal s' =>
      rw [he] at this
      obtain ⟨_, hty', env', N, hm', hgo⟩ := this
      have h3 := hs2 F f hF hsf m2 s' env' hty' hm'
      rw [hf1.loops] at h3
      exact (h3.less (by omega)).pre N hgo
    | timeout => rw [he] at this; exact Out.less (x := .timeout) (by omega) this
    | _ => rw [he] at this; exact this

end Lower
end CairoM
