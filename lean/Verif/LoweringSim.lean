import Verif.LoweringClose

/-!
# The lowering: points of the finished function

Helper lemmas. `Fin F f rets`: `F` is the function built from the final state `f`. A state `st` on the way to `f`
is a point of `F`: the end of what has been emitted in the current block.
-/

namespace CairoM
namespace Lower

open Mir Lang Source

variable {stk : List (Var × BlockId × ValueId)} {st : St} {calls : Calls}

/-- The finished function and the final state it is built from. -/
structure Fin (F : Function) (f : St) (rets : List Ty) : Prop where
  good : Good [] f
  sealed : ∀ b k, f.g.start b = some k → f.sealed b = true
  blocks : ∀ b, F.blocks[b]? = if b < f.count then some (f.blocks b).done else none
  rets : returnTys F = rets.map fun t => some (mirTy t)
  fixI : ∀ b, ∀ i ∈ (f.blocks b).instrs, Instr.rename f.g.sub i = i
  fixT : ∀ b, Terminator.rename f.g.sub (f.blocks b).term = (f.blocks b).term
  fixP : ∀ b, ∀ φ ∈ (f.blocks b).phis, ∀ s ∈ φ.sources, f.g.sub s.2 = s.2
  entry : (f.blocks 0).phis = []

/-- What follows a block. -/
def after (calls : Calls) (F : Function) (b : BlockId) (t : Terminator) (env : Env) (n : ℕ) : Result :=
  match evalTerm (returnTys F) env t with
  | none => .fault
  | some (.ret vs) => .returned vs
  | some (.goto c) => Lang.exec calls F n (some b) c env

/-- Running from instruction `k` of block `b`, phi nodes not counted. -/
def goFrom (calls : Calls) (F : Function) (f : St) (b : BlockId) (k : ℕ) (env : Env) (n : ℕ) : Result :=
  match evalInstrs calls ((f.blocks b).instrs.drop k) env with
  | none => .fault
  | some env' => after calls F b (f.blocks b).term env' n

/-- Number of instructions of the current block. -/
def St.len (st : St) : ℕ := (st.blocks st.current).instrs.length

/-- Running from the point `st`. -/
def go (calls : Calls) (F : Function) (f st : St) (env : Env) (n : ℕ) : Result :=
  goFrom calls F f st.current st.len env n

/-- The value of a variable at the point `st`. -/
def defAt (f st : St) (v : Var) : Option ValueId :=
  ((st.cur v st.current).map f.g.sub).or (f.g.ent v st.current)

/-- The environment holds the values of the variables at the point `st`. -/
def Match (f st : St) (s : Store) (env : Env) : Prop :=
  ∀ v id, defAt f st v = some id → ∃ x, s v = some x ∧ env id = some x

/-- The environment holds the values of the variables on the edge from `a` to `b`. -/
def EdgeMatch (f : St) (a b : BlockId) (s : Store) (env : Env) : Prop :=
  a ∈ (f.blocks b).preds ∧ ∀ v id, f.norm v a = some id → ∃ x, s v = some x ∧ env id = some x

/-- The two environments agree on what exists at the point `st`. -/
def Agree (f st : St) (env env' : Env) : Prop := ∀ y, f.g.stamp y < st.g.clock → env' y = env y

theorem Agree.refl {f : St} {env : Env} : Agree f st env env := fun _ _ => rfl

theorem Agree.trans {f s t : St} {e1 e2 e3 : Env} (hst : Ext s t) (h1 : Agree f s e1 e2) (h2 : Agree f t e2 e3) :
    Agree f s e1 e3 := fun y hy => by rw [h2 y (lt_of_lt_of_le hy hst.clock), h1 y hy]

theorem defAt_keep {f s t : St} (htf : Ext t f) (hk : Keep s t) (v : Var) : defAt f t v = defAt f s v := by
  unfold defAt
  rw [hk.current]
  have h2 : (t.cur v s.current).map f.g.sub = (t.norm v s.current).map f.g.sub := by
    unfold St.norm; cases t.cur v s.current <;> simp [htf.sub]
  rw [h2, hk.cur v]
  cases hc : s.cur v s.current with
  | some x => simp [htf.sub]
  | none =>
    cases he : t.g.ent v s.current with
    | none => simp
    | some e => simp [htf.ent v _ e he]

/-- The value of a variable at a point is older than what is created there. -/
theorem defAt_stamp {f : St} (hg : Good stk st) (hf : Good [] f) (hsf : Ext st f) {v : Var} {id : ValueId}
    (h : defAt f st v = some id) : f.g.stamp id < st.g.clock := by
  unfold defAt at h
  cases hc : st.cur v st.current with
  | some x =>
    simp only [hc, Option.map_some, Option.some_or, Option.some.injEq] at h
    subst h
    exact lt_of_le_of_lt (hsf.down x (hg.curLt v _ x hc)) (hg.curNow v x hc)
  | none =>
    simp only [hc, Option.map_none, Option.none_or] at h
    obtain ⟨k, hk⟩ := hg.running.2
    exact lt_of_le_of_lt (hf.entStamp v _ id k h (hsf.start _ k hk)) (hg.startLt _ k hk)

theorem match_keep {f s t : St} (hg : Good stk s) (hf : Good [] f) (hst : Ext s t) (htf : Ext t f) (hk : Keep s t)
    {σ : Store} {env env' : Env} (hm : Match f s σ env) (ha : Agree f s env env') : Match f t σ env' := by
  intro v id h
  rw [defAt_keep htf hk] at h
  obtain ⟨x, h1, h2⟩ := hm v id h
  exact ⟨x, h1, by rw [ha id (defAt_stamp hg hf (hst.trans htf) h), h2]⟩

section
variable {F : Function} {f : St} {rets : List Ty}

theorem Fin.map_fix (hF : Fin F f rets) (b : BlockId) :
    (f.blocks b).instrs.map (Instr.rename f.g.sub) = (f.blocks b).instrs := by
  conv_rhs => rw [← List.map_id (f.blocks b).instrs]
  apply List.map_congr_left
  intro i hi
  exact hF.fixI b i hi

/-- Points with the same number of instructions in the same block. -/
theorem go_same {s t : St} (hc : t.current = s.current)
    (hl : (t.blocks s.current).instrs.length = (s.blocks s.current).instrs.length) (env : Env) (n : ℕ) :
    go calls F f t env n = go calls F f s env n := by
  unfold go St.len
  rw [hc, hl]

/-- Passing an emitted instruction. -/
theorem go_emit (hF : Fin F f rets) (hg : Good stk st) {i : Instr} (ht : Ext (st.emit i) f) (env : Env) (n : ℕ) :
    go calls F f st env n =
      match evalInstr calls (Instr.rename f.g.sub i) env with
      | none => .fault
      | some env' => go calls F f (st.emit i) env' n := by
  obtain ⟨k, hk⟩ := hg.running.2
  obtain ⟨l, hl, _⟩ := ht.instrs st.current k hk
  rw [hF.map_fix, emit_instrs, if_pos rfl, List.map_append, List.append_assoc] at hl
  have hd : (f.blocks st.current).instrs.drop st.len = Instr.rename f.g.sub i :: l := by
    rw [hl]
    unfold St.len
    rw [List.drop_append_of_le_length (by simp)]
    simp
  have hd' : (f.blocks st.current).instrs.drop (st.len + 1) = l := by
    have := congrArg List.tail hd
    rw [List.tail_drop] at this
    simpa using this
  have hlen : (st.emit i).len = st.len + 1 := by
    unfold St.len
    rw [show (st.emit i).current = st.current from rfl, emit_instrs]
    simp
  unfold go goFrom
  rw [hd]
  simp only [evalInstrs, Option.bind_eq_bind]
  cases he : evalInstr calls (Instr.rename f.g.sub i) env with
  | none => simp
  | some env' =>
    simp only [Option.bind_some]
    rw [hlen, show (st.emit i).current = st.current from rfl, hd']

/-- Reaching the end of a block. -/
theorem go_end (hF : Fin F f rets) {t : St} {T : Terminator} {k : ℕ} (hk : t.g.start st.current = some k)
    (ht : Ext t f) (hT : (t.blocks st.current).term = T) (hne : T ≠ .Unreachable)
    (hl : (t.blocks st.current).instrs.length = st.len) (env : Env) (n : ℕ) :
    go calls F f st env n = after calls F st.current (Terminator.rename f.g.sub T) env n := by
  obtain ⟨l, h1, h2⟩ := ht.instrs st.current k hk
  have hln : l = [] := h2 (.inr (by rw [hT]; exact hne))
  rw [hln, List.append_nil, hF.map_fix] at h1
  have hd : (f.blocks st.current).instrs.drop st.len = [] := by
    rw [h1, ← hl]
    simp
  unfold go goFrom
  rw [hd]
  simp only [evalInstrs]
  have := ht.term st.current (by rw [hT]; exact hne)
  rw [hF.fixT, hT] at this
  rw [this]

/-- The match at the end of a block is a match on its edges. -/
theorem edge_of_match {t : St} {k : ℕ} (hk : t.g.start st.current = some k) (ht : Ext t f)
    (hcur : ∀ v, defAt f st v = ((t.cur v st.current).map f.g.sub).or (f.g.ent v st.current))
    (hb : st.current ≠ t.current ∨ (t.blocks st.current).term ≠ .Unreachable) {s : Store} {env : Env}
    (hm : Match f st s env) {b : BlockId} (hp : st.current ∈ (f.blocks b).preds) :
    EdgeMatch f st.current b s env := by
  refine ⟨hp, ?_⟩
  intro v id h
  rw [ht.cur v st.current k hk hb, ← hcur] at h
  exact hm v id h

/-! ### Entering a block -/

theorem evalPhis_list {env : Env} {a : BlockId} (φs : List Phi) (is : List Instr)
    (his : ∀ i ∈ is, isPhi i = false) (val : ValueId → Val)
    (hval : ∀ φ ∈ φs, ∃ x, φ.sources.lookup a = some x ∧ env x = some (val φ.dest) ∧ (scalarTy φ.ty).isSome = true)
    (acc : Env) : ∃ env', evalPhis env (some a) (φs.map Phi.instr ++ is) acc = some (env', is) ∧
      (∀ y, y ∉ φs.map Phi.dest → env' y = acc y) ∧
      ((φs.map Phi.dest).Nodup → ∀ φ ∈ φs, env' φ.dest = some (val φ.dest)) := by
  induction φs generalizing acc with
  | nil =>
    refine ⟨acc, ?_, by simp, by simp⟩
    cases is with
    | nil => rfl
    | cons i is =>
      have := his i (by simp)
      cases i <;> simp_all [evalPhis, isPhi]
  | cons φ φs ih =>
    obtain ⟨x, hx, he, ht⟩ := hval φ (by simp)
    obtain ⟨t, ht⟩ := Option.isSome_iff_exists.1 ht
    have hlk : ∀ ss : List (BlockId × ValueId),
        (ss.map fun s => (s.1, Value.Operand s.2)).lookup a = (ss.lookup a).map Value.Operand := by
      intro ss
      induction ss with
      | nil => rfl
      | cons s ss ih =>
        simp only [List.map_cons, List.lookup]
        split
        · simp
        · exact ih
    have hpv : phiValue env a φ.ty (φ.sources.map fun s => (s.1, Value.Operand s.2)) = some (val φ.dest) := by
      unfold phiValue
      rw [ht, hlk, hx]
      simp [readAt, he]
    obtain ⟨env', h1, h2, h3⟩ := ih (fun ψ hψ => hval ψ (List.mem_cons_of_mem _ hψ))
      (Function.update acc φ.dest (some (val φ.dest)))
    refine ⟨env', ?_, ?_, ?_⟩
    · simp only [List.map_cons, List.cons_append, Phi.instr, evalPhis, Option.bind_eq_bind, Option.bind_some]
      rw [hpv]
      exact h1
    · intro y hy
      simp only [List.map_cons, List.mem_cons, not_or] at hy
      rw [h2 y hy.2, Function.update_of_ne hy.1]
    · intro hnd ψ hψ
      simp only [List.map_cons, List.nodup_cons] at hnd
      rcases List.mem_cons.1 hψ with rfl | hψ
      · rw [h2 _ hnd.1]; simp
      · exact h3 hnd.2 ψ hψ

/-- In the final state the value of a variable at the start of a block comes from the predecessors. -/
theorem Fin.entry_cases (hF : Fin F f rets) {v : Var} {b : BlockId} {e : ValueId} (h : f.g.ent v b = some e) :
    (f.PhiOk v b e ∨ f.Pass v b e) ∧ ∃ k, f.g.start b = some k := by
  obtain ⟨x, hx⟩ := hF.good.entCur v b e h
  obtain ⟨k, hk⟩ := hF.good.curStart v b x hx
  refine ⟨?_, k, hk⟩
  rcases hF.good.entry v b e h with h | h
  · rcases h.2.2 with h' | h'
    · have := (hF.good.waiting v b e h').1
      rw [hF.sealed b k hk] at this; cases this
    · cases h'
  · exact h

/-- A value that passes through a block is not one of its phi nodes. -/
theorem pass_not_phi (hg : Good stk st) {v : Var} {b : BlockId} {e : ValueId} (h : st.Pass v b e) :
    ∀ φ ∈ (st.blocks b).phis, φ.dest ≠ e := by
  rintro φ hφ rfl
  obtain ⟨_, hfix, _, hk, _⟩ := hg.phis b φ hφ
  rcases hg.forward b _ hk with h' | ⟨a, ha, j, hj, hjk⟩
  · exact h.2.1 h'.2
  · have hn := h.2.2 a ha
    rw [← hfix] at hn
    exact (forward_value hg rfl hj hjk hn).1 hfix

theorem enter_block (hF : Fin F f rets) {a b : BlockId} {s : Store} {env : Env} (h : EdgeMatch f a b s env)
    (hb : b < f.count) :
    ∃ env', (∀ n, Lang.exec calls F (n + 1) (some a) b env = goFrom calls F f b 0 env' n) ∧
      (∀ v id, f.g.ent v b = some id → ∃ x, s v = some x ∧ env' id = some x) := by
  obtain ⟨hp, hm⟩ := h
  have hphi : ∀ φ ∈ (f.blocks b).phis, ∃ v, f.g.ent v b = some φ.dest ∧ f.PhiOk v b φ.dest := by
    intro φ hφ
    obtain ⟨_, _, ⟨v, _, he⟩, _⟩ := hF.good.phis b φ hφ
    refine ⟨v, he, ?_⟩
    rcases (hF.entry_cases he).1 with h | h
    · exact h
    · exact absurd rfl (pass_not_phi hF.good h φ hφ)
  have huniq : ∀ φ ∈ (f.blocks b).phis, ∀ ψ ∈ (f.blocks b).phis, ψ.dest = φ.dest → ψ = φ := by
    intro φ hφ ψ hψ hd
    exact List.inj_on_of_nodup_map (hF.good.nodup b) hψ hφ hd
  have hval : ∀ v e, f.PhiOk v b e → ∀ φ ∈ (f.blocks b).phis, φ.dest = e →
      ∃ x y, φ.sources.lookup a = some x ∧ s v = some y ∧ env x = some y := by
    rintro v e ⟨_, _, _, ss, ⟨ψ, hψ, hd, hs⟩, hl⟩ φ hφ hde
    obtain ⟨x, hx, hn⟩ := hl a hp
    have : ψ = φ := huniq φ hφ ψ hψ (hd.trans hde.symm)
    subst this
    rw [← hs] at hx
    have hmem : (a, x) ∈ ψ.sources := by
      clear hn hl hs
      generalize ψ.sources = l at hx
      induction l with
      | nil => simp at hx
      | cons s l ih =>
        obtain ⟨c, y⟩ := s
        simp only [List.lookup] at hx
        split at hx
        · rename_i h; cases hx; have : a = c := by simpa using h
          subst this; simp
        · exact List.mem_cons_of_mem _ (ih hx)
    rw [hF.fixP b ψ hφ _ hmem] at hn
    obtain ⟨y, h1, h2⟩ := hm v x hn
    exact ⟨x, y, hx, h1, h2⟩
  classical
  let val : ValueId → Val := fun d =>
    if h : ∃ φ ∈ (f.blocks b).phis, φ.dest = d then
      ((h.choose.sources.lookup a).bind env).getD .unit
    else .unit
  have hvals : ∀ φ ∈ (f.blocks b).phis,
      ∃ x, φ.sources.lookup a = some x ∧ env x = some (val φ.dest) ∧ (scalarTy φ.ty).isSome = true := by
    intro φ hφ
    obtain ⟨v, _, hok⟩ := hphi φ hφ
    obtain ⟨x, y, h1, _, h2⟩ := hval v _ hok φ hφ rfl
    refine ⟨x, h1, ?_, (hF.good.phis b φ hφ).2.2.2.2⟩
    have hex : ∃ ψ ∈ (f.blocks b).phis, ψ.dest = φ.dest := ⟨φ, hφ, rfl⟩
    have hch : hex.choose = φ := huniq φ hφ _ hex.choose_spec.1 hex.choose_spec.2
    have : val φ.dest = y := by
      simp only [val]
      rw [dif_pos hex, hch]
      simp [h1, h2]
    rw [this, h2]
  obtain ⟨env', e1, e2, e3⟩ := evalPhis_list (env := env) (a := a) (f.blocks b).phis (f.blocks b).instrs
    (fun i hi => (hF.good.dests b i hi).1) val hvals env
  refine ⟨env', ?_, ?_⟩
  · intro n
    rw [Lang.exec]
    rw [hF.blocks b, if_pos hb]
    simp only [evalBlock, BlockS.done, e1, Option.bind_eq_bind, Option.bind_some]
    unfold goFrom after
    rw [List.drop_zero]
    cases evalInstrs calls (f.blocks b).instrs env' with
    | none => simp
    | some env2 =>
      simp only [Option.bind_some]
      cases evalTerm (returnTys F) env2 (f.blocks b).term with
      | none => simp
      | some x => cases x <;> simp
  · intro v id he
    rcases (hF.entry_cases he).1 with h | h
    · have hok := h
      obtain ⟨_, _, _, ss, ⟨φ, hφ, hd, _⟩, _⟩ := h
      obtain ⟨x, y, h1, h2, h3⟩ := hval v id hok φ hφ hd
      obtain ⟨x', h1', h2', _⟩ := hvals φ hφ
      rw [h1] at h1'; cases h1'
      rw [h3] at h2'
      refine ⟨y, h2, ?_⟩
      rw [← hd, e3 (hF.good.nodup b) φ hφ, ← h2']
    · obtain ⟨x, h1, h2⟩ := hm v id (h.2.2 a hp)
      refine ⟨x, h1, ?_⟩
      rw [e2 id ?_, h2]
      intro hmem
      obtain ⟨φ, hφ, hd⟩ := List.mem_map.1 hmem
      exact pass_not_phi hF.good h φ hφ hd

end

end Lower
end CairoM
