import Verif.ProgramBlock

/-!
# Helper lemmas: execution of the code of a function with calls
-/

namespace CairoM
namespace Codegen

open Mir Lang Relation

variable {code : List IB} {tgt : Name → Option ℕ} {fp : M31} {m m' : Isa.Mem} {b b' b₁ : Builder} {lo hi fr : ℤ}
  {f : Function} {L l : Layout} {ts : List MirType} {e e' : Env} {blk : Block} {md : Module} {g g' : Gen} {i : Instr}
  {live : BlockId → ValueId → Prop} {k : BlockId} {calls : Calls} {C : CallRel} {Q : ℕ → Isa.Mem → Prop}
  {types : ValueId → Option MirType} {T : ValueId → Prop} {a a' c : Env}

/-! ### Only the values in use matter -/

theorem Agree.update_dest {d : ValueId} {x : Val} (h : Agree T a c) :
    Agree (fun v => T v ∨ v ∈ [d]) (Function.update a d (some x)) (Function.update c d (some x)) := by
  intro v hv
  by_cases e : v = d
  · subst e; simp
  · rw [Function.update_of_ne e, Function.update_of_ne e]
    rcases hv with hv | hv
    · exact h v hv
    · simp only [List.mem_singleton] at hv; exact absurd hv e

theorem bind_agree_dest : ∀ {ds : List ValueId} {ys : List Val} {T : ValueId → Prop} {a a' c : Env}, Agree T a c →
    Lang.bind a ds ys = some a' → ∃ c', Lang.bind c ds ys = some c' ∧ Agree (fun v => T v ∨ v ∈ ds) a' c'
  | [], [], T, a, a', c, h, hb => by
    simp only [Lang.bind, Option.some.injEq] at hb; subst hb
    exact ⟨c, rfl, h.mono fun v hv => by simpa using hv⟩
  | [], _ :: _, T, a, a', c, h, hb => by simp [Lang.bind] at hb
  | _ :: _, [], T, a, a', c, h, hb => by simp [Lang.bind] at hb
  | d :: ds, y :: ys, T, a, a', c, h, hb => by
    simp only [Lang.bind] at hb ⊢
    obtain ⟨c', h1, h2⟩ := bind_agree_dest (Agree.update_dest (d := d) (x := y) h) hb
    exact ⟨c', h1, h2.mono fun v hv => by simpa [or_assoc] using hv⟩

theorem evalInstr_dest (hsim : InstrCalls types i) (h : Agree T a c) (hu : ∀ v ∈ i.uses, T v)
    (hev : evalInstr calls i a = some a') :
    ∃ c', evalInstr calls i c = some c' ∧ Agree (fun v => T v ∨ v ∈ i.destinations) a' c' := by
  cases i <;> simp only [InstrCalls, InstrSimple] at hsim <;>
    simp only [evalInstr, Option.bind_eq_bind, Option.bind_eq_some_iff, Option.some.injEq] at hev ⊢ <;>
    simp only [Instr.uses, List.mem_append] at hu
  case Assign d v ty =>
    obtain ⟨t, h1, x, h2, rfl⟩ := hev
    rw [readAt_agree h hu] at h2
    exact ⟨_, ⟨t, h1, x, h2, rfl⟩, Agree.update_dest h⟩
  case UnaryOp op d v =>
    obtain ⟨x, h1, y, h2, rfl⟩ := hev
    rw [readPlain_agree h hu] at h1
    exact ⟨_, ⟨x, h1, y, h2, rfl⟩, Agree.update_dest h⟩
  case BinaryOp op d l r =>
    obtain ⟨x, h1, y, h2, z, h3, rfl⟩ := hev
    rw [operand_agree h (fun v hv => hu v (.inl hv))] at h1
    rw [operand_agree h (fun v hv => hu v (.inr hv))] at h2
    exact ⟨_, ⟨x, h1, y, h2, z, h3, rfl⟩, Agree.update_dest h⟩
  case Call ds cl args sig =>
    obtain ⟨xs, h1, ys, h2, h3⟩ := hev
    rw [readAll_agree h hu] at h1
    obtain ⟨c', q1, q2⟩ := bind_agree_dest h h3
    exact ⟨c', ⟨xs, h1, ys, h2, q1⟩, q2⟩
  case Cast d v s t =>
    obtain ⟨s', h1, t', h2, x, h3, y, h4, rfl⟩ := hev
    rw [readAt_agree h hu] at h3
    exact ⟨_, ⟨s', h1, t', h2, x, h3, y, h4, rfl⟩, Agree.update_dest h⟩
  case Nop =>
    subst hev
    exact ⟨c, rfl, h.mono fun v hv => by simpa [Instr.destinations] using hv⟩
  case AssertEq l r =>
    obtain ⟨x, h1, y, h2, h3⟩ := hev
    rw [readPlain_agree h (fun v hv => hu v (.inl hv))] at h1
    rw [readPlain_agree h (fun v hv => hu v (.inr hv))] at h2
    split_ifs at h3 with hq
    injection h3 with h3
    subst h3
    exact ⟨c, ⟨x, h1, y, h2, by rw [if_pos hq]⟩, h.mono fun v hv => by simpa [Instr.destinations] using hv⟩

theorem evalInstrs_dest {term : Terminator} : ∀ {is : List Instr} {T : ValueId → Prop} {a a' c : Env},
    (∀ i ∈ is, InstrCalls types i) → Defined T is term → Agree T a c → evalInstrs calls is a = some a' →
    ∃ c', evalInstrs calls is c = some c' ∧ Agree (fun v => T v ∨ ∃ i ∈ is, v ∈ i.destinations) a' c' ∧
      ∀ v ∈ term.uses, T v ∨ ∃ i ∈ is, v ∈ i.destinations
  | [], T, a, a', c, _, hd, h, hev => by
    simp only [evalInstrs, Option.some.injEq] at hev ⊢
    subst hev
    exact ⟨c, rfl, h.mono fun v hv => by simpa using hv, fun v hv => .inl (hd v hv)⟩
  | i :: is, T, a, a', c, hsim, hd, h, hev => by
    simp only [evalInstrs, Option.bind_eq_bind, Option.bind_eq_some_iff] at hev ⊢
    obtain ⟨a1, e1, e2⟩ := hev
    obtain ⟨c1, q1, q2⟩ := evalInstr_dest (hsim i (by simp)) h hd.1 e1
    obtain ⟨c', r1, r2, r3⟩ := evalInstrs_dest (fun j hj => hsim j (by simp [hj])) hd.2 q2 e2
    refine ⟨c', ⟨c1, q1, r1⟩, r2.mono fun v hv => ?_, fun v hv => ?_⟩
    · simpa [or_assoc] using hv
    · simpa [or_assoc] using r3 v hv

open Classical in
/-- The part of an environment on a set of values. -/
noncomputable def part (T : ValueId → Prop) (e : Env) : Env := fun v => if T v then e v else none

theorem part_agree : Agree T e (part T e) := fun v hv => by simp [part, hv]

theorem part_some {v : ValueId} {x : Val} (h : part T e v = some x) : T v ∧ e v = some x := by
  unfold part at h
  split_ifs at h with hc
  exact ⟨hc, h⟩

theorem evalPhis_calls {pred : Option BlockId} {is : List Instr} (h : ∀ i ∈ is, InstrCalls types i) :
    evalPhis e pred is e' = some (e', is) := by
  cases is with
  | nil => rfl
  | cons i is =>
    have := h i (by simp)
    cases i <;> first | rfl | exact this.elim

theorem goto_target {t : BlockId} {rs : List (Option MirType)} {term : Terminator}
    (h : evalTerm rs e term = some (.goto t)) : t ∈ term.targets := by
  cases term
  case Jump => simp only [evalTerm, Option.some.injEq, Exit.goto.injEq] at h; subst h; simp [Terminator.targets]
  case If c x y =>
    simp only [evalTerm, Option.bind_eq_bind, Option.bind_eq_some_iff, Option.some.injEq, choose] at h
    obtain ⟨_, -, p, -, h⟩ := h
    split_ifs at h <;> injection h with h <;> subst h <;> simp [Terminator.targets]
  case BranchCmp =>
    simp only [evalTerm, Option.bind_eq_bind, Option.bind_eq_some_iff, Option.some.injEq, choose] at h
    obtain ⟨_, -, _, -, _, -, p, -, h⟩ := h
    split_ifs at h <;> injection h with h <;> subst h <;> simp [Terminator.targets]
  case Return => simp [evalTerm] at h
  case Unreachable => simp [evalTerm] at h

theorem ret_values {rs : List (Option MirType)} {term : Terminator} {xs : List Val}
    (h : evalTerm rs e term = some (.ret xs)) : ∃ vs, term = .Return vs ∧ readAll e rs vs = some xs := by
  cases term
  case Return vs =>
    simp only [evalTerm, Option.map_eq_some_iff, Exit.ret.injEq] at h
    obtain ⟨xs', h1, rfl⟩ := h
    exact ⟨vs, rfl, h1⟩
  case Jump => simp [evalTerm] at h
  case If =>
    simp only [evalTerm, Option.bind_eq_bind, Option.bind_eq_some_iff, Option.some.injEq, choose] at h
    obtain ⟨_, -, p, -, h⟩ := h
    split_ifs at h
  case BranchCmp =>
    simp only [evalTerm, Option.bind_eq_bind, Option.bind_eq_some_iff, Option.some.injEq, choose] at h
    obtain ⟨_, -, _, -, _, -, p, -, h⟩ := h
    split_ifs at h
  case Unreachable => simp [evalTerm] at h

/-- Returned values have the declared types. -/
theorem exec_typed (hs : Calling f live) (hco : ∀ blk ∈ f.blocks, CallsOk md blk calls C)
    (hts : returnTypes f f.returns = .ok ts) {vs : List Val} : ∀ {n : ℕ} {pred : Option BlockId} {k : BlockId} {e : Env},
    EnvTyped f.types e → exec calls f n pred k e = .returned vs →
    List.Forall₂ (fun y (t : MirType) => ValTy y (some t)) vs ts
  | 0, pred, k, e, _, h => by cases h
  | n + 1, pred, k, e, hty, h => by
    simp only [exec] at h
    cases hk : f.blocks[k]? with
    | none => rw [hk] at h; cases h
    | some blk =>
      rw [hk] at h
      simp only at h
      have hblk : blk ∈ f.blocks := List.mem_of_getElem? hk
      cases hev : evalBlock calls (returnTys f) blk pred e with
      | none => rw [hev] at h; cases h
      | some r =>
        obtain ⟨ex, env2⟩ := r
        rw [hev] at h
        unfold evalBlock at hev
        rw [evalPhis_calls (types := f.types) fun i hi => (hs.instrs blk hblk i hi).2] at hev
        simp only [Option.bind_eq_bind, Option.bind_some, Option.bind_eq_some_iff, Option.some.injEq,
          Prod.mk.injEq] at hev
        obtain ⟨env1, ev1, ex', ev2, rfl, rfl⟩ := hev
        obtain ⟨ty1, -⟩ := eval_instrs hs hblk (hco blk hblk) (fun _ h => h) hty ev1
        cases ex' with
        | goto t => exact exec_typed hs hco hts ty1 h
        | ret xs =>
          simp only [Result.returned.injEq] at h
          subst h
          obtain ⟨us, hterm, hx⟩ := ret_values ev2
          have ht := hs.terms blk hblk
          rw [hterm] at ht
          unfold returnTys at hx
          rw [returnTys_eq hts] at hx
          exact readAll_typed ty1 (returns_typed ht (returnTys_eq hts)) hx

/-! ### Blocks -/

/-- The values live at a block are in their final slots. -/
def EntryC (live : BlockId → ValueId → Prop) (k : BlockId) (l : Layout) (fp : M31) (e : Env) (m : Isa.Mem) : Prop :=
  ∀ v x, live k v → e v = some x → ∃ s, l.values v = some s ∧ Holds m fp s.off x

theorem run_blocks_calls (hc : Base f L lo ts) (hs : Calling f live) (hkn : Knows f L) (w : Window fp lo hi)
    (hco : ∀ blk ∈ f.blocks, CallsOk md blk calls C) {bF : Builder}
    (hall : ∀ k blk, f.blocks[k]? = some blk → ∃ b0 b1 b2 next, PlacedC md f L lo ts bF k blk b0 b1 b2 next)
    (hfr : (bF.layout.frame : ℤ) ≤ fr) (hhi : fr ≤ hi) (hfit : Fits code tgt bF) {vs : List Val} :
    ∀ {n : ℕ} {pred : Option BlockId} {k : BlockId} {e : Env} {m : Isa.Mem} {p : ℕ},
    EnvTyped f.types e → EntryC live k bF.layout fp e m → tgt (blockLabel f.name k) = some p →
    exec calls f n pred k e = .returned vs →
    (∀ i m', code[i]? = some ⟨.Ret, none⟩ → HoldsAll m' fp (-((Builder.sizeSum ts : ℤ) + 2)) vs →
      SameExcept fp (Body (-2 - Builder.sizeSum ts) hi) m m' → Q i m') →
    Ev code tgt fp lo fr hi C Q p m
  | 0, pred, k, e, m, p, _, _, _, h, _ => by cases h
  | n + 1, pred, k, e, m, p, hty, hen, hp, h, hq => by
    simp only [exec] at h
    cases hk : f.blocks[k]? with
    | none => rw [hk] at h; cases h
    | some blk =>
      rw [hk] at h
      simp only at h
      obtain ⟨b0, b1, b2, next, pl⟩ := hall k blk hk
      have hblk : blk ∈ f.blocks := List.mem_of_getElem? hk
      have hlow := hc.sig.low
      have hlo : lo ≤ 0 := by omega
      have e0 : Emits lo b0 (b0.addLabel (blockLabel f.name k)) := emits_addLabel
      have sp0 := pl.spread.emits e0
      have tr0 := fun n => (pl.track n).emits e0
      obtain ⟨g, g', hgen⟩ := pl.instrs
      obtain ⟨rfl, gr1, sp1, tr1, keep1⟩ := gen_instrs_calls hc.sig hs hkn hblk (pre := []) rfl sp0 (tr0 _) hgen
      have em := emits_term hc.sig (hs.terms blk hblk) sp1.shape pl.term
      have fit2 := pl.grows.fits hfit
      have fit1 := em.toGrows.fits fit2
      have fit0 := gr1.fits fit1
      have hi2 : (b2.layout.frame : ℤ) ≤ fr := le_trans (by exact_mod_cast pl.grows.frame) hfr
      have hi1 : (b1.layout.frame : ℤ) ≤ fr := le_trans (by exact_mod_cast em.frame) hi2
      have hpk := fits_addLabel fit0
      rw [hp] at hpk
      injection hpk with hpk
      subst hpk
      cases hev : evalBlock calls (returnTys f) blk pred e with
      | none => rw [hev] at h; cases h
      | some r =>
        obtain ⟨ex, env2⟩ := r
        rw [hev] at h
        unfold evalBlock at hev
        rw [evalPhis_calls (types := f.types) fun i hi => (hs.instrs blk hblk i hi).2] at hev
        simp only [Option.bind_eq_bind, Option.bind_some, Option.bind_eq_some_iff, Option.some.injEq,
          Prod.mk.injEq] at hev
        obtain ⟨env1, ev1, ex', ev2, rfl, rfl⟩ := hev
        -- the same block on the live values only
        obtain ⟨c1, cv1, cag, cuse⟩ := evalInstrs_dest (fun i hi => (hs.instrs blk hblk i hi).2)
          (hs.ordered.uses k blk hk) (part_agree (T := live k) (e := e)) ev1
        have cv2 : evalTerm (returnTys f) c1 blk.term = some ex' := by
          rw [← evalTerm_agree cag cuse]; exact ev2
        have hty0 : EnvTyped f.types (part (live k) e) := fun v x hv => hty v x (part_some hv).2
        have hdom0 : ∀ v, part (live k) e v ≠ none → Seen live k [] v := by
          intro v hv
          obtain ⟨x, hx⟩ := Option.ne_none_iff_exists'.mp hv
          exact .inl (part_some hx).1
        have hst0 : Stored (b0.addLabel (blockLabel f.name k)).layout fp (part (live k) e) m := by
          intro v x hv
          obtain ⟨hl, hx⟩ := part_some hv
          obtain ⟨s, h1, h2⟩ := hen v x hl hx
          refine ⟨s, ?_, h2⟩
          rw [e0.values, pl.before v fun j bj hj hbj hm => ?_]
          · exact h1
          · exact absurd (hs.ordered.order j bj hbj v hm k hl).1 (Nat.not_lt.mpr hj)
        obtain ⟨cty, cdom⟩ := eval_instrs hs hblk (hco blk hblk) (fun _ h => h) hty0 cv1
        obtain ⟨ety, -⟩ := eval_instrs hs hblk (hco blk hblk) (fun _ h => h) hty ev1
        have cdom' : ∀ v, c1 v ≠ none → Seen live k blk.instrs v := by
          intro v hv
          rcases cdom v hv with h | h
          · rcases hdom0 v h with h | ⟨_, h, _⟩
            · exact .inl h
            · cases h
          · exact .inr h
        refine run_instrs_calls (b := b0.addLabel (blockLabel f.name k)) hc hs hkn hk w (hco blk hblk) hhi (pre := []) rfl sp0 (tr0 _) hgen hty0 hdom0 hst0 cv1 hi1 fit1
          fun m1 hst1 hs1 => ?_
        have a1 := hst1.agrees (blk := blk) cdom' (fun _ h => h)
        cases ex' with
        | ret xs =>
          simp only [Result.returned.injEq] at h
          subst h
          obtain ⟨i, m2, q1, q2, q3, q4⟩ := run_return hc.sig (hs.terms blk hblk) (homes_calls hc hs hk sp1)
            le_rfl (fun vs e => retHomes_calls hc hs hk sp1 e) w sp1.shape pl.term cty a1 cv2 (hi2.trans hhi) fit2
          have hhi0 : 0 ≤ hi := by omega
          exact Ev.runs q1 (.now (hq i m2 q2 q3 (hs1.trans (q4.mono fun o ho => ⟨by omega, by omega, by omega, by omega⟩))))
        | goto t =>
          simp only at h
          have hkt : ∃ blk', f.blocks[t]? = some blk' := by
            cases n with
            | zero => cases h
            | succ n =>
              simp only [exec] at h
              cases ht : f.blocks[t]? with
              | none => rw [ht] at h; cases h
              | some x => exact ⟨x, rfl⟩
          obtain ⟨blk', hk'⟩ := hkt
          obtain ⟨c0, c1', c2, nx, pl'⟩ := hall t blk' hk'
          obtain ⟨q, hq'⟩ : ∃ q, tgt (blockLabel f.name t) = some q := by
            obtain ⟨g2, g2', hgen'⟩ := pl'.instrs
            have hblk' : blk' ∈ f.blocks := List.mem_of_getElem? hk'
            have e0' : Emits lo c0 (c0.addLabel (blockLabel f.name t)) := emits_addLabel
            obtain ⟨-, gr1', sp1', -⟩ := gen_instrs_calls hc.sig hs hkn hblk' (pre := []) rfl (pl'.spread.emits e0')
              ((pl'.track _).emits e0') hgen'
            have em' := emits_term hc.sig (hs.terms blk' hblk') sp1'.shape pl'.term
            exact ⟨_, fits_addLabel (gr1'.fits (em'.toGrows.fits (pl'.grows.fits hfit)))⟩
          obtain ⟨m2, r2, s2⟩ := run_goto hc.sig (hs.terms blk hblk) (homes_calls hc hs hk sp1)
            le_rfl w sp1.shape pl.term cty a1 cv2 (hi2.trans hhi) fit2
            (fun t' ht' => hfit.labels _ (pl.next t' ht')) hq'
          have hfr2 := em.frame
          refine Ev.runs r2 (run_blocks_calls hc hs hkn w hco hall hfr hhi hfit ety ?_ hq' h fun i m' x1 x2 x3 =>
            hq i m' x1 x2 (hs1.trans ((s2.mono fun o ho => ⟨by omega, by omega, by omega, by omega⟩).trans x3)))
          have hst2 : Stored b1.layout fp c1 m2 :=
            hst1.same sp1.shape cty w sp1.ends (fun o ho => ⟨ho.1, by omega⟩) (by omega) (by omega) s2
          intro v x hl hx
          have hseen := hs.ordered.succ k blk hk t (goto_target ev2) v hl
          rw [cag v hseen] at hx
          obtain ⟨s, h1, h2⟩ := hst2 v x hx
          refine ⟨s, ?_, h2⟩
          rw [← pl.after v fun j bj hj hbj hm => ?_]
          · exact h1
          · rcases hseen with hseen | ⟨i, hi, hd⟩
            · exact absurd (hs.ordered.order j bj hbj v hm k hseen).1 (Nat.not_lt.mpr (Nat.le_of_lt hj))
            · obtain ⟨i', hi', hd'⟩ := hm.dest
              have := block_unique (hs.ordered.once bj (List.mem_of_getElem? hbj) v hm) hk hbj hi hi' hd hd'
              exact absurd this (Nat.ne_of_gt hj)

/-! ### Functions -/

theorem spread_init (hc : Base f L lo ts)
    (hz : ∀ v s, L.values v = some s → v ∈ f.params ∧ s.off + s.size ≤ -2 - (L.retSlots : ℤ) ∨ v ∉ f.params ∧ 0 ≤ s.off) :
    Spread f L lo ts L := by
  refine ⟨⟨hc.range, hc.sized, hc.ret.symm⟩, fun v s h => ⟨s, h⟩, fun v s h => ?_, fun v w s t hne hv hw _ _ => hc.apart v w s t hne hv hw⟩
  rcases hz v s h with ⟨h1, h2⟩ | ⟨h1, h2⟩
  · rw [← hc.ret] at h2; exact .inl ⟨h1, h, h2⟩
  · exact .inr (.inl ⟨h1, h2⟩)

theorem track_init (c : ℕ) (n : Name) (hsp : Spread f L lo ts L) (next : Option Instr) : Track next ((Builder.new L c).addLabel n) := by
  have hm : ((Builder.new L c).addLabel n).maxWritten + 1 = L.frame := by
    simp only [Builder.addLabel, Builder.new]
    split_ifs <;> omega
  refine ⟨by omega, ?_, fun v s hs => .inl ?_⟩
  · rw [hm]; rfl
  · rw [hm]; exact hsp.ends v s hs

/-- The code of a function with calls. -/
theorem run_function (hs : Calling f live) (hL : Layout.new f = .ok L) {cnt : ℕ}
    (hgen : genBlocks md f f.blocks 0 g ((Builder.new L cnt).addLabel f.name) = .ok (g', b))
    (hco : ∀ blk ∈ f.blocks, CallsOk md blk calls C) (hfit : Fits code tgt b) {args vs : List Val}
    (hargs : List.Forall₂ (fun x p => ValTy x (f.types p)) args f.params)
    (hfr : (b.layout.frame : ℤ) ≤ fr) (hhi : fr ≤ hi)
    (w : Window fp (-(widths args : ℤ) - widths vs - 2) hi)
    (hm : HoldsAll m fp (-(widths args : ℤ) - widths vs - 2) args)
    {n : ℕ} (hrun : run calls f n args = .returned vs) :
    f.returns.map f.types = ts.map some → 
    List.Forall₂ (fun y (t : MirType) => ValTy y (some t)) vs ts ∧
    Ev code tgt fp (-(widths args : ℤ) - widths vs - 2) fr hi C
      (fun i m' => code[i]? = some ⟨.Ret, none⟩ ∧ HoldsAll m' fp (-(widths vs : ℤ) - 2) vs ∧
        SameExcept fp (Body (-(widths vs : ℤ) - 2) hi) m m') 0 m := by
  intro hrts
  obtain ⟨us, hc, -, hz, hpar⟩ := base_of_layout (m := m) (fp := fp) hL hargs
  have hus : us = ts := by
    have := returnTys_eq hc.rts
    rw [hrts] at this
    exact (List.map_injective_iff.mpr (Option.some_injective _) this).symm
  subst hus
  unfold run at hrun
  cases hb : Lang.bind (fun _ => none) f.params args with
  | none => rw [hb] at hrun; cases hrun
  | some env =>
    rw [hb] at hrun
    simp only at hrun
    have hty : EnvTyped f.types env := bind_args_typed (fun v x hx => by cases hx) hargs hb
    have hvs := exec_typed hs hco hc.rts hty hrun
    refine ⟨hvs, ?_⟩
    have hw : widths vs = L.retSlots := by rw [widths_typed hvs, hc.ret]
    rw [hw] at w hm ⊢
    have hkn : Knows f L := fun v hv => hc.laid v (.inr hv)
    have hsp := spread_init hc hz
    obtain ⟨-, gr, -, hall, hfirst, -⟩ := gen_blocks_calls hc.sig hs hkn (b := (Builder.new L cnt).addLabel f.name) (i := 0) rfl hsp
      (track_init cnt f.name hsp) hgen
    have hall' : ∀ k blk, f.blocks[k]? = some blk →
        ∃ b0 b1 b2 next, PlacedC md f L (-(widths args : ℤ) - L.retSlots - 2) us b k blk b0 b1 b2 next := by
      intro k blk hk
      obtain ⟨b0, b1, b2, nx, h1, -⟩ := hall k blk (Nat.zero_le _) hk
      exact ⟨b0, b1, b2, nx, h1⟩
    have hne : f.blocks ≠ [] := by
      intro e
      cases n with
      | zero => cases hrun
      | succ n => simp [exec, e] at hrun
    have hstart : tgt (blockLabel f.name 0) = some 0 := hfit.labels _ (hfirst hne)
    have hen : EntryC live 0 b.layout fp env m := by
      intro v x hl hv
      obtain ⟨s, h1, h2⟩ := hpar env hb hm v x hv
      refine ⟨s, ?_, h2⟩
      obtain ⟨blk0, hb0⟩ : ∃ blk0, f.blocks[0]? = some blk0 := by
        cases hf : f.blocks with
        | nil => exact absurd hf hne
        | cons x xs => exact ⟨x, rfl⟩
      obtain ⟨b0, b1, b2, nx, pl, hb0', -⟩ := hall 0 blk0 le_rfl hb0
      rw [← pl.before v fun j bj _ hbj hmv => ?_]
      · rw [hb0' rfl]; exact h1
      · exact hs.ordered.params v (by
          obtain ⟨i, hi, hd⟩ := hmv.dest
          exact mem_locals (List.mem_of_getElem? hbj) hi hd) (hs.ordered.entry v hl)
    refine run_blocks_calls hc hs hkn w hco hall' hfr hhi hfit hty hen hstart hrun fun i m' q1 q2 q3 => ?_
    rw [hc.ret] at q2 q3
    rw [show (-(L.retSlots : ℤ) - 2) = -((L.retSlots : ℤ) + 2) by ring]
    refine ⟨q1, q2, q3.mono fun o ho => ⟨by have := ho.1; omega, ho.2⟩⟩

end Codegen
end CairoM
