import Verif.MirTyping
import Mathlib.Algebra.Order.BigOperators.Group.Finset

/-!
# Constant propagation: the analysis reaches a fixed point, which describes every execution

Helper lemmas for C62.
-/

namespace CairoM
namespace Lang

open Mir

/-- Height in the lattice. -/
def rank : Lattice → ℕ
  | .Unknown => 0
  | .Const _ => 1
  | .NonConst => 2

theorem rank_le (x : Lattice) : rank x ≤ 2 := by cases x <;> simp [rank]

theorem rank_update (a b : Lattice) : rank a ≤ rank (updateLattice a b) := by
  cases a <;> cases b <;> simp [updateLattice, rank]
  split_ifs <;> simp

theorem update_fixed {a b : Lattice} (h : rank (updateLattice a b) ≤ rank a) : updateLattice a b = a := by
  cases a <;> cases b <;> simp [updateLattice, rank] at h ⊢
  split_ifs at h with hab
  · exact hab
  · simp at h

/-- The state is not changed by the instruction. -/
def Settled (s : ValueId → Lattice) (i : Instr) : Prop :=
  ∃ r, evalLattice s i = .ok r ∧ ∀ d x, r = some (d, x) → updateLattice (s d) x = s d

theorem evalLattice_dest {s : ValueId → Lattice} {i : Instr} {d : ValueId} {x : Lattice}
    (h : evalLattice s i = .ok (some (d, x))) : i.destination = some d := by
  unfold evalLattice at h
  split at h
  · cases h
  · rename_i d' hd
    rw [hd]
    split at h
    · cases h; rfl
    · split at h <;> cases h <;> rfl
    · split at h
      · split at h
        · cases h
        · cases h; rfl
        · cases h; rfl
      · cases h; rfl
    · cases h; rfl
    · cases h; rfl

theorem sweep_rank {is : List Instr} {s s' : ValueId → Lattice} (h : sweep is s = .ok s') (v : ValueId) :
    rank (s v) ≤ rank (s' v) := by
  induction is generalizing s with
  | nil => cases h; exact le_rfl
  | cons i is ih =>
    unfold sweep at h
    split at h
    · cases h
    · exact ih h
    · rename_i d x hx
      refine le_trans ?_ (ih h)
      by_cases hv : v = d
      · subst hv; rw [Function.update_self]; exact rank_update _ _
      · rw [Function.update_of_ne hv]

theorem sweep_outside {is : List Instr} {s s' : ValueId → Lattice} (h : sweep is s = .ok s') {v : ValueId}
    (hv : v ∉ is.filterMap Instr.destination) : s' v = s v := by
  induction is generalizing s with
  | nil => cases h; rfl
  | cons i is ih =>
    have hv' : v ∉ is.filterMap Instr.destination := fun hm => hv (by
      simp only [List.mem_filterMap] at hm ⊢
      obtain ⟨a, ha, hb⟩ := hm
      exact ⟨a, List.mem_cons_of_mem _ ha, hb⟩)
    unfold sweep at h
    split at h
    · cases h
    · exact ih h hv'
    · rename_i d x hx
      rw [ih h hv', Function.update_of_ne]
      rintro rfl
      exact hv (List.mem_filterMap.mpr ⟨i, by simp, evalLattice_dest hx⟩)

theorem sweep_fixed {is : List Instr} {s s' : ValueId → Lattice} (h : sweep is s = .ok s')
    (hr : ∀ v, rank (s' v) ≤ rank (s v)) : s' = s ∧ ∀ i ∈ is, Settled s i := by
  induction is generalizing s with
  | nil => cases h; exact ⟨rfl, by simp⟩
  | cons i is ih =>
    unfold sweep at h
    split at h
    · cases h
    · rename_i hx
      obtain ⟨h1, h2⟩ := ih h hr
      refine ⟨h1, fun j hj => ?_⟩
      rcases List.mem_cons.mp hj with rfl | hj
      · exact ⟨none, hx, by simp⟩
      · exact h2 j hj
    · rename_i d x hx
      have hsame : updateLattice (s d) x = s d := by
        apply update_fixed
        have := sweep_rank h d
        rw [Function.update_self] at this
        exact le_trans this (hr d)
      rw [hsame, Function.update_eq_self] at h
      obtain ⟨h1, h2⟩ := ih h hr
      refine ⟨h1, fun j hj => ?_⟩
      rcases List.mem_cons.mp hj with rfl | hj
      · refine ⟨_, hx, ?_⟩
        rintro d' x' hd
        cases hd
        exact hsame
      · exact h2 j hj

/-- Total height of the destinations. -/
def total (is : List Instr) (s : ValueId → Lattice) : ℕ := ∑ v ∈ (is.filterMap Instr.destination).toFinset, rank (s v)

theorem total_le (is : List Instr) (s : ValueId → Lattice) : total is s ≤ 2 * is.length := by
  unfold total
  calc _ ≤ ∑ v ∈ (is.filterMap Instr.destination).toFinset, 2 := Finset.sum_le_sum fun v _ => rank_le _
    _ = (is.filterMap Instr.destination).toFinset.card * 2 := by rw [Finset.sum_const, smul_eq_mul]
    _ ≤ is.length * 2 := by
      refine Nat.mul_le_mul_right 2 (le_trans (List.toFinset_card_le _) (List.length_filterMap_le _ _))
    _ = 2 * is.length := Nat.mul_comm _ _

theorem sweep_total {is : List Instr} {s s' : ValueId → Lattice} (h : sweep is s = .ok s')
    (hn : ¬ ∀ v, rank (s' v) ≤ rank (s v)) : total is s < total is s' := by
  push Not at hn
  obtain ⟨v, hv⟩ := hn
  refine Finset.sum_lt_sum (fun u _ => sweep_rank h u) ⟨v, ?_, hv⟩
  by_contra hm
  rw [List.mem_toFinset] at hm
  rw [sweep_outside h hm] at hv
  exact lt_irrefl _ hv

theorem sweeps_settled {is : List Instr} {n : ℕ} {s s' : ValueId → Lattice} (h : sweeps is n s = .ok s') :
    (∀ i ∈ is, Settled s' i) ∨ total is s + n ≤ total is s' := by
  induction n generalizing s with
  | zero => cases h; exact .inr le_rfl
  | succ n ih =>
    unfold sweeps at h
    split at h
    · cases h
    · rename_i s1 h1
      by_cases hr : ∀ v, rank (s1 v) ≤ rank (s v)
      · obtain ⟨rfl, hs⟩ := sweep_fixed h1 hr
        have : ∀ k s2, sweeps is k s1 = .ok s2 → s2 = s1 := by
          intro k
          induction k with
          | zero => intro s2 h2; cases h2; rfl
          | succ k ihk => intro s2 h2; simp only [sweeps, h1] at h2; exact ihk s2 h2
        rw [this n s' h]
        exact .inl hs
      · have := sweep_total h1 hr
        rcases ih h with h2 | h2
        · exact .inl h2
        · exact .inr (by omega)

theorem sweeps_rank {is : List Instr} {n : ℕ} {s s' : ValueId → Lattice} (h : sweeps is n s = .ok s') (v : ValueId) :
    rank (s v) ≤ rank (s' v) := by
  induction n generalizing s with
  | zero => cases h; exact le_rfl
  | succ n ih =>
    unfold sweeps at h
    split at h
    · cases h
    · rename_i s1 h1
      exact le_trans (sweep_rank h1 v) (ih h)

/-- The number of sweeps in the model is enough: the final state is a fixed point, and parameters are unknown. -/
theorem constState_settled {f : Function} {s : ValueId → Lattice} (h : constState f = .ok s) :
    (∀ b ∈ f.blocks, ∀ i ∈ b.instrs, Settled s i) ∧ ∀ p ∈ f.params, s p = .NonConst := by
  unfold constState at h
  constructor
  · rcases sweeps_settled h with h1 | h1
    · intro b hb i hi
      exact h1 i (List.mem_flatMap.mpr ⟨b, hb, hi⟩)
    · exfalso
      have h2 := total_le (f.blocks.flatMap Block.instrs) s
      have h3 : (f.blocks.flatMap Block.instrs).length = instrCount f.blocks := by
        unfold instrCount; rw [List.length_flatMap]
      rw [h3] at h2
      omega
  · intro p hp
    have := sweeps_rank h p
    simp only [initialState, if_pos hp] at this
    cases hs : s p with
    | NonConst => rfl
    | Unknown => rw [hs] at this; simp [rank] at this
    | Const l => rw [hs] at this; simp [rank] at this

/-- A literal represents a run-time value. -/
def Represents (l : Literal) (x : Val) : Prop := ∃ t, denote t l = some x ∧ (t = .felt → Canon l)

/-- What the analysis says of a value that has been computed is true. -/
def Sound (L : Lattice) (x : Val) : Prop := L ≠ .Unknown ∧ ∀ l, L = .Const l → Represents l x

/-- The analysis describes the environment. -/
def Describes (s : ValueId → Lattice) (env : Env) : Prop := ∀ v x, env v = some x → Sound (s v) x

variable {types : ValueId → Option MirType} {s : ValueId → Lattice} {env env' : Env} {calls : Calls}

theorem Describes.update (h : Describes s env) {d : ValueId} {x : Val} (hx : Sound (s d) x) :
    Describes s (Function.update env d (some x)) := by
  intro v y hy
  by_cases hv : v = d
  · subst hv; simp only [Function.update_self, Option.some.injEq] at hy; subst hy; exact hx
  · rw [Function.update_of_ne hv] at hy; exact h v y hy

/-- If the result of an instruction is sound, so is the state that is not changed by it. -/
theorem Sound.settled {a L : Lattice} {x : Val} (h : Sound L x) (hs : updateLattice a L = a) : Sound a x := by
  obtain ⟨h1, h2⟩ := h
  cases a with
  | Unknown => simp only [updateLattice] at hs; exact absurd hs h1
  | NonConst => exact ⟨by simp, by simp⟩
  | Const l =>
    refine ⟨by simp, fun l' hl => ?_⟩
    cases hl
    cases L with
    | Unknown => exact absurd rfl h1
    | NonConst => simp [updateLattice] at hs
    | Const l2 =>
      simp only [updateLattice] at hs
      split_ifs at hs with he
      exact h2 l (by rw [he])

theorem sound_nonConst (x : Val) : Sound .NonConst x := ⟨by simp, by simp⟩

theorem Represents.denote_eq {l : Literal} {x : Val} {t : Ty} (h : Represents l x) (ht : x.HasTy t) :
    denote t l = some x := by
  obtain ⟨t', h1, _⟩ := h
  rw [hasTy_unique ht (denote_hasTy h1)]
  exact h1

/-! ### The rewritten operands have the same values -/

theorem readAt_constant (h : Describes s env) (ht : EnvTyped types env) {v : Value} {mt : MirType} {t : Ty} {x : Val}
    (hv : HasType types v mt) (hmt : scalarTy mt = some t) (hx : readAt env t v = some x) :
    readAt env t (v.constant s) = some x := by
  cases v with
  | Literal l => exact hx
  | Error => exact hx
  | Operand v =>
    have hty := readAt_typed ht hv hmt hx
    simp only [Value.constant]
    cases hs : s v with
    | Const l => exact ((h v x hx).2 l hs).denote_eq hty
    | _ => exact hx

theorem readPlain_constant (h : Describes s env) {v : Value} {x : Val} (hx : readPlain env v = some x)
    (hn : ∀ n, x ≠ .u32 n) : readPlain env (v.constant s) = some x := by
  cases v with
  | Literal l => exact hx
  | Error => exact hx
  | Operand v =>
    simp only [Value.constant]
    cases hs : s v with
    | Const l =>
      obtain ⟨t, h1, _⟩ := (h v x hx).2 l hs
      have : plainTy l = t := by
        cases l <;> cases t <;> simp only [denote, reduceCtorEq, Option.some.injEq] at h1 <;> first | rfl | skip
        exact absurd h1.symm (hn _)
      simp only [readPlain, this, h1]
    | _ => exact hx

theorem operand_constant (h : Describes s env) {op : BinaryOp} {v : Value} {x : Val} {t : Ty}
    (hx : operand env op v = some x) (hty : x.HasTy t) (ho : operandTy op t) :
    operand env op (v.constant s) = some x := by
  cases v with
  | Literal l => exact hx
  | Error => exact hx
  | Operand v =>
    simp only [Value.constant]
    cases hs : s v with
    | Const l =>
      have h1 := ((h v x hx).2 l hs).denote_eq hty
      have : literalTy op l = t := by
        cases op <;> simp only [operandTy] at ho <;> first
          | exact ho.symm
          | (rcases ho with rfl | rfl <;> cases l <;> simp only [denote, reduceCtorEq] at h1 <;> rfl)
      simp only [operand, this, h1]
    | _ => exact hx

theorem readAll_constant (h : Describes s env) (ht : EnvTyped types env) {vs : List Value} {ts : List MirType}
    {xs : List Val} (hv : List.Forall₂ (HasType types) vs ts) (hx : readAll env (ts.map some) vs = some xs) :
    readAll env (ts.map some) (vs.map (Value.constant s)) = some xs := by
  induction hv generalizing xs with
  | nil => exact hx
  | @cons v t vs ts h1 h2 ih =>
    simp only [List.map_cons, readAll, Option.bind_eq_bind, Option.bind_eq_some_iff, Option.bind_some,
      Option.some.injEq] at hx ⊢
    obtain ⟨t', ht', x, hx, ys, hys, rfl⟩ := hx
    exact ⟨t', ht', x, readAt_constant h ht h1 ht' hx, ys, ih hys, rfl⟩

/-! ### The analysis describes the results -/

theorem sound_operand (h : Describes s env) {t : Ty} {v : Value} {x : Val} (hx : readAt env t v = some x)
    (hl : ∀ l, v = .Literal l → t = .felt → Canon l) : Sound (latticeOf s v) x := by
  cases v with
  | Literal l =>
    refine ⟨by simp [latticeOf], fun l' hl' => ?_⟩
    cases hl'
    exact ⟨t, hx, hl l rfl⟩
  | Operand v => exact h v x hx
  | Error => cases hx

/-- The literal operand of a well-typed instruction is canonical. -/
theorem HasType.canon {v : Value} {mt : MirType} {t : Ty} (h : HasType types v mt) (ht : scalarTy mt = some t)
    {l : Literal} (hl : v = .Literal l) (hf : t = .felt) : Canon l := by
  subst hl
  obtain ⟨ty, x, h1, h2, h3⟩ := h
  rw [ht] at h1; injection h1 with h1; subst h1
  exact h3 hf

theorem evalInstr_describes {i : Instr} (hs : Settled s i) (hi : InstrTyped types i) (ht : EnvTyped types env)
    (h : Describes s env) (hm : i.destinations.length ≤ 1) (he : evalInstr calls i env = some env') :
    Describes s env' ∧ evalInstr calls (i.constant s) env = some env' := by
  obtain ⟨r, hr, hfix⟩ := hs
  cases i <;> simp only [evalInstr, Option.bind_eq_bind, Option.bind_eq_some_iff, Option.some.injEq,
    reduceCtorEq, Instr.constant] at he ⊢
  case Assign d v ty =>
    obtain ⟨t, hty, x, hx, rfl⟩ := he
    simp only [evalLattice, Instr.destination, Instr.destinations, Except.ok.injEq] at hr
    refine ⟨h.update ((sound_operand h hx fun l hl hf => hi.2.canon hty hl hf).settled (hfix d _ hr.symm)),
      t, hty, x, readAt_constant h ht hi.2 hty hx, rfl⟩
  case UnaryOp op d v =>
    have hty := evalInstr_typed (calls := calls) (env' := env') hi ht (by simp) (by
      simp only [evalInstr, Option.bind_eq_bind, Option.bind_eq_some_iff, Option.some.injEq]; exact he)
    obtain ⟨x, hx, y, hy, rfl⟩ := he
    have hn : ∀ n, x ≠ .u32 n := by
      rintro n rfl
      have := hty d y (by simp)
      rw [hi.1] at this
      cases op <;> simp only [unary, Option.some.injEq, reduceCtorEq] at hy
      subst hy
      have := this.hasTy (t := .felt) rfl
      simp [Val.HasTy] at this
    refine ⟨h.update ?_, x, readPlain_constant h hx hn, y, hy, rfl⟩
    have hL : Sound (latticeOf s v) x := by
      cases v with
      | Literal l =>
        refine ⟨by simp [latticeOf], fun l' hl' => ?_⟩
        cases hl'
        refine ⟨plainTy l, hx, fun hf => ?_⟩
        obtain ⟨ty, z, h1, h2, h3⟩ := hi.2
        refine h3 ?_
        cases op <;> simp only [unaryTy, scalarTy, Option.some.injEq] at h1
        · exact h1.symm
        · subst h1; cases l <;> simp [denote, plainTy] at h2 hf
      | Operand v => exact h v x hx
      | Error => cases hx
    simp only [evalLattice, Instr.destination, Instr.destinations] at hr
    split at hr
    · rename_i hu; exact absurd hu hL.1
    · injection hr with hr
      exact (sound_nonConst y).settled (hfix d _ hr.symm)
    · rename_i l hl
      injection hr with hr
      refine Sound.settled ?_ (hfix d _ hr.symm)
      split
      · rename_i q hq
        refine ⟨by simp, fun l' hl' => ?_⟩
        cases hl'
        obtain ⟨t, h1, -⟩ := hL.2 l hl
        cases op <;> cases l <;> simp only [evalUnary, Option.some.injEq, reduceCtorEq] at hq <;> subst hq <;>
          cases t <;> simp only [denote, Option.some.injEq, reduceCtorEq] at h1 <;> subst h1 <;>
          simp only [unary, Option.some.injEq] at hy
        · subst hy
          refine ⟨.felt, by rw [denote_ofM31, residue_eq], fun _ => ?_⟩
          simp only [Canon, ofM31_toNat]; exact ZMod.val_lt _
        · exact absurd rfl (hn _)
        · subst hy; exact ⟨.bool, rfl, by simp⟩
      · exact sound_nonConst y
  case BinaryOp op d l r' =>
    obtain ⟨x, hx, y, hy, z, hz, rfl⟩ := he
    obtain ⟨t, ho, hxt, hyt⟩ := binary_typed hz (operand_ok ht.ok hx) (operand_ok ht.ok hy)
    refine ⟨h.update ?_, x, operand_constant h hx hxt ho, y, operand_constant h hy hyt ho, z, hz, rfl⟩
    have key : ∀ v w, operand env op v = some w → LiteralOk op v → Sound (latticeOf s v) w := by
      intro v w hv hl
      cases v with
      | Literal l =>
        refine ⟨by simp [latticeOf], fun l' hl' => ?_⟩
        cases hl'
        exact ⟨_, hv, hl⟩
      | Operand v => exact h v w hv
      | Error => cases hv
    have hl := key l x hx hi.2.1
    have hr' := key r' y hy hi.2.2
    simp only [evalLattice, Instr.destination, Instr.destinations] at hr
    split at hr
    · rename_i a b ha hb
      have ra := hl.2 a ha
      have rb := hr'.2 b hb
      split at hr
      · cases hr
      · rename_i q hq
        injection hr with hr
        refine Sound.settled ?_ (hfix d _ hr.symm)
        refine ⟨by simp, fun l' hl' => ?_⟩
        cases hl'
        have hcan : (op = .Eq ∨ op = .Neq) → Canon a ∧ Canon b := by
          intro hop
          have hc : ∀ (c : Literal) (w : Val), w.HasTy t → Represents c w → Canon c := by
            intro c w hw hrep
            have hd := hrep.denote_eq hw
            obtain ⟨t', h1, h2⟩ := hrep
            cases c with
            | Integer n =>
              refine h2 ?_
              have : operandTy op .u32 ↔ False := by rcases hop with rfl | rfl <;> simp [operandTy]
              have := hasTy_unique hw (denote_hasTy h1)
              subst this
              cases t <;> simp_all [denote]
            | _ => trivial
          exact ⟨hc a x hxt ra, hc b y hyt rb⟩
        obtain ⟨w, h1, h2⟩ := evalBinary_sound hq ho (ra.denote_eq hxt) (rb.denote_eq hyt) hcan
        rw [hz] at h2; injection h2 with h2; subst h2
        exact ⟨resultTy op, h1, fun hf => C44_results_canonical hq hf⟩
      · injection hr with hr
        exact (sound_nonConst z).settled (hfix d _ hr.symm)
    · rename_i hnot
      injection hr with hr
      refine Sound.settled ?_ (hfix d _ hr.symm)
      split_ifs with hc
      · exact sound_nonConst z
      · exfalso
        apply hc
        have hcase : ∀ v w, operand env op v = some w → Sound (latticeOf s v) w →
            (∃ a, latticeOf s v = .Const a) ∨ ∃ u, v = .Operand u ∧ s u = .NonConst := by
          intro v w hv hsd
          cases v with
          | Literal a => exact .inl ⟨a, rfl⟩
          | Error => cases hv
          | Operand u =>
            cases hu : s u with
            | Unknown => exact absurd hu hsd.1
            | Const a => exact .inl ⟨a, hu⟩
            | NonConst => exact .inr ⟨u, rfl, hu⟩
        rcases hcase l x hx hl with ⟨a, ha⟩ | ⟨u, rfl, hu⟩
        · rcases hcase r' y hy hr' with ⟨b, hb⟩ | ⟨u, rfl, hu⟩
          · exact absurd hb (hnot a b ha)
          · simp [hu]
        · simp [hu]
  case Call ds c args sig =>
    obtain ⟨xs, hxs, ys, hys, hb⟩ := he
    refine ⟨?_, xs, readAll_constant h ht hi.2 hxs, ys, hys, hb⟩
    cases ds with
    | nil =>
      cases ys with
      | nil => simp only [bind, Option.some.injEq] at hb; subst hb; exact h
      | cons => simp [bind] at hb
    | cons d ds =>
      cases ds with
      | cons => simp [Instr.destinations] at hm
      | nil =>
        simp only [evalLattice, Instr.destination, Instr.destinations, Except.ok.injEq] at hr
        cases ys with
        | nil => simp [bind] at hb
        | cons y ys =>
          cases ys with
          | cons => simp [bind] at hb
          | nil =>
            simp only [bind, Option.some.injEq] at hb
            subst hb
            exact h.update ((sound_nonConst y).settled (hfix d _ hr.symm))
  case Cast d v a b =>
    obtain ⟨s', hs', t', ht', x, hx, y, hy, rfl⟩ := he
    simp only [evalLattice, Instr.destination, Instr.destinations, Except.ok.injEq] at hr
    exact ⟨h.update ((sound_nonConst y).settled (hfix d _ hr.symm)), s', hs', t', ht', x,
      readAt_constant h ht hi.2 hs' hx, y, hy, rfl⟩
  case AssertEq l r' =>
    obtain ⟨x, hx, y, hy, he⟩ := he
    split_ifs at he with hsame
    injection he with he; subst he
    refine ⟨h, x, readPlain_constant h hx ?_, y, readPlain_constant h hy ?_, by simp [hsame]⟩
    · rintro n rfl; simp [sameScalar] at hsame
    · rintro n rfl; cases x <;> simp [sameScalar] at hsame
  case Debug => subst he; exact ⟨h, rfl⟩
  case Nop => subst he; exact ⟨h, rfl⟩

/-! ### Phi nodes -/

theorem join_sound {a b : Lattice} {x : Val} (h : Sound b x) : Sound (a.join b) x ∧ Sound (b.join a) x := by
  obtain ⟨h1, h2⟩ := h
  cases a <;> cases b <;> simp only [Lattice.join, ne_eq, not_true_eq_false] at h1 ⊢ <;>
    (try exact ⟨⟨by simp, h2⟩, ⟨by simp, h2⟩⟩) <;> (try exact ⟨sound_nonConst x, sound_nonConst x⟩)
  · rename_i l l'
    refine ⟨?_, ?_⟩
    · split_ifs with e
      · subst e; exact ⟨by simp, h2⟩
      · exact sound_nonConst x
    · split_ifs with e
      · exact ⟨by simp, h2⟩
      · exact sound_nonConst x

theorem joinSources_sound {ss : List (BlockId × Value)} {acc : Lattice} {x : Val}
    (h : Sound acc x ∨ ∃ p ∈ ss, Sound (latticeOf s p.2) x) : Sound (joinSources s ss acc) x := by
  induction ss generalizing acc with
  | nil =>
    rcases h with h | ⟨p, hp, _⟩
    · exact h
    · simp at hp
  | cons q ss ih =>
    obtain ⟨b, v⟩ := q
    simp only [joinSources]
    apply ih
    rcases h with h | ⟨p, hp, h⟩
    · exact .inl (join_sound h).2
    · rcases List.mem_cons.mp hp with rfl | hp
      · exact .inl (join_sound h).1
      · exact .inr ⟨p, hp, h⟩

theorem lookup_constant {ss : List (BlockId × Value)} {p : BlockId} :
    (ss.map fun x => (x.1, x.2.constant s)).lookup p = (ss.lookup p).map (Value.constant s) := by
  induction ss with
  | nil => rfl
  | cons q ss ih =>
    obtain ⟨b, v⟩ := q
    simp only [List.map_cons, List.lookup_cons]
    split
    · rfl
    · exact ih

theorem phi_describes {d : ValueId} {ty : MirType} {ss : List (BlockId × Value)} {p : BlockId} {x : Val}
    (hs : Settled s (.Phi d ty ss)) (hi : InstrTyped types (.Phi d ty ss)) (ht : EnvTyped types env)
    (h : Describes s env) (hx : phiValue env p ty ss = some x) :
    Sound (s d) x ∧ phiValue env p ty (ss.map fun x => (x.1, x.2.constant s)) = some x := by
  obtain ⟨r, hr, hfix⟩ := hs
  unfold phiValue at hx ⊢
  simp only [Option.bind_eq_bind, Option.bind_eq_some_iff] at hx ⊢
  obtain ⟨t, hty, v, hv, hx⟩ := hx
  have hmem := mem_lookup hv
  simp only [evalLattice, Instr.destination, Instr.destinations, Except.ok.injEq] at hr
  refine ⟨Sound.settled (joinSources_sound (.inr ⟨(p, v), hmem, ?_⟩)) (hfix d _ hr.symm), t, hty, v.constant s, ?_, ?_⟩
  · exact sound_operand h hx fun l hl hf => (hi.2 _ hmem).canon hty hl hf
  · rw [lookup_constant, hv]; rfl
  · exact readAt_constant h ht (hi.2 _ hmem) hty hx

end Lang
end CairoM
