import Verif.FunctionBlock

/-!
# Helper lemmas: the terminator of a block
-/

namespace CairoM
namespace Codegen

open Mir Lang Relation

variable {code : List IB} {tgt : Name → Option ℕ} {fp : M31} {m : Isa.Mem} {b b' : Builder} {lo hi : ℤ}
  {env env' : Env} {f : Function} {L : Layout} {ts : List MirType} {blk : Block}

/-! ### Types of the returned values -/

theorem returnTys_eq : ∀ {rs : List ValueId} {ts : List MirType}, returnTypes f rs = .ok ts → rs.map f.types = ts.map some
  | [], ts, h => by simp only [returnTypes, Except.ok.injEq] at h; subst h; rfl
  | v :: vs, ts, h => by
    simp only [returnTypes] at h
    cases hv : f.types v with
    | none => rw [hv] at h; cases h
    | some t =>
      rw [hv] at h
      cases hr : returnTypes f vs with
      | error e => simp only [hr] at h; cases h
      | ok us =>
        simp only [hr, Except.ok.injEq] at h
        subst h
        simp [hv, returnTys_eq hr]

theorem returns_typed : ∀ {vs : List Value} {rs : List ValueId} {ts : List MirType},
    List.Forall₂ (fun v r => ∃ t, f.types r = some t ∧ HasType f.types v t) vs rs → rs.map f.types = ts.map some →
    List.Forall₂ (HasType f.types) vs ts
  | _, _, [], .nil, _ => .nil
  | _, _, [], .cons _ _, h => by simp at h
  | _, _, t :: ts, .nil, h => by simp at h
  | _, _, t :: ts, .cons ⟨t', h1, h2⟩ hs, h => by
    simp only [List.map_cons, List.cons.injEq] at h
    rw [h1] at h
    obtain ⟨e, h⟩ := h
    injection e with e; subst e
    exact .cons h2 (returns_typed hs h)

theorem sizeSum_cons (t : MirType) (us : List MirType) : Builder.sizeSum (t :: us) = t.memSize + Builder.sizeSum us := by
  simp [Builder.sizeSum]

/-- A returned literal is written as an assignment would write it. -/
theorem returnLit {lit : Literal} {t : MirType} {vs : List Value} {us : List MirType} {off : ℤ}
    (ht : HasType f.types (.Literal lit) t)
    (h : Builder.returnLoop (.Literal lit :: vs) (t :: us) off b = .ok b') :
    ∃ b₁, b.assignTo off (.Literal lit) t = .ok b₁ ∧ Builder.returnLoop vs us (off + t.memSize) b₁ = .ok b' := by
  obtain ⟨ty, x, h1, h2, -⟩ := ht
  cases t <;> simp only [scalarTy, reduceCtorEq, Option.some.injEq] at h1 <;> subst h1 <;>
    cases lit <;> simp only [denote, reduceCtorEq] at h2 <;>
    simp only [Builder.returnLoop, MirType.isU32, Bool.false_eq_true, if_false, if_true, reduceCtorEq] at h
  · exact ⟨_, by simp [Builder.assignTo, MirType.memSize], h⟩
  · exact ⟨_, by simp [Builder.assignTo, MirType.memSize], h⟩
  · exact ⟨_, by simp [Builder.assignTo, MirType.memSize, MirType.isU32], h⟩

theorem emits_returnLoop (hlo : lo ≤ 0) : ∀ {vs : List Value} {us : List MirType} {off : ℤ} {b b' : Builder},
    List.Forall₂ (HasType f.types) vs us → lo ≤ off → off + Builder.sizeSum us ≤ -2 → Shape f lo ts b.layout →
    Builder.returnLoop vs us off b = .ok b' → Emits lo b b'
  | _, _, off, b, b', .nil, _, _, _, h => by
    simp only [Builder.returnLoop, Except.ok.injEq] at h; subst h; exact Emits.refl
  | v :: vs, t :: us, off, b, b', .cons hv hs, h1, h2, hl, h => by
    rw [sizeSum_cons] at h2
    push_cast at h2
    cases v with
    | Error => simp [Builder.returnLoop] at h
    | Literal lit =>
      obtain ⟨b₁, e1, e2⟩ := returnLit hv h
      have em := emits_assignTo (lo := lo) e1 (fun id s e => by cases e) h1 (by omega)
      exact em.trans (emits_returnLoop hlo hs (by omega) (by omega) (hl.emits em) e2)
    | Operand id =>
      simp only [Builder.returnLoop] at h
      cases hid : b.layout.values id with
      | none =>
        simp only [hid] at h
        rw [if_neg (by omega)] at h
        cases h
      | some s =>
        simp only [hid] at h
        obtain ⟨t', k1, k2⟩ := hl.sized id s hid
        obtain ⟨r1, r2⟩ := hl.range id s hid
        simp only [HasType] at hv
        rw [hv] at k1; injection k1 with k1; subst k1
        rw [k2] at h r2
        split_ifs at h
        · exact emits_returnLoop hlo hs (by omega) (by omega) hl h
        · have em : Emits lo b (b.copySlots s.off off t.memSize) := emits_copySlots r1 r2 h1 (by omega)
          exact em.trans (emits_returnLoop hlo hs (by omega) (by omega) (hl.emits em) h)

/-- The code of a terminator only extends the code. -/
theorem emits_term {term : Terminator} {next : Option BlockId} (hc : Sig f lo ts) (ht : TermTyped f term)
    (hl : Shape f lo ts b.layout) (h : genTerm f b term next = .ok b') : Emits lo b b' := by
  have hlo : lo ≤ 0 := by have := hc.low; omega
  cases term with
  | Jump t =>
    simp only [genTerm, Except.ok.injEq] at h
    subst h
    split_ifs
    · exact Emits.refl
    · exact emits_jump
  | If c t e =>
    simp only [genTerm, Bind.bind, Except.bind, Builder.jnz] at h
    simp only [TermTyped] at ht
    cases c with
    | Error => simp at h
    | Literal lit =>
      cases lit <;> simp only [reduceCtorEq, pure, Except.pure, Except.ok.injEq] at h
      subst h
      split_ifs
      · exact emits_jump.trans emits_jump
      · exact emits_jump
    | Operand id =>
      have hr := hl.readable_op (n := 1) ht (by simp [MirType.memSize])
      cases ho : b.layout.getOffset id with
      | error e => simp [ho] at h
      | ok o =>
        simp only [ho, pure, Except.pure, Except.ok.injEq] at h
        subst h
        obtain ⟨r1, r2⟩ := hr.offset ho
        exact (emits_jnz r1 r2).trans emits_jump
  | BranchCmp op l r t e =>
    simp only [TermTyped] at ht
    obtain ⟨-, hl1, hr1⟩ := ht
    have hf : ((b.reserve 1).2.layout.frame : ℤ) = b.layout.frame + 1 := rfl
    have htmp : (b.reserve 1).1 = (b.layout.frame : ℤ) := rfl
    have e0 : Emits lo b (b.reserve 1).2 := emits_reserve
    have hl0 := hl.emits e0
    have fin : ∀ {b₁ : Builder} {x y : BlockId}, Emits lo b b₁ → (b.reserve 1).1 + 1 ≤ b₁.layout.frame →
        Emits lo b (if next = some x then b₁.jnzOffset (b.reserve 1).1 (blockLabel f.name y)
          else (b₁.jnzOffset (b.reserve 1).1 (blockLabel f.name y)).jump (blockLabel f.name x)) := by
      intro b₁ x y em hfr
      have := em.trans (emits_jnz (o := (b.reserve 1).1) (n := blockLabel f.name y) (by rw [htmp]; omega) hfr)
      split_ifs
      · exact this
      · exact this.trans emits_jump
    cases op <;> simp only [genTerm, Bind.bind, Except.bind, reduceCtorEq] at h <;> split at h
    all_goals first
      | simp only [reduceCtorEq] at h
      | skip
    all_goals
      rename_i b₁ hb₁
      simp only [operandTypes] at hl1 hr1
      have em := emits_computeInto hb₁ (hl0.readable_op (n := opArg _) hl1 (by simp [MirType.memSize, opArg]))
        (hl0.readable_op (n := opArg _) hr1 (by simp [MirType.memSize, opArg])) hlo (by rw [htmp]; omega)
        (by rw [htmp, hf]; simp [opWidth, resultType, MirType.memSize])
      have hfr := em.frame
      simp only [pure, Except.pure, Except.ok.injEq] at h
      subst h
      exact fin (e0.trans em) (by rw [htmp]; omega)
  | Return vs =>
    simp only [genTerm, hc.rts, Builder.returnValues, Bind.bind, Except.bind] at h
    split at h
    · cases h
    · rename_i b₁ hb₁
      simp only [pure, Except.pure, Except.ok.injEq] at h
      subst h
      have hlow := hc.low
      have hrs := hl.ret
      exact (emits_returnLoop hlo (returns_typed ht (returnTys_eq hc.rts)) (by omega) (by omega) hl hb₁).trans
        (emits_push trivial)
  | Unreachable =>
    simp only [genTerm, Except.ok.injEq] at h
    subst h; exact Emits.refl

/-! ### Jumps -/

theorem runs_take {l : Name} {o : ℤ} {x : M31} {j : ℕ} (hfit : Fits code tgt (b.jnzOffset o l))
    (hx : Isa.felt m (adr fp o) = some x) (hne : x ≠ 0) (hj : tgt l = some j) :
    Runs code tgt fp (b.instrs.length, m) (j, m) := by
  have := runs_jnz hfit hx hj
  rwa [if_neg hne] at this

theorem runs_fall {l : Name} {o : ℤ} (hfit : Fits code tgt (b.jnzOffset o l))
    (hx : Isa.felt m (adr fp o) = some 0) :
    Runs code tgt fp (b.instrs.length, m) ((b.jnzOffset o l).instrs.length, m) := by
  rw [← adr_ofI32] at hx
  have := Step.fall (tgt := tgt) (fetch_pushL hfit) hx
  rw [← length_pushL (b := b) (i := .JnzFpImm (ofI32 o) 0) (l := l)] at this
  exact Runs.single this

theorem fits_jump {l : Name} (h : Fits code tgt (b.jump l)) : Fits code tgt b :=
  (emits_jump (lo := 0)).toGrows.fits h

theorem runs_goto {next : Option BlockId} {t : BlockId} {j : ℕ} {fn : Name}
    (hfit : Fits code tgt (if next = some t then b else b.jump (blockLabel fn t)))
    (hnext : ∀ t', next = some t' → tgt (blockLabel fn t') =
      some (if next = some t then b else b.jump (blockLabel fn t)).instrs.length)
    (hj : tgt (blockLabel fn t) = some j) : Runs code tgt fp (b.instrs.length, m) (j, m) := by
  split_ifs at hfit with hn
  · have := hnext t hn
    rw [if_pos hn, hj] at this
    injection this with this
    rw [this]; exact Runs.refl
  · exact runs_jump hfit hj

/-- A conditional jump to `y`, followed by control going to `x`. -/
theorem runs_cond {next : Option BlockId} {x y t : BlockId} {j : ℕ} {fn : Name} {o : ℤ} {z : M31}
    (hfit : Fits code tgt (if next = some x then b.jnzOffset o (blockLabel fn y)
      else (b.jnzOffset o (blockLabel fn y)).jump (blockLabel fn x)))
    (hnext : ∀ t', next = some t' → tgt (blockLabel fn t') =
      some (if next = some x then b.jnzOffset o (blockLabel fn y)
        else (b.jnzOffset o (blockLabel fn y)).jump (blockLabel fn x)).instrs.length)
    (hz : Isa.felt m (adr fp o) = some z) (ht : t = if z = 0 then x else y)
    (hj : tgt (blockLabel fn t) = some j) : Runs code tgt fp (b.instrs.length, m) (j, m) := by
  have hf : Fits code tgt (b.jnzOffset o (blockLabel fn y)) := by
    split_ifs at hfit
    · exact hfit
    · exact fits_jump hfit
  by_cases h0 : z = 0
  · subst h0
    rw [if_pos rfl] at ht
    subst ht
    exact (runs_fall hf hz).trans (runs_goto hfit hnext hj)
  · rw [if_neg h0] at ht
    subst ht
    exact runs_take hf hz h0 hj

/-- A block that does not return goes to the block the terminator chooses. -/
theorem run_goto {next : Option BlockId} {t : BlockId} {j : ℕ} {term : Terminator} {F : ℤ} {H : ValueId → Option Slot} (hc : Sig f lo ts)
    (ht : TermTyped f term) (hH : Homes f.types lo F H) (hF : F ≤ b.layout.frame)
    (w : Window fp lo hi) (hl : Shape f lo ts b.layout) (h : genTerm f b term next = .ok b')
    (hty : EnvTyped f.types env) (hag : Agrees b.layout H fp env m)
    (hev : evalTerm (returnTys f) env term = some (.goto t)) (hhi : (b'.layout.frame : ℤ) ≤ hi)
    (hfit : Fits code tgt b') (hnext : ∀ t', next = some t' → tgt (blockLabel f.name t') = some b'.instrs.length)
    (hj : tgt (blockLabel f.name t) = some j) :
    ∃ m', Runs code tgt fp (b.instrs.length, m) (j, m') ∧
      SameExcept fp (fun o => (b.layout.frame : ℤ) ≤ o ∧ o < b'.layout.frame) m m' := by
  have hlo : lo ≤ 0 := by have := hc.low; omega
  cases hterm : term with
  | Jump t' =>
    rw [hterm] at h hev
    simp only [evalTerm, Option.some.injEq, Exit.goto.injEq] at hev
    subst hev
    simp only [genTerm, Except.ok.injEq] at h
    subst h
    exact ⟨m, runs_goto hfit hnext hj, SameExcept.refl⟩
  | If c t' e =>
    rw [hterm] at h hev ht
    simp only [evalTerm, Option.bind_eq_bind, Option.bind_eq_some_iff, Option.some.injEq] at hev
    obtain ⟨x, hx, p, hp, hch⟩ := hev
    simp only [TermTyped] at ht
    simp only [genTerm, Bind.bind, Except.bind, Builder.jnz] at h
    have hch' : t = if p then t' else e := by
      unfold choose at hch
      split_ifs at hch ⊢ <;> · injection hch with hch; exact hch.symm
    cases c with
    | Error => simp at h
    | Literal lit =>
      cases lit <;> simp only [reduceCtorEq, pure, Except.pure, Except.ok.injEq] at h
      rename_i q
      simp only [readPlain, plainTy, denote, Option.some.injEq] at hx
      subst hx
      simp only [truthy, Option.some.injEq] at hp
      subst hp
      subst h
      cases q
      · simp only [Bool.false_eq_true, if_false] at hch' hfit
        subst hch'
        exact ⟨m, runs_jump hfit hj, SameExcept.refl⟩
      · simp only [if_true] at hch' hfit
        subst hch'
        exact ⟨m, runs_jump (fits_jump hfit) hj, SameExcept.refl⟩
    | Operand id =>
      simp only [readPlain] at hx
      obtain ⟨s, -, g2, g3⟩ := hag id x hx
      simp only [getOffset_ok g2, pure, Except.pure, Except.ok.injEq] at h
      subst h
      obtain ⟨ty, hmem, hty'⟩ := ht
      have hxt := hty id x hx
      rw [hty'] at hxt
      simp only [List.mem_cons, List.not_mem_nil, or_false] at hmem
      obtain ⟨z, hz, hzp⟩ : ∃ z, Isa.felt m (adr fp s.off) = some z ∧ (p = decide (z ≠ 0)) := by
        rcases hmem with rfl | rfl
        · have := hxt.hasTy (t := .bool) rfl
          cases x <;> simp [Val.HasTy] at this
          simp only [truthy, Option.some.injEq] at hp
          subst hp
          refine ⟨_, g3, ?_⟩
          rename_i q
          cases q <;> simp
        · have := hxt.hasTy (t := .felt) rfl
          cases x <;> simp [Val.HasTy] at this
          simp only [truthy, Option.some.injEq] at hp
          exact ⟨_, g3, hp.symm⟩
      by_cases h0 : z = 0
      · subst h0
        simp only [ne_eq, not_true_eq_false, decide_false] at hzp
        subst hzp
        simp only [Bool.false_eq_true, if_false] at hch'
        subst hch'
        exact ⟨m, (runs_fall (fits_jump hfit) hz).trans (runs_jump hfit hj), SameExcept.refl⟩
      · simp only [ne_eq, h0, not_false_eq_true, decide_true] at hzp
        subst hzp
        simp only [if_true] at hch'
        subst hch'
        exact ⟨m, runs_take (fits_jump hfit) hz h0 hj, SameExcept.refl⟩
  | BranchCmp op l r t' e =>
    have hem := emits_term hc ht hl h
    rw [hterm] at h hev ht
    simp only [evalTerm, Option.bind_eq_bind, Option.bind_eq_some_iff, Option.some.injEq] at hev
    obtain ⟨x, hx, y, hy, z, hz, p, hp, hch⟩ := hev
    simp only [TermTyped] at ht
    obtain ⟨⟨okl, okr⟩, tl, tr⟩ := ht
    have hf : ((b.reserve 1).2.layout.frame : ℤ) = b.layout.frame + 1 := rfl
    have htmp : (b.reserve 1).1 = (b.layout.frame : ℤ) := rfl
    have e0 : Emits lo b (b.reserve 1).2 := emits_reserve
    have hl0 := hl.emits e0
    have hag0 : Agrees (b.reserve 1).2.layout H fp env m := hag
    have hF0 : F ≤ (b.reserve 1).2.layout.frame := by rw [hf]; omega
    obtain ⟨ty, hop, hxt, hyt⟩ := binary_typed hz (operand_ok hty.ok hx) (operand_ok hty.ok hy)
    have hL := hag0.has_operand hH hty hF0 hx hxt
    have hR := hag0.has_operand hH hty hF0 hy hyt
    have hch' : t = if p then t' else e := by
      unfold choose at hch
      split_ifs at hch ⊢ <;> · injection hch with hch; exact hch.symm
    -- the comparison of field elements and booleans
    have sub : ∀ {b₁ : Builder}, FeltOp op → (op = .Eq ∨ op = .Neq) →
        (b.reserve 1).2.computeInto .Sub (b.reserve 1).1 l r = .ok b₁ → (b₁.layout.frame : ℤ) ≤ hi → Fits code tgt b₁ →
        ∃ m' d, Runs code tgt fp (b.instrs.length, m) (b₁.instrs.length, m') ∧
          Isa.felt m' (adr fp (b.reserve 1).1) = some d ∧ ((op = .Eq → z = .bool (decide (d = 0))) ∧ (op = .Neq → z = .bool (decide (d ≠ 0)))) ∧
          SameExcept fp (fun o => (b.layout.frame : ℤ) ≤ o ∧ o < b₁.layout.frame) m m' := by
      intro b₁ hfo hee hb₁ hh hfi
      have go : ∀ {u v : M31}, HasFelt (b.reserve 1).2.layout m fp lo l u → HasFelt (b.reserve 1).2.layout m fp lo r v →
          ∃ m', Runs code tgt fp (b.instrs.length, m) (b₁.instrs.length, m') ∧
          Isa.felt m' (adr fp (b.reserve 1).1) = some (u - v) ∧
          SameExcept fp (fun o => (b.layout.frame : ℤ) ≤ o ∧ o < b₁.layout.frame) m m' := by
        intro u v hu hv
        obtain ⟨ex, -, m', q1, q2, q3⟩ := runs_feltArith (op := .Sub) w hu hv (smallLit_of_ok hfo okl)
          (smallLit_of_ok hfo okr) rfl (by rw [htmp]; omega) (by rw [htmp, hf]) hb₁ hh hfi
        have hfr : ((b.reserve 1).2.layout.frame : ℤ) ≤ b₁.layout.frame := by exact_mod_cast ex.frame
        refine ⟨m', q1, q2, q3.mono fun o ho => ?_⟩
        rcases ho with rfl | ho <;> exact ⟨by omega, by omega⟩
      have hcases : ty = .felt ∨ ty = .bool := by
        rcases hee with rfl | rfl <;> exact hop
      rcases hcases with rfl | rfl
      · obtain ⟨u, rfl⟩ := has_felt_val hL
        obtain ⟨v, rfl⟩ := has_felt_val hR
        obtain ⟨m', q1, q2, q3⟩ := go (.of_has hL) (.of_has hR)
        refine ⟨m', _, q1, q2, ⟨fun e => ?_, fun e => ?_⟩, q3⟩ <;> subst e <;>
          simp only [binary, Option.some.injEq] at hz <;> rw [← hz] <;> simp [sub_eq_zero]
      · obtain ⟨u, rfl⟩ := has_bool_val hL
        obtain ⟨v, rfl⟩ := has_bool_val hR
        obtain ⟨m', q1, q2, q3⟩ := go (.of_has_bool hL) (.of_has_bool hR)
        refine ⟨m', _, q1, q2, ⟨fun e => ?_, fun e => ?_⟩, q3⟩ <;> subst e <;>
          simp only [binary, Option.some.injEq] at hz <;> rw [← hz] <;> cases u <;> cases v <;> simp
    -- the comparison of words
    have ueq : ∀ {b₁ : Builder}, (op = .U32Eq ∨ op = .U32Neq) →
        (b.reserve 1).2.computeInto .U32Eq (b.reserve 1).1 l r = .ok b₁ → (b₁.layout.frame : ℤ) ≤ hi → Fits code tgt b₁ →
        ∃ m' q, Runs code tgt fp (b.instrs.length, m) (b₁.instrs.length, m') ∧
          Isa.felt m' (adr fp (b.reserve 1).1) = some (if q then 1 else 0) ∧
          ((op = .U32Eq → z = .bool q) ∧ (op = .U32Neq → z = .bool !q)) ∧
          SameExcept fp (fun o => (b.layout.frame : ℤ) ≤ o ∧ o < b₁.layout.frame) m m' := by
      intro b₁ hee hb₁ hh hfi
      have hty32 : ty = .u32 := by rcases hee with rfl | rfl <;> exact hop
      subst hty32
      obtain ⟨u, rfl⟩ := has_u32_val hL
      obtain ⟨v, rfl⟩ := has_u32_val hR
      obtain ⟨ex, m', q1, q2, q3⟩ := C49_u32 (op := .U32Eq) (z := .bool (decide (u = v))) trivial w hL hR rfl
        (by rw [htmp]; omega) (by rw [htmp, hf]; simp [width]) hb₁ hh hfi
      have hfr : ((b.reserve 1).2.layout.frame : ℤ) ≤ b₁.layout.frame := by exact_mod_cast ex.frame
      refine ⟨m', _, q1, q2, ⟨fun e => ?_, fun e => ?_⟩, q3.mono fun o ho => ?_⟩
      · subst e
        simp only [binary, Option.some.injEq] at hz
        exact hz.symm
      · subst e
        simp only [binary, Option.some.injEq] at hz
        rw [← hz]; simp
      · simp only [width] at ho
        rcases ho with ho | ho <;> exact ⟨by omega, by omega⟩
    have fitsC : ∀ {b₁ : Builder} {x y : BlockId} {o : ℤ},
        Fits code tgt (if next = some x then b₁.jnzOffset o (blockLabel f.name y)
          else (b₁.jnzOffset o (blockLabel f.name y)).jump (blockLabel f.name x)) → Fits code tgt b₁ := by
      intro b₁ x y o hfi
      have : Fits code tgt (b₁.jnzOffset o (blockLabel f.name y)) := by
        split_ifs at hfi
        · exact hfi
        · exact fits_jump hfi
      exact ⟨(List.prefix_append _ _).trans this.code, this.labels⟩
    have frameC : ∀ {b₁ : Builder} {x y : BlockId} {o : ℤ},
        ((if next = some x then b₁.jnzOffset o (blockLabel f.name y)
          else (b₁.jnzOffset o (blockLabel f.name y)).jump (blockLabel f.name x)).layout.frame : ℕ) = b₁.layout.frame := by
      intro b₁ x y o
      split_ifs <;> rfl
    cases op <;> simp only [genTerm, Bind.bind, Except.bind, reduceCtorEq] at h <;> split at h
    all_goals first
      | simp only [reduceCtorEq] at h
      | skip
    all_goals
      rename_i b₁ hb₁
      simp only [pure, Except.pure, Except.ok.injEq] at h
      subst h
      rw [frameC] at hhi ⊢
    · obtain ⟨m', d, q1, q2, ⟨q3, -⟩, q4⟩ := sub trivial (.inl rfl) hb₁ hhi (fitsC hfit)
      have := q3 rfl
      subst this
      simp only [truthy, Option.some.injEq] at hp
      subst hp
      exact ⟨m', q1.trans (runs_cond hfit hnext q2 (by simpa using hch') hj), q4⟩
    · obtain ⟨m', d, q1, q2, ⟨-, q3⟩, q4⟩ := sub trivial (.inr rfl) hb₁ hhi (fitsC hfit)
      have := q3 rfl
      subst this
      simp only [truthy, Option.some.injEq] at hp
      subst hp
      exact ⟨m', q1.trans (runs_cond hfit hnext q2 (by simpa using hch') hj), q4⟩
    · obtain ⟨m', d, q1, q2, ⟨q3, -⟩, q4⟩ := ueq (.inl rfl) hb₁ hhi (fitsC hfit)
      have := q3 rfl
      subst this
      simp only [truthy, Option.some.injEq] at hp
      subst hp
      exact ⟨m', q1.trans (runs_cond hfit hnext q2 (by cases d <;> simpa using hch') hj), q4⟩
    · obtain ⟨m', d, q1, q2, ⟨-, q3⟩, q4⟩ := ueq (.inr rfl) hb₁ hhi (fitsC hfit)
      have := q3 rfl
      subst this
      simp only [truthy, Option.some.injEq] at hp
      subst hp
      exact ⟨m', q1.trans (runs_cond hfit hnext q2 (by cases d <;> simpa using hch') hj), q4⟩
  | Return vs =>
    rw [hterm] at hev
    simp only [evalTerm, Option.map_eq_some_iff, reduceCtorEq, and_false, exists_false] at hev
  | Unreachable => rw [hterm] at hev; cases hev

end Codegen
end CairoM
