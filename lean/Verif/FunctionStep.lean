import Verif.FunctionInstr

/-!
# Helper lemmas: one instruction of a function, including the choice of its destination slot
-/

namespace CairoM
namespace Codegen

open Mir Lang Relation

variable {code : List IB} {tgt : Name → Option ℕ} {fp : M31} {m : Isa.Mem} {b b' : Builder} {lo hi F : ℤ}
  {H : ValueId → Option Slot} {types : ValueId → Option MirType} {env env' : Env} {calls : Calls}

/-- The code of an instruction with one result, given the slot of the result. -/
def emit (b : Builder) (i : Instr) (off : ℤ) : Except Err Builder :=
  match i with
  | .Assign _ v ty => b.assignTo off v ty
  | .UnaryOp .Neg _ v => b.feltArith .Sub off (.Literal (.Integer 0)) v
  | .UnaryOp .Not _ v => b.scNot off v
  | .BinaryOp op _ l r => b.computeInto op off l r
  | .Cast _ (.Operand id) .U32 .Felt =>
    match b.layout.getOffset id with
    | .error e => .error e
    | .ok s => .ok (b.castSeq off s)
  | .Cast _ (.Literal (.Integer imm)) .U32 .Felt =>
    if (toM31 imm).val = imm.toNat then .ok (b.storeImm imm off) else .error .invalidMir
  | _ => .error .panic

theorem smallLit_of_hasType {v : Value} (h : HasType types v .Felt) : SmallLit v := by
  cases v with
  | Error => trivial
  | Operand id => trivial
  | Literal lit =>
    obtain ⟨ty, x, h1, h2, h3⟩ := h
    simp only [scalarTy, Option.some.injEq] at h1
    subst h1
    cases lit with
    | Integer n =>
      have := h3 rfl
      simp only [Canon] at this
      have hP : P = 2147483647 := rfl
      simp only [SmallLit]
      omega
    | Boolean _ => trivial
    | Unit => trivial

theorem smallLit_of_ok {op : BinaryOp} {v : Value} (hop : FeltOp op) (h : LiteralOk op v) : SmallLit v := by
  cases v with
  | Error => trivial
  | Operand id => trivial
  | Literal lit =>
    cases lit with
    | Integer n =>
      have : Canon (.Integer n) := h (by cases op <;> simp [FeltOp] at hop <;> rfl)
      simp only [Canon] at this
      have hP : P = 2147483647 := rfl
      simp only [SmallLit]
      omega
    | Boolean _ => trivial
    | Unit => trivial

theorem notIn_of_agrees {l : Layout} {d : ValueId} {s : Slot} {v : Value} {x : Val} (hag : Agrees l H fp env m)
    (hH : Homes types lo F H) (hty : EnvTyped types env) (hd : H d = some s) (hw : s.size = 1)
    (hv : ∀ id, v = .Operand id → env id = some x) (hx : width x = 1) (hne : v ≠ .Operand d) : NotIn l s.off v := by
  cases v with
  | Literal _ => trivial
  | Error => trivial
  | Operand id =>
    intro t ht
    obtain ⟨s', g1, g2, -⟩ := hag id x (hv id rfl)
    rw [ht] at g2; injection g2 with g2; subst g2
    have hid : id ≠ d := fun e => hne (by rw [e])
    have := hH.apart id d t s hid g1 hd
    have hsz := width_size hH (hty id x (hv id rfl)) g1
    unfold Apart at this
    omega

/-- The code of an instruction computes its result. -/
theorem run_emit {i : Instr} {d : ValueId} {s : Slot} (w : Window fp lo hi) (hH : Homes types lo F H)
    (hty : EnvTyped types env) (hit : InstrTyped types i) (hsim : InstrSimple types i) (hdst : i.destinations = [d])
    (hF : F ≤ b.layout.frame) (hag : Agrees b.layout H fp env m) (hd : H d = some s)
    (hemit : emit b i s.off = .ok b') (hev : evalInstr calls i env = some env')
    (hhi : (b'.layout.frame : ℤ) ≤ hi) (hfit : Fits code tgt b') :
    ∃ x, env' = Function.update env d (some x) ∧ ValTy x (types d) ∧ Ext b b' ∧ Computes code tgt fp b b' m s.off x := by
  have hty' : EnvTyped types env' := evalInstr_typed hit hty (fun ds c args sig e => by subst e; exact hsim.elim) hev
  obtain ⟨r1, r2, -⟩ := hH.range d s hd
  have fit : ∀ {x : Val}, ValTy x (types d) → s.off + width x ≤ b.layout.frame := by
    intro x hx
    have := width_size hH hx hd
    omega
  have self : ∀ {x : Val}, env' = Function.update env d (some x) → ValTy x (types d) := by
    intro x e
    refine hty' d x ?_
    rw [e]; simp
  cases i <;> simp only [emit, reduceCtorEq] at hemit <;> simp only [evalInstr, Option.bind_eq_bind,
    Option.bind_eq_some_iff, Option.some.injEq] at hev <;>
    simp only [Instr.destinations, List.cons.injEq, and_true] at hdst
  case Assign d' v ty =>
    subst hdst
    obtain ⟨t, ht, x, hx, rfl⟩ := hev
    have hxt := readAt_typed hty hit.2 ht hx
    have hv := self rfl
    obtain ⟨e, c⟩ := computes_assignTo w (hag.has_readAt hH hty hF hx hxt) hxt ht r1
      ((fit hv).trans (by rw [← assignTo_layout hemit]; exact hhi)) hemit hfit
    exact ⟨x, rfl, hv, e, c⟩
  case UnaryOp op d' v =>
    subst hdst
    obtain ⟨x, hx, y, hy, rfl⟩ := hev
    have hv := self rfl
    obtain ⟨h1, h2⟩ := hit
    cases op with
    | Neg =>
      simp only at hemit
      have hvy := hv
      rw [h1] at hvy
      have hyt := hvy.hasTy (t := .felt) rfl
      cases y <;> simp [Val.HasTy] at hyt
      cases x <;> simp only [unary, Option.some.injEq, Val.felt.injEq, reduceCtorEq] at hy
      subst hy
      have hw := fit hv
      simp only [width, Nat.cast_one] at hw
      obtain ⟨-, e, c⟩ := C48_neg_partial w (hag.has_readPlain hH hty hF hx rfl) (smallLit_of_hasType h2) r1 hw hemit hhi hfit
      exact ⟨_, rfl, hv, e, c⟩
    | Not =>
      simp only at hemit
      cases x <;> simp only [unary, Option.some.injEq, reduceCtorEq] at hy
      subst hy
      obtain ⟨e, c⟩ := C50_not w (hag.has_readPlain hH hty hF hx rfl) rfl r1 (fit hv) hemit hhi hfit
      exact ⟨_, rfl, hv, e, c⟩
  case BinaryOp op d' l r =>
    subst hdst
    obtain ⟨x, hx, y, hy, z, hz, rfl⟩ := hev
    have hv := self rfl
    obtain ⟨t, ht, hxt, hyt⟩ := binary_typed hz (operand_ok hty.ok hx) (operand_ok hty.ok hy)
    have hl := hag.has_operand hH hty hF hx hxt
    have hr := hag.has_operand hH hty hF hy hyt
    by_cases hop : FeltOp op
    · obtain ⟨e, c⟩ := C48_felt_partial hop ht w hl hr (smallLit_of_ok hop hit.2.1) (smallLit_of_ok hop hit.2.2) hz r1
        (fit hv) hemit hhi hfit
      exact ⟨z, rfl, hv, e, c⟩
    · by_cases hop' : U32Op op
      · have : t = .u32 := by cases op <;> simp only [U32Op] at hop' <;> exact ht
        subst this
        obtain ⟨e, c⟩ := C49_u32 hop' w hl hr hz r1 (fit hv) hemit hhi hfit
        exact ⟨z, rfl, hv, e, c⟩
      · by_cases hb : BoolOp op
        · have htb : t = .bool := by cases op <;> simp only [BoolOp] at hb <;> exact ht
          subst htb
          have hne := hsim.2 (by cases op <;> simp [BoolOp] at hb <;> simp)
          have hsz : s.size = 1 := by
            rw [width_size hH hv hd]
            have := hit.1
            rw [this] at hv
            have := memSize_scalar (scalarTy_resultType op) (hv.hasTy (scalarTy_resultType op))
            rw [← this]
            cases op <;> simp [BoolOp] at hb <;> rfl
          have w1 : width x = 1 := by cases x <;> simp [Val.HasTy] at hxt <;> rfl
          have w2 : width y = 1 := by cases y <;> simp [Val.HasTy] at hyt <;> rfl
          obtain ⟨e, c⟩ := C50_connective hb w hl hr
            (notIn_of_agrees hag hH hty hd hsz (fun id e => by subst e; exact hx) w1 hne.1)
            (notIn_of_agrees hag hH hty hd hsz (fun id e => by subst e; exact hy) w2 hne.2)
            hz r1 (fit hv) hemit hhi hfit
          exact ⟨z, rfl, hv, e, c⟩
        · exfalso
          cases op <;> simp [FeltOp] at hop <;> simp [U32Op] at hop' <;> simp [BoolOp] at hb <;>
            simp [Builder.computeInto, Builder.u32Op] at hemit
  case Cast d' v st tt =>
    subst hdst
    obtain ⟨s', hs', t', ht', x, hx, y, hy, rfl⟩ := hev
    have hv := self rfl
    unfold Lang.cast at hy
    split at hy
    · rename_i n
      split_ifs at hy with hn
      injection hy with hy; subst hy
      have hst : st = .U32 := by cases st <;> simp [scalarTy] at hs'; rfl
      have htt : tt = .Felt := by cases tt <;> simp [scalarTy] at ht'; rfl
      subst hst htt
      have hw := fit hv
      simp only [width, Nat.cast_one] at hw
      cases v with
      | Error => cases hx
      | Operand id =>
        have hxt := readAt_typed hty hit.2 rfl hx
        obtain ⟨-, q, hq, q1, q2, q3⟩ := hag.has_readAt hH hty hF hx hxt
        simp only [getOffset_ok hq, Except.ok.injEq] at hemit
        subst hemit
        obtain ⟨c, -⟩ := C51_cast w q1 q2 q3 r1 hw hhi hfit
        refine ⟨_, rfl, hv, ext_castSeq.1, ?_⟩
        simp only [residue]
        exact c hn
      | Literal lit =>
        cases lit <;> simp only [readAt, denote, reduceCtorEq, Option.some.injEq, Val.u32.injEq] at hx
        rename_i k
        subst hx
        simp only at hemit
        split_ifs at hemit
        cases hemit
        have hf : ((b.storeImm k s.off).layout.frame : ℤ) = b.layout.frame := rfl
        have dr := w.inRange r1 (o := s.off) (by omega)
        refine ⟨_, rfl, hv, Ext.push, FeltRun.computes_felt (FeltRun.one dr ?_)⟩
        have := runs_storeImm (m := m) hfit dr
        simp only [residue]
        exact this
    · cases hy

/-! ### Assertions -/

theorem canon_inj {m n : BitVec 32} (hm : Canon (.Integer m)) (hn : Canon (.Integer n))
    (h : (m.toNat : M31) = (n.toNat : M31)) : m = n := by
  simp only [Canon] at hm hn
  have := congrArg ZMod.val h
  rw [ZMod.val_natCast, ZMod.val_natCast, Nat.mod_eq_of_lt hm, Nat.mod_eq_of_lt hn] at this
  exact BitVec.eq_of_toNat_eq this

theorem canon_boolWord (p : Bool) : Canon (.Integer (Builder.boolWord p)) := by
  cases p <;> (simp only [Canon]; decide)

theorem boolWord_toNat (p : Bool) : ((Builder.boolWord p).toNat : M31) = if p then 1 else 0 := by
  cases p <;> simp [Builder.boolWord]

theorem toInt_canon {n : BitVec 32} (h : Canon (.Integer n)) : ofI32 n.toInt = (n.toNat : M31) := by
  have := litI32_small (lit := .Integer n) (by
    simp only [Canon] at h; have hP : P = 2147483647 := rfl; simp only [SmallLit]; omega)
  exact this

theorem runs_assert {off imm : ℤ} {x : M31} (hfit : Fits code tgt (b.assertEqImm off imm))
    (hx : Isa.felt m (adr fp off) = some x) (hi : ofI32 imm = x) :
    Runs code tgt fp (b.instrs.length, m) ((b.assertEqImm off imm).instrs.length, m) := by
  have := runs_push' (m := m) hfit rfl (sem_assert (pc := 0) (adr_ofI32 fp off) (by rw [hi]; exact hx))
  exact this

theorem run_assert {l r : Value} (w : Window fp lo hi) (hc : CanonValue l ∧ CanonValue r)
    (hag : Agrees b.layout H fp env m) (h : genAssert b l r = .ok b')
    (hev : evalInstr calls (.AssertEq l r) env = some env') (hhi : (b'.layout.frame : ℤ) ≤ hi) (hfit : Fits code tgt b')
    (hlo : lo ≤ 0) :
    env' = env ∧ Ext b b' ∧ ∃ m', Runs code tgt fp (b.instrs.length, m) (b'.instrs.length, m') ∧
      SameExcept fp (fun o => (b.layout.frame : ℤ) ≤ o ∧ o < b'.layout.frame) m m' := by
  simp only [evalInstr, Option.bind_eq_bind, Option.bind_eq_some_iff] at hev
  obtain ⟨x, hx, y, hy, he⟩ := hev
  split_ifs at he with hsame
  injection he with he
  refine ⟨he.symm, ?_⟩
  -- an operand compared with a literal
  have key : ∀ {id : ValueId} {imm : ℤ} {x : Val} {c : M31}, env id = some x →
      (x = .felt c ∨ ∃ p : Bool, x = .bool p ∧ c = if p then 1 else 0) → ofI32 imm = c →
      (b.layout.getOffset id >>= fun off => Except.ok (b.assertEqImm off imm)) = Except.ok (ε := Err) b' →
      Ext b b' ∧ ∃ m', Runs code tgt fp (b.instrs.length, m) (b'.instrs.length, m') ∧
        SameExcept fp (fun o => (b.layout.frame : ℤ) ≤ o ∧ o < b'.layout.frame) m m' := by
    intro id imm x c hid hxc hi hb
    obtain ⟨s, g1, g2, g3⟩ := hag id x hid
    rw [getOffset_ok g2] at hb
    simp only [Bind.bind, Except.bind, Except.ok.injEq] at hb
    subst hb
    refine ⟨Ext.push, m, runs_assert (x := c) hfit ?_ hi, SameExcept.refl⟩
    rcases hxc with rfl | ⟨p, rfl, rfl⟩ <;> exact g3
  cases l with
  | Error => cases hx
  | Operand il =>
    cases r with
    | Error => cases hy
    | Operand ir => simp [genAssert] at h
    | Literal lit =>
      cases lit with
      | Unit => simp [genAssert] at h
      | Integer n =>
        simp only [genAssert] at h
        simp only [readPlain, plainTy, denote, Option.some.injEq] at hy
        subst hy
        cases x <;> simp only [sameScalar, Bool.false_eq_true, decide_eq_true_eq] at hsame
        · subst hsame
          exact key hx (.inl rfl) (by rw [toInt_canon hc.2]; simp only [residue]) h
        · exact key hx (.inr ⟨_, rfl, hsame.symm⟩) (by rw [toInt_canon hc.2]; simp only [residue]) h
      | Boolean p =>
        simp only [genAssert] at h
        simp only [readPlain, plainTy, denote, Option.some.injEq] at hy
        subst hy
        cases x <;> simp only [sameScalar, Bool.false_eq_true, decide_eq_true_eq] at hsame
        · refine key hx (.inl rfl) ?_ h
          subst hsame
          cases p <;> simp [ofI32]
        · subst hsame
          refine key hx (.inr ⟨_, rfl, rfl⟩) ?_ h
          rename_i q
          cases q <;> simp [ofI32]
  | Literal ll =>
    cases r with
    | Error => cases hy
    | Operand ir =>
      cases ll with
      | Unit => simp [genAssert] at h
      | Integer n =>
        simp only [genAssert] at h
        simp only [readPlain, plainTy, denote, Option.some.injEq] at hx
        subst hx
        cases y <;> simp only [sameScalar, Bool.false_eq_true, decide_eq_true_eq] at hsame
        · subst hsame
          exact key hy (.inl rfl) (by rw [toInt_canon hc.1]; simp only [residue]) h
        · exact key hy (.inr ⟨_, rfl, hsame⟩) (by rw [toInt_canon hc.1]; simp only [residue]) h
      | Boolean p =>
        simp only [genAssert] at h
        simp only [readPlain, plainTy, denote, Option.some.injEq] at hx
        subst hx
        cases y <;> simp only [sameScalar, Bool.false_eq_true, decide_eq_true_eq] at hsame
        · refine key hy (.inl rfl) ?_ h
          subst hsame
          cases p <;> simp [ofI32]
        · subst hsame
          refine key hy (.inr ⟨_, rfl, rfl⟩) ?_ h
          cases p <;> simp [ofI32]
    | Literal lr =>
      have hlit : ∀ {a c : BitVec 32}, a = c → .ok (((b.reserve 1).2.storeImm (Builder.boolWord (a == c)) (b.reserve 1).1).assertEqImm (b.reserve 1).1 1) = Except.ok (ε := Err) b' →
          Ext b b' ∧ ∃ m', Runs code tgt fp (b.instrs.length, m) (b'.instrs.length, m') ∧
            SameExcept fp (fun o => (b.layout.frame : ℤ) ≤ o ∧ o < b'.layout.frame) m m' := by
        intro a c hac hb
        simp only [Except.ok.injEq] at hb
        subst hb
        subst hac
        have ex : Ext ((b.reserve 1).2.storeImm (Builder.boolWord (a == a)) (b.reserve 1).1)
          (((b.reserve 1).2.storeImm (Builder.boolWord (a == a)) (b.reserve 1).1).assertEqImm (b.reserve 1).1 1) := Ext.push
        have hf : (((((b.reserve 1).2.storeImm (Builder.boolWord (a == a)) (b.reserve 1).1).assertEqImm (b.reserve 1).1 1).layout.frame : ℕ) : ℤ)
          = b.layout.frame + 1 := rfl
        have ht : (b.reserve 1).1 = (b.layout.frame : ℤ) := rfl
        have dr : Isa.InRange (adr fp (b.reserve 1).1) := w.inRange (by rw [ht]; omega) (by rw [ht]; omega)
        have r1 := runs_storeImm (m := m) (ex.fits hfit) dr
        refine ⟨Ext.reserve.trans (Ext.push.trans Ext.push), _, r1.trans (runs_assert (x := 1) hfit ?_ (by simp [ofI32])), ?_⟩
        · rw [felt_put_same dr, toM31_boolWord]; simp
        · exact SameExcept.put (o := (b.reserve 1).1) ⟨by rw [ht], by omega⟩
      cases ll with
      | Unit => cases lr <;> simp [genAssert, asInteger] at h
      | Integer n =>
        cases lr with
        | Unit => simp [genAssert, asInteger] at h
        | Integer k =>
          simp only [readPlain, plainTy, denote, Option.some.injEq] at hx hy
          subst hx hy
          simp only [sameScalar, decide_eq_true_eq, residue] at hsame
          exact hlit (canon_inj hc.1 hc.2 hsame) h
        | Boolean p =>
          simp only [readPlain, plainTy, denote, Option.some.injEq] at hx hy
          subst hx hy
          simp only [sameScalar, decide_eq_true_eq, residue] at hsame
          exact hlit (canon_inj hc.1 (canon_boolWord p) (hsame.trans (boolWord_toNat p).symm)) h
      | Boolean p =>
        cases lr with
        | Unit => simp [genAssert, asInteger] at h
        | Integer k =>
          simp only [readPlain, plainTy, denote, Option.some.injEq] at hx hy
          subst hx hy
          simp only [sameScalar, decide_eq_true_eq, residue] at hsame
          exact hlit (canon_inj (canon_boolWord p) hc.2 ((boolWord_toNat p).trans hsame)) h
        | Boolean q =>
          simp only [readPlain, plainTy, denote, Option.some.injEq] at hx hy
          subst hx hy
          simp only [sameScalar, decide_eq_true_eq] at hsame
          subst hsame
          exact hlit rfl h

end Codegen
end CairoM
