import Verif.MirOps
import Mathlib.Tactic.Linarith
import Mathlib.Data.Nat.Bitwise

/-!
# C44, C45: compile-time evaluation and simplification of operators
-/

namespace CairoM
namespace Mir

open Lang

/-- An integer literal written with its canonical representative modulo `P`. -/
def Canon : Literal → Prop
  | .Integer n => n.toNat < P
  | _ => True

instance (l : Literal) : Decidable (Canon l) := by cases l <;> unfold Canon <;> infer_instance

theorem P_lt : P < 2 ^ 32 := by decide

theorem ofM31_toNat (x : M31) : (ofM31 x).toNat = x.val := by
  have h := ZMod.val_lt x
  unfold ofM31
  rw [BitVec.toNat_ofNat]
  exact Nat.mod_eq_of_lt (lt_trans h P_lt)

theorem residue_eq (n : BitVec 32) : residue n.toNat = toM31 n := by unfold residue toM31; rfl

@[simp] theorem residue_zero : residue 0 = 0 := by unfold residue; exact Nat.cast_zero

@[simp] theorem residue_one : residue 1 = 1 := by unfold residue; exact Nat.cast_one

theorem denote_ofM31 (x : M31) : denote .felt (.Integer (ofM31 x)) = some (.felt x) := by
  simp only [denote, residue_eq, toM31]
  rw [ofM31_toNat, ZMod.natCast_zmod_val]

theorem toM31_eq {a b : BitVec 32} (ha : a.toNat < P) (hb : b.toNat < P) :
    toM31 a = toM31 b ↔ a = b := by
  constructor
  · intro h
    have := (ZMod.natCast_eq_natCast_iff _ _ _).1 h
    have := Nat.ModEq.eq_of_lt_of_lt this ha hb
    exact BitVec.eq_of_toNat_eq this
  · rintro rfl; rfl

theorem U32Range_iff {n : ℕ} : U32Range n ↔ n < 2 ^ 32 := Iff.rfl

theorem toNat_eq_iff {a b : BitVec 32} : a.toNat = b.toNat ↔ a = b :=
  ⟨BitVec.eq_of_toNat_eq, fun h => by rw [h]⟩

set_option maxHeartbeats 2000000 in
/-- Every operator evaluated at compile time gives the literal denoting the run-time result. -/
theorem evalBinary_sound {op : BinaryOp} {a b r : Literal} {t : Ty} {x y : Val}
    (h : evalBinary op a b = .ok (some r)) (ht : operandTy op t)
    (hx : denote t a = some x) (hy : denote t b = some y)
    (hc : (op = .Eq ∨ op = .Neq) → Canon a ∧ Canon b) :
    ∃ v, denote (resultTy op) r = some v ∧ binary op x y = some v := by
  have h2 : (2 : ℕ) ^ 32 = 4294967296 := rfl
  cases op <;> cases a <;> cases b <;> simp only [evalBinary] at h <;>
    (try (exfalso; simp at h; done)) <;> simp only [operandTy] at ht
  all_goals (try subst ht)
  all_goals (try (rcases ht with rfl | rfl))
  all_goals (try simp only [denote, Option.some.injEq, reduceCtorEq] at hx hy)
  all_goals (try subst hx hy)
  case Add.Integer.Integer a b =>
    injection h with h; injection h with h; subst h
    exact ⟨_, denote_ofM31 _, by simp only [binary, residue_eq]⟩
  case Sub.Integer.Integer a b =>
    injection h with h; injection h with h; subst h
    exact ⟨_, denote_ofM31 _, by simp only [binary, residue_eq]⟩
  case Mul.Integer.Integer a b =>
    injection h with h; injection h with h; subst h
    exact ⟨_, denote_ofM31 _, by simp only [binary, residue_eq]⟩
  case Div.Integer.Integer a b =>
    split_ifs at h with h1 h3
    · injection h with h; injection h with h; subst h
      refine ⟨_, denote_ofM31 _, ?_⟩
      simp only [binary, residue_eq]
      rw [if_neg h3, div_eq_mul_inv]
    · simp at h
  case Eq.Integer.Integer.inl a b =>
    injection h with h; injection h with h; subst h
    obtain ⟨ha, hb⟩ := hc (.inl rfl)
    refine ⟨_, rfl, ?_⟩
    simp only [binary, residue_eq, toM31_eq ha hb]
    rfl
  case Neq.Integer.Integer.inl a b =>
    injection h with h; injection h with h; subst h
    obtain ⟨ha, hb⟩ := hc (.inr rfl)
    refine ⟨_, rfl, ?_⟩
    simp only [binary, ne_eq, residue_eq, toM31_eq ha hb, bne, decide_not]
    rfl
  case U32Div.Integer.Integer a b =>
    split_ifs at h with h1
    · injection h with h; injection h with h; subst h
      refine ⟨_, rfl, ?_⟩
      have : b.toNat ≠ 0 := fun h => h1 (BitVec.eq_of_toNat_eq h)
      simp only [binary, if_neg this]
      rw [BitVec.toNat_udiv]
    · simp at h
  case U32Rem.Integer.Integer a b =>
    split_ifs at h with h1
    · injection h with h; injection h with h; subst h
      refine ⟨_, rfl, ?_⟩
      have : b.toNat ≠ 0 := fun h => h1 (BitVec.eq_of_toNat_eq h)
      simp only [binary, if_neg this]
      rw [BitVec.toNat_umod]
    · simp at h
  all_goals (injection h with h; injection h with h; subst h)
  all_goals refine ⟨_, rfl, ?_⟩
  case And.Boolean.Boolean => rfl
  case Or.Boolean.Boolean => rfl
  case U32Add.Integer.Integer a b => simp only [binary, BitVec.toNat_add]
  case U32Mul.Integer.Integer a b => simp only [binary, BitVec.toNat_mul]
  case U32Sub.Integer.Integer a b =>
    simp only [binary, BitVec.toNat_sub]
    have := b.isLt
    congr 2
    congr 1
    omega
  case U32Eq.Integer.Integer a b => simp only [binary, toNat_eq_iff]; rfl
  case U32Neq.Integer.Integer a b => simp only [binary, ne_eq, toNat_eq_iff, bne, decide_not]; rfl
  all_goals rfl

/-- **C44.** Whenever the compiler evaluates an operator on literals, at any type the operator is defined on, the
literal it produces denotes exactly the value the operator has at run time. Missing from the full claim (hence
`partial`): for `==` and `!=` on field elements both literals have to be written with their canonical
representative below `P`. -/
theorem C44_eval_partial {op : BinaryOp} {a b r : Literal} {t : Ty} {x y : Val}
    (h : evalBinary op a b = .ok (some r)) (ht : operandTy op t)
    (hx : denote t a = some x) (hy : denote t b = some y)
    (hc : (op = .Eq ∨ op = .Neq) → Canon a ∧ Canon b) :
    denote (resultTy op) r = binary op x y ∧ (binary op x y).isSome := by
  obtain ⟨v, h1, h2⟩ := evalBinary_sound h ht hx hy hc
  rw [h1, h2]; exact ⟨rfl, rfl⟩

example : evalBinary .U32Sub (.Integer 3) (.Integer 5) = .ok (some (.Integer 4294967294)) ∧
    operandTy .U32Sub .u32 ∧ denote .u32 (.Integer 3) = some (.u32 3) ∧
    binary .U32Sub (.u32 3) (.u32 5) = some (.u32 4294967294) := by decide

example : evalBinary .Sub (.Integer 3) (.Integer 5) = .ok (some (.Integer 2147483645)) := by decide +kernel

/-- **C44.** The exception is real: the front end accepts the felt literal `2147483647` (which is `0` in the
field), the compiler folds `2147483647 == 0` to `false`, and at run time the comparison is true. -/
theorem C44_violated_eq :
    evalBinary .Eq (.Integer 2147483647) (.Integer 0) = .ok (some (.Boolean false)) ∧
    denote .felt (.Integer 2147483647) = some (.felt 0) ∧
    binary .Eq (.felt 0) (.felt 0) = some (.bool true) := by
  refine ⟨by decide, ?_, by decide +kernel⟩
  simp only [denote]
  congr 2
  unfold residue
  exact ZMod.natCast_self P

set_option maxHeartbeats 2000000 in
/-- **C44.** Compile-time evaluation fails abnormally exactly when a field division has a literal divisor that
is a non-zero multiple of `P`; in all other cases it answers. -/
theorem C44_panics_iff (op : BinaryOp) (a b : Literal) :
    (∃ p, evalBinary op a b = .error p) ↔
      op = .Div ∧ ∃ m n : BitVec 32, a = .Integer m ∧ b = .Integer n ∧ n ≠ 0 ∧ P ∣ n.toNat := by
  constructor
  · rintro ⟨p, h⟩
    cases op <;> cases a <;> cases b <;> simp only [evalBinary] at h <;> (try (exfalso; simp at h; done))
    case Div.Integer.Integer m n =>
      split_ifs at h with h1 h2
      exact ⟨rfl, m, n, rfl, rfl, h1, (ZMod.natCast_eq_zero_iff _ _).1 h2⟩
    all_goals (split_ifs at h)
  · rintro ⟨rfl, m, n, rfl, rfl, h1, h2⟩
    refine ⟨.inverseOfZero, ?_⟩
    simp only [evalBinary]
    rw [if_pos h1, if_pos]
    exact (ZMod.natCast_eq_zero_iff _ _).2 h2

/-- **C44.** The abnormal case is met by the accepted program text `5 / 2147483647`. -/
theorem C44_violated_div :
    evalBinary .Div (.Integer 5) (.Integer 2147483647) = .error .inverseOfZero := by decide +kernel

set_option maxHeartbeats 2000000 in
/-- **C44.** A literal produced by compile-time evaluation at type felt is canonical, so evaluating an
expression of canonical literals stays inside the condition of `C44_eval_partial`. -/
theorem C44_results_canonical {op : BinaryOp} {a b r : Literal}
    (h : evalBinary op a b = .ok (some r)) (ht : resultTy op = .felt) : Canon r := by
  have key : ∀ z : M31, Canon (.Integer (ofM31 z)) := fun z => by
    simp only [Canon, ofM31_toNat]; exact ZMod.val_lt z
  cases op <;> simp only [resultTy, reduceCtorEq] at ht <;> cases a <;> cases b <;>
    simp only [evalBinary] at h <;> (try (exfalso; simp at h; done))
  case Div.Integer.Integer =>
    split_ifs at h <;> first | (injection h with h; injection h with h; subst h; exact key _) | simp at h
  all_goals (injection h with h; injection h with h; subst h; exact key _)

/-- **C44.** Compile-time evaluation of unary operators on field elements and booleans. Missing (`partial`):
unary minus on u32, which the type checker accepts (`type_resolution.rs:1055-1059`). -/
theorem C44_unary_partial {op : UnaryOp} {a r : Literal} {t : Ty} {x : Val}
    (h : evalUnary op a = some r) (ht : t = .felt ∨ t = .bool) (hx : denote t a = some x) :
    denote t r = unary op x ∧ (unary op x).isSome := by
  rcases ht with rfl | rfl <;> cases op <;> cases a <;>
    simp only [evalUnary, Option.some.injEq, reduceCtorEq] at h <;>
    simp only [denote, Option.some.injEq, reduceCtorEq] at hx
  · subst h hx
    rw [denote_ofM31, residue_eq]
    exact ⟨rfl, rfl⟩
  · subst h hx; exact ⟨rfl, rfl⟩

example : evalUnary .Neg (.Integer 5) = some (.Integer 2147483642) := by decide +kernel

/-- **C44.** Unary minus on a u32 literal is evaluated in the field: `-1u32` becomes `2147483646` instead of
`4294967295`. -/
theorem C44_violated_neg_u32 :
    evalUnary .Neg (.Integer 1) = some (.Integer 2147483646) ∧
    denote .u32 (.Integer 1) = some (.u32 1) ∧ unary .Neg (.u32 1) = some (.u32 4294967295) ∧
    denote .u32 (.Integer 2147483646) ≠ some (.u32 4294967295) := by
  decide +kernel

/-! ### C45 -/

/-- The value of an operand: a literal is read at the type `t`, a name is looked up. -/
def valueAt (env : ValueId → Option Val) (t : Ty) : Value → Option Val
  | .Literal l => denote t l
  | .Operand id => env id
  | .Error => none

set_option maxHeartbeats 2000000 in
/-- The result of an operator on well-typed values has the result type. -/
theorem binary_hasTy {op : BinaryOp} {x y v : Val} {t : Ty} (ht : operandTy op t)
    (hx : x.HasTy t) (hy : y.HasTy t) (h : binary op x y = some v) : v.HasTy (resultTy op) := by
  have h2 : (2 : ℕ) ^ 32 = 4294967296 := rfl
  cases op <;> simp only [operandTy] at ht <;> (try (rcases ht with rfl | rfl)) <;>
    cases x <;> simp only [Val.HasTy] at hx <;> cases y <;> simp only [Val.HasTy] at hy <;>
    simp only [binary, Option.some.injEq, reduceCtorEq] at h
  case U32Div.u32.u32 a b =>
    split_ifs at h
    injection h with h; subst h
    exact ⟨rfl, lt_of_le_of_lt (Nat.div_le_self _ _) hx.2⟩
  case U32Rem.u32.u32 a b =>
    split_ifs at h
    injection h with h; subst h
    exact ⟨rfl, lt_of_le_of_lt (Nat.mod_le _ _) hx.2⟩
  case Div.felt.felt => split_ifs at h; injection h with h; subst h; trivial
  case U32BitwiseAnd.u32.u32 => subst h; exact ⟨rfl, Nat.and_lt_two_pow _ hy.2⟩
  case U32BitwiseOr.u32.u32 => subst h; exact ⟨rfl, Nat.or_lt_two_pow hx.2 hy.2⟩
  case U32BitwiseXor.u32.u32 => subst h; exact ⟨rfl, Nat.xor_lt_two_pow hx.2 hy.2⟩
  all_goals subst h
  all_goals first | exact rfl | exact ⟨rfl, Nat.mod_lt _ (by decide)⟩

set_option maxHeartbeats 4000000 in
/-- **C45.** Whenever the simplifier replaces an operation by a value, and the operation does not fault, the value
equals the result of the operation, whatever the operands hold. Missing from the full claim (`partial`): a
subtraction with literal `0` on the left and a division with literal `1` on the left are excluded, and literals
of field comparisons have to be canonical. -/
theorem C45_simplify_partial {op : BinaryOp} {l r v : Value} {t : Ty} {env : ValueId → Option Val} {x y z : Val}
    (h : simplifyBinary op l r = .ok (some v)) (ht : operandTy op t)
    (hx : valueAt env t l = some x) (hy : valueAt env t r = some y)
    (hxt : x.HasTy t) (hyt : y.HasTy t) (hz : binary op x y = some z)
    (hleft : ∀ n : BitVec 32, l = .Literal (.Integer n) →
      ((op = .Sub ∨ op = .U32Sub) → n ≠ 0) ∧ ((op = .Div ∨ op = .U32Div) → n ≠ 1))
    (hc : ∀ a : Literal, (op = .Eq ∨ op = .Neq) → (l = .Literal a ∨ r = .Literal a) → Canon a) :
    valueAt env (resultTy op) v = some z := by
  have h1' : ((1#32).toNat) = 1 := rfl
  have h0' : ((0#32).toNat) = 0 := rfl
  have hspecial : simplifyBinary.special op l r = .ok (some v) → valueAt env (resultTy op) v = some z := by
    clear h
    intro h
    have hlit : ∀ a b, l = .Literal a → r = .Literal b → (do
        let x ← evalBinary op a b
        pure (x.map Value.Literal) : Except Panic (Option Value)) = .ok (some v) →
        valueAt env (resultTy op) v = some z := by
      rintro a b rfl rfl h
      cases hev : evalBinary op a b with
      | error e => simp [hev, bind, Except.bind] at h
      | ok w =>
        cases w with
        | none => simp [hev, bind, Except.bind, pure, Except.pure] at h
        | some r =>
          simp only [hev, bind, Except.bind, pure, Except.pure, Option.map_some, Except.ok.injEq,
            Option.some.injEq] at h
          subst h
          obtain ⟨w, h1, h2⟩ := evalBinary_sound hev ht hx hy
            fun ho => ⟨hc a ho (.inl rfl), hc b ho (.inr rfl)⟩
          rw [hz] at h2
          injection h2 with h2
          subst h2
          exact h1
    unfold simplifyBinary.special at h
    split at h
    case h_7 a b => exact hlit a b rfl rfl h
    case h_8 => simp at h
    all_goals
      rename_i a b
      split_ifs at h with hab
      · simp only [Except.ok.injEq, Option.some.injEq] at h
        subst h hab
        simp only [valueAt] at hx hy
        rw [hx] at hy
        injection hy with hy
        subst hy
        simp only [operandTy] at ht
        cases x <;> simp only [Val.HasTy, reduceCtorEq, false_and] at hxt <;>
          simp only [binary, Option.some.injEq, reduceCtorEq] at hz <;> subst hz <;>
          simp [valueAt, denote, resultTy, residue_eq, toM31]
      · simp at h
  have hrest : simplifyBinary.rest op l r = .ok (some v) → valueAt env (resultTy op) v = some z := by
    intro h
    unfold simplifyBinary.rest at h
    split at h
    · rename_i a ha
      split_ifs at h with hor
      · simp only [Except.ok.injEq, Option.some.injEq] at h
        subst h
        cases op <;> simp only [absorbingValue, Option.some.injEq, reduceCtorEq] at ha <;> subst ha <;>
          simp only [operandTy] at ht <;> subst ht <;>
          cases x <;> simp only [Val.HasTy, reduceCtorEq, false_and, true_and] at hxt <;> cases y <;> simp only [Val.HasTy, reduceCtorEq, false_and, true_and] at hyt <;>
          simp only [binary, Option.some.injEq] at hz <;> subst hz <;>
          simp only [valueAt, resultTy, denote, Option.some.injEq, Val.felt.injEq, Val.u32.injEq, Val.bool.injEq] <;>
          rcases hor with rfl | rfl <;>
          simp only [valueAt, denote, Option.some.injEq, Val.felt.injEq, Val.u32.injEq, Val.bool.injEq] at hx hy <;>
          (first | subst hx | subst hy) <;> simp
      · exact hspecial h
    · exact hspecial h
  unfold simplifyBinary at h
  split at h
  · rename_i i hi
    split_ifs at h with hl hr
    · simp only [Except.ok.injEq, Option.some.injEq] at h
      subst h hl
      cases op <;> simp only [identityValue, Option.some.injEq, reduceCtorEq] at hi <;> subst hi <;>
        simp only [operandTy] at ht <;> subst ht
      case Sub => exact absurd rfl ((hleft _ rfl).1 (.inl rfl))
      case U32Sub => exact absurd rfl ((hleft _ rfl).1 (.inr rfl))
      case Div => exact absurd rfl ((hleft _ rfl).2 (.inl rfl))
      case U32Div => exact absurd rfl ((hleft _ rfl).2 (.inr rfl))
      all_goals
        cases y <;> simp only [Val.HasTy, reduceCtorEq, false_and, true_and] at hyt
        simp only [valueAt, denote, Option.some.injEq] at hx
        subst hx
        simp only [binary, Option.some.injEq] at hz
        subst hz
        simp only [resultTy]
        rw [hy]
        simp
      all_goals (first | exact (Nat.mod_eq_of_lt hyt).symm | skip)
    · simp only [Except.ok.injEq, Option.some.injEq] at h
      subst h hr
      cases op <;> simp only [identityValue, Option.some.injEq, reduceCtorEq] at hi <;> subst hi <;>
        simp only [operandTy] at ht <;> subst ht
      all_goals
        cases x <;> simp only [Val.HasTy, reduceCtorEq, false_and, true_and] at hxt
        simp only [valueAt, denote, Option.some.injEq] at hy
        subst hy
        simp only [binary, Option.some.injEq] at hz
        try simp only [BitVec.ofNat_eq_ofNat, h1', h0', residue_one, one_ne_zero, if_false, div_one,
          Option.some.injEq, Nat.div_one] at hz
        subst hz
        simp only [resultTy]
        rw [hx]
        try simp
      all_goals (try exact (Nat.mod_eq_of_lt hxt).symm)
    · exact hrest h
  · exact hrest h

example : simplifyBinary .U32Mul (.Operand 3) (.Literal (.Integer 0)) = .ok (some (.Literal (.Integer 0))) ∧
    operandTy .U32Mul .u32 ∧ binary .U32Mul (.u32 7) (.u32 0) = some (.u32 0) := by decide

/-- **C45.** The exclusions are real: `0 - x` is replaced by `x` and `1 / x` by `x`, on field elements and on
u32; with `x = 5`, `0 - x` is `-5` and, with `x = 2` on u32, `1 / x` is `0`. -/
theorem C45_violated :
    simplifyBinary .Sub (.Literal (.Integer 0)) (.Operand 7) = .ok (some (.Operand 7)) ∧
    binary .Sub (.felt 0) (.felt 5) ≠ some (.felt 5) ∧
    simplifyBinary .Div (.Literal (.Integer 1)) (.Operand 7) = .ok (some (.Operand 7)) ∧
    binary .Div (.felt 1) (.felt 2) ≠ some (.felt 2) ∧
    simplifyBinary .U32Sub (.Literal (.Integer 0)) (.Operand 7) = .ok (some (.Operand 7)) ∧
    binary .U32Sub (.u32 0) (.u32 5) = some (.u32 4294967291) ∧
    simplifyBinary .U32Div (.Literal (.Integer 1)) (.Operand 7) = .ok (some (.Operand 7)) ∧
    binary .U32Div (.u32 1) (.u32 2) = some (.u32 0) := by
  refine ⟨by decide, by decide +kernel, by decide, ?_, by decide, by decide, by decide, by decide⟩
  simp only [binary]
  have h2 : (2 : M31) ≠ 0 := by decide +kernel
  rw [if_neg h2]
  intro h
  have h : (1 : M31) / 2 = 2 := by simpa using h
  rw [div_eq_iff h2] at h
  exact absurd h (by decide +kernel)

end Mir
end CairoM
