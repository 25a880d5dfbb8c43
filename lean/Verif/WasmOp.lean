import Verif.WasmStep

/-!
# The WebAssembly front end: operators

The instructions emitted for an operator compute what the operator does.
-/

namespace CairoM
namespace Wasm

open Mir Lang

attribute [local irreducible] topCell

/-- Operators whose result is a truth value. -/
def Op.isFlag : Op → Bool
  | .bin b => match b with
    | .add | .sub | .mul | .divU | .and | .or | .xor => false
    | _ => true
  | .eqz => true
  | _ => false

/-- The value of a name for an integer: truth values are booleans in the lowered program. -/
def Holds (flag : Bool) (v : Option Val) (x : I32) : Prop :=
  v = some (if flag then .bool (decide (x ≠ 0)) else .u32 x.toNat)

/-- An integer as a value. -/
def word (x : I32) : Val := .u32 x.toNat

/-- Calls the lowering supports: one result, and as many arguments as parameters. -/
def Op.callOk (m : FuncTypes) (arity : ℕ) : Op → Bool
  | .call f => match m f with
    | some (ps, rs) => ps.length == arity && rs.length == 1
    | none => false
  | _ => true

/-- The called functions are lowered correctly. -/
def CallsOk (m : FuncTypes) (calls : Calls) (mcalls : Lang.Calls) : Prop :=
  ∀ f ps rs xs ys, m f = some (ps, rs) → calls f xs = some ys → ys.length = rs.length ∧
    mcalls f (xs.map word) = some (ys.map word)

theorem truth_ne (b : Bool) : decide (truth b ≠ 0) = b := by
  cases b <;> decide

theorem signed_lt (x y : I32) : x.toInt < y.toInt ↔ (x.toNat + 2147483648) % 4294967296 < (y.toNat + 2147483648) % 4294967296 := by
  rw [BitVec.toInt_eq_toNat_cond, BitVec.toInt_eq_toNat_cond]
  have h1 := x.isLt
  have h2 := y.isLt
  split <;> split <;> omega

theorem signed_le (x y : I32) : x.toInt ≤ y.toInt ↔ (x.toNat + 2147483648) % 4294967296 ≤ (y.toNat + 2147483648) % 4294967296 := by
  rw [BitVec.toInt_eq_toNat_cond, BitVec.toInt_eq_toNat_cond]
  have h1 := x.isLt
  have h2 := y.isLt
  split <;> split <;> omega

/-- The operators translated to one instruction. -/
theorem bin_sim {b : Bin} {op : BinaryOp} (hs : signedOp b = none) (ho : binOp b = some op) {x y z : I32}
    (h : b.eval x y = some z) :
    ∃ v, binary op (.u32 x.toNat) (.u32 y.toNat) = some v ∧ Holds (Op.isFlag (.bin b)) (some v) z := by
  have h1 := x.isLt
  have h2 := y.isLt
  cases b <;> simp only [signedOp, reduceCtorEq] at hs <;> simp only [binOp, Option.some.injEq] at ho <;> subst ho <;>
    simp only [Bin.eval] at h <;> try simp only [Option.some.injEq] at h
  case divU =>
    split at h
    · cases h
    · rename_i hy
      cases h
      have : y.toNat ≠ 0 := fun e => hy (BitVec.eq_of_toNat_eq (by simpa using e))
      exact ⟨.u32 (x.toNat / y.toNat), by simp [binary, this], by simp [Holds, Op.isFlag, BitVec.toNat_udiv]⟩
  all_goals subst h
  all_goals refine ⟨_, rfl, ?_⟩
  all_goals simp only [Holds, Op.isFlag, Bool.false_eq_true, if_false, if_true, truth_ne, Option.some.injEq, Val.u32.injEq,
    Val.bool.injEq]
  · rw [BitVec.toNat_add]
  · rw [BitVec.toNat_sub]
    omega
  · rw [BitVec.toNat_mul]
  · rw [BitVec.toNat_and]; rfl
  · rw [BitVec.toNat_or]; rfl
  · rw [BitVec.toNat_xor]; rfl
  · rw [Bool.eq_iff_iff]; simp [BitVec.toNat_eq]
  · rw [Bool.eq_iff_iff]; simp [BitVec.toNat_eq]
  · rw [Bool.eq_iff_iff]; simp [BitVec.ult]
  · rw [Bool.eq_iff_iff]; simp [BitVec.ule]
  · rw [Bool.eq_iff_iff]; simp [BitVec.ult]
  · rw [Bool.eq_iff_iff]; simp [BitVec.ule]

/-- The signed comparisons. -/
theorem signed_sim {b : Bin} {op : BinaryOp} (hs : signedOp b = some op) {x y z : I32} (h : b.eval x y = some z) :
    ∃ v, binary op (.u32 ((x.toNat + 2147483648) % 4294967296)) (.u32 ((y.toNat + 2147483648) % 4294967296)) = some v ∧
      Holds (Op.isFlag (.bin b)) (some v) z := by
  cases b <;> simp only [signedOp, reduceCtorEq, Option.some.injEq] at hs <;> subst hs <;>
    simp only [Bin.eval, Option.some.injEq] at h <;> subst h <;> refine ⟨_, rfl, ?_⟩ <;>
    simp only [Holds, Op.isFlag, if_true, truth_ne, signed_lt, signed_le, gt_iff_lt, ge_iff_le]

/-- Names and the integers they hold. -/
def Words (ρ : Lang.Env) : List ℕ → List I32 → Prop
  | [], [] => True
  | v :: vs, x :: xs => ρ v = some (word x) ∧ Words ρ vs xs
  | _, _ => False

theorem Words.length {ρ : Lang.Env} : ∀ {vs : List ℕ} {xs : List I32}, Words ρ vs xs → vs.length = xs.length
  | [], [], _ => rfl
  | _ :: _, _ :: _, h => by simp [Words.length h.2]
  | [], _ :: _, h => h.elim
  | _ :: _, [], h => h.elim

theorem Words.get {ρ : Lang.Env} : ∀ {vs : List ℕ} {xs : List I32}, Words ρ vs xs → ∀ {i : ℕ} {x : I32}, xs[i]? = some x →
    ∃ v, vs[i]? = some v ∧ ρ v = some (word x)
  | [], [], _, i, x, h => by simp at h
  | v :: vs, y :: xs, hw, 0, x, h => by
    simp only [List.getElem?_cons_zero, Option.some.injEq] at h
    subst h
    exact ⟨v, rfl, hw.1⟩
  | v :: vs, y :: xs, hw, i + 1, x, h => by
    simpa using Words.get hw.2 (i := i) (x := x) (by simpa using h)
  | [], _ :: _, h, _, _, _ => h.elim
  | _ :: _, [], h, _, _, _ => h.elim

/-- Reading names at the type of integers. -/
theorem Words.read {ρ : Lang.Env} : ∀ {vs : List ℕ} {xs : List I32} (_ : Words ρ vs xs),
    Lang.readAll ρ ((List.replicate vs.length MirType.U32).map some) (vs.map .Operand) = some (xs.map word)
  | [], [], _ => rfl
  | v :: vs, x :: xs, h => by
    simp only [List.length_cons, List.replicate_succ, List.map_cons, Lang.readAll, Option.bind_some, scalarTy, readAt, h.1,
      Words.read h.2, Option.bind_eq_bind]
  | [], _ :: _, h => h.elim
  | _ :: _, [], h => h.elim

theorem op_sim {m : FuncTypes} {calls : Calls} {mcalls : Lang.Calls} (hcalls : CallsOk m calls mcalls) {o : Op} {vs : List ℕ}
    {n k : ℕ} {is : List Instr} {r : Option ℕ} (hc : code m o vs n = some (is, r, k)) {ρ : Lang.Env} {xs ys : List I32}
    (hw : Words ρ vs xs) (hlt : ∀ v ∈ vs, v < n) (hok : o.callOk m xs.length = true) (he : o.eval calls xs = some ys) :
    ∃ ρ' v y, r = some v ∧ ys = [y] ∧ evalInstrs mcalls is ρ = some ρ' ∧ Holds o.isFlag (ρ' v) y ∧ ∀ w < n, ρ' w = ρ w := by
  cases o with
  | bin b =>
    rcases xs with _ | ⟨x, _ | ⟨y, _ | ⟨_, _⟩⟩⟩ <;> simp only [Op.eval, reduceCtorEq] at he
    rcases vs with _ | ⟨l, _ | ⟨r', _ | ⟨_, _⟩⟩⟩ <;> simp only [Words, and_false, and_true] at hw
    obtain ⟨hl, hr⟩ := hw
    cases hz : b.eval x y with
    | none => rw [hz] at he; cases he
    | some z =>
    rw [hz] at he
    cases he
    have n1 : l < n := hlt l (by simp)
    have n2 : r' < n := hlt r' (by simp)
    simp only [code, binCode] at hc
    cases hs : signedOp b with
    | none =>
      rw [hs] at hc
      cases hop : binOp b with
      | none => rw [hop] at hc; cases hc
      | some op =>
      rw [hop] at hc
      simp only [Option.map_some, Option.some.injEq, Prod.mk.injEq] at hc
      obtain ⟨rfl, rfl, rfl⟩ := hc
      obtain ⟨v, h1, h2⟩ := bin_sim hs hop hz
      refine ⟨Function.update ρ n (some v), n, z, rfl, rfl, ?_, ?_, ?_⟩
      · simp only [evalInstrs, evalInstr, operand, hl, hr, word, Option.bind_eq_bind, Option.bind_some, h1]
      · rw [Function.update_self]
        exact h2
      · intro w hw
        have ne : w ≠ n := by omega
        exact Function.update_of_ne ne _ _
    | some op =>
      rw [hs] at hc
      simp only [Option.some.injEq, Prod.mk.injEq] at hc
      obtain ⟨rfl, rfl, rfl⟩ := hc
      obtain ⟨v, h1, h2⟩ := signed_sim hs hz
      refine ⟨Function.update (Function.update (Function.update ρ n (some (.u32 ((x.toNat + 2147483648) % 4294967296))))
        (n + 1) (some (.u32 ((y.toNat + 2147483648) % 4294967296)))) (n + 2) (some v), n + 2, z, rfl, rfl, ?_, ?_, ?_⟩
      · have e : signBit.toNat = 2147483648 := by decide
        have ne1 : r' ≠ n := by omega
        have ne2 : n ≠ n + 1 := by omega
        have b1 : ∀ a c, binary .U32Add (.u32 a) (.u32 c) = some (.u32 ((a + c) % 4294967296)) := fun _ _ => rfl
        simp only [evalInstrs, evalInstr, operand, hl, hr, word, literalTy, denote, e, b1, Option.bind_eq_bind,
          Option.bind_some, Function.update_of_ne ne1, Function.update_of_ne ne2, Function.update_self, h1]
      · rw [Function.update_self]
        exact h2
      · intro w hw
        have ne1 : w ≠ n := by omega
        have ne2 : w ≠ n + 1 := by omega
        have ne3 : w ≠ n + 2 := by omega
        rw [Function.update_of_ne ne3, Function.update_of_ne ne2, Function.update_of_ne ne1]
  | eqz =>
    rcases xs with _ | ⟨x, _ | ⟨_, _⟩⟩ <;> simp only [Op.eval, reduceCtorEq] at he
    rcases vs with _ | ⟨l, _ | ⟨_, _⟩⟩ <;> simp only [Words, and_false, and_true] at hw
    cases he
    simp only [code, Option.some.injEq, Prod.mk.injEq] at hc
    obtain ⟨rfl, rfl, rfl⟩ := hc
    refine ⟨Function.update ρ n (some (.bool (decide (x.toNat = 0)))), n, _, rfl, rfl, ?_, ?_, ?_⟩
    · simp [evalInstrs, evalInstr, operand, hw, word, literalTy, denote, binary]
    · rw [Function.update_self]
      simp only [Holds, Op.isFlag, if_true, truth_ne, Option.some.injEq, Val.bool.injEq]
      rw [Bool.eq_iff_iff]
      simp [BitVec.toNat_eq]
    · intro w hw
      have ne : w ≠ n := by omega
      exact Function.update_of_ne ne _ _
  | const c =>
    rcases xs with _ | ⟨x, xs⟩ <;> simp only [Op.eval, reduceCtorEq] at he
    cases he
    simp only [code, Option.some.injEq, Prod.mk.injEq] at hc
    obtain ⟨rfl, rfl, rfl⟩ := hc
    refine ⟨Function.update ρ n (some (.u32 c.toNat)), n, _, rfl, rfl, ?_, ?_, ?_⟩
    · simp [evalInstrs, evalInstr, scalarTy, readAt, denote]
    · rw [Function.update_self]
      rfl
    · intro w hw
      have ne : w ≠ n := by omega
      exact Function.update_of_ne ne _ _
  | call f =>
    simp only [Op.eval] at he
    simp only [code] at hc
    simp only [Op.callOk] at hok
    cases hm : m f with
    | none => rw [hm] at hc; cases hc
    | some t =>
    obtain ⟨ps, rs⟩ := t
    rw [hm] at hc hok
    simp only [Option.map_some, Option.some.injEq, Prod.mk.injEq] at hc
    simp only [Bool.and_eq_true, beq_iff_eq] at hok
    obtain ⟨rfl, rfl, rfl⟩ := hc
    obtain ⟨h1, h2⟩ := hcalls f ps rs xs ys hm he
    rw [hok.2] at h1
    obtain ⟨y, rfl⟩ := List.length_eq_one_iff.mp h1
    refine ⟨Function.update ρ n (some (word y)), n, y, rfl, rfl, ?_, ?_, ?_⟩
    · have hr := hw.read
      rw [hw.length, ← hok.1] at hr
      simp only [evalInstrs, evalInstr, callCode, hr, Option.bind_eq_bind, Option.bind_some, h2, List.map_cons, List.map_nil,
        Lang.bind]
    · rw [Function.update_self]
      rfl
    · intro w hw
      have ne : w ≠ n := by omega
      exact Function.update_of_ne ne _ _
  | load _ => simp [Op.eval] at he
  | store _ => simp [Op.eval] at he
  | localAccess => simp [Op.eval] at he
  | other => simp [Op.eval] at he

end Wasm
end CairoM
