import Verif.WasmMemSpec
import Verif.WasmEmit

/-!
# Linear memory in cells

The relation between the bytes of a linear memory and the cells of the machine that the emitted code uses, and lemmas
about it.
-/

namespace CairoM
namespace Wasm

open Mir Lang

/-- The cell of the low half of the word number `w`: words are laid out downwards from the last address
(`lowering/ops.rs:58-91`). -/
def cellOf (w : ℕ) : M31 := ((2 ^ 28 - 2 - 2 * w : ℕ) : M31)

/-- The cells hold the bytes of a memory of `size` bytes. -/
def Repr (mem : Isa.Mem) (size : ℕ) (b : Bytes) : Prop :=
  ∀ w, 4 * w + 4 ≤ size → Isa.u32 mem (cellOf w) = some (word32 b (4 * w)).toNat

/-- An access whose address operand and constant offset are multiples of four. -/
def Access.Aligned (x : Access) : Prop := x.base.toNat % 4 = 0 ∧ x.offset % 4 = 0

instance (x : Access) : Decidable x.Aligned := by unfold Access.Aligned; infer_instance

/-! ### Bytes -/

theorem word32_put32 (b : Bytes) (w w' : ℕ) (v : I32) :
    word32 (put32 b (4 * w) v) (4 * w') = if w' = w then v else word32 b (4 * w') := by
  by_cases h : w' = w
  · subst h
    rw [if_pos rfl]
    have h1 : put32 b (4 * w') v (4 * w') = v.extractLsb' 0 8 := by simp [put32]
    have h2 : put32 b (4 * w') v (4 * w' + 1) = v.extractLsb' 8 8 := by simp [put32]
    have h3 : put32 b (4 * w') v (4 * w' + 2) = v.extractLsb' 16 8 := by simp [put32]
    have h4 : put32 b (4 * w') v (4 * w' + 3) = v.extractLsb' 24 8 := by simp [put32]
    rw [word32, h1, h2, h3, h4]
    ext i hi
    simp only [BitVec.getElem_append, BitVec.getElem_extractLsb']
    rw [BitVec.getElem_eq_testBit_toNat v i hi]
    split_ifs <;> simp only [BitVec.getLsbD] <;> congr 1 <;> omega
  · rw [if_neg h]
    have hk : ∀ k < 4, put32 b (4 * w) v (4 * w' + k) = b (4 * w' + k) := by
      intro k hk
      unfold put32
      rw [if_neg (by omega), if_neg (by omega), if_neg (by omega), if_neg (by omega)]
    have h0 := hk 0 (by omega)
    rw [Nat.add_zero] at h0
    rw [word32, word32, hk 3 (by omega), hk 2 (by omega), hk 1 (by omega), h0]

/-! ### Cells -/

theorem cell_val {n : ℕ} (h : n < 2 ^ 28) : ((n : ℕ) : M31).val = n :=
  ZMod.val_cast_of_lt (h.trans (by norm_num [P]))

theorem cell_succ (w : ℕ) (h : 2 * w + 2 ≤ 2 ^ 28) : cellOf w + 1 = ((2 ^ 28 - 1 - 2 * w : ℕ) : M31) := by
  unfold cellOf
  have : 2 ^ 28 - 1 - 2 * w = 2 ^ 28 - 2 - 2 * w + 1 := by omega
  rw [this]
  push_cast
  rfl

theorem cell_inRange (w : ℕ) : Isa.InRange (cellOf w) := by
  unfold Isa.InRange cellOf
  rw [cell_val (by omega)]
  omega

theorem cell_succ_inRange (w : ℕ) (h : 2 * w + 2 ≤ 2 ^ 28) : Isa.InRange (cellOf w + 1) := by
  unfold Isa.InRange
  rw [cell_succ w h, cell_val (by omega)]
  omega

/-- Cells of different words are different, and so are the two cells of a word. -/
theorem cell_ne {w w' : ℕ} (h : 2 * w + 2 ≤ 2 ^ 28) (h' : 2 * w' + 2 ≤ 2 ^ 28) (hne : w ≠ w') :
    cellOf w ≠ cellOf w' ∧ cellOf w + 1 ≠ cellOf w' + 1 := by
  refine ⟨fun e => ?_, fun e => ?_⟩
  · have := congrArg ZMod.val e
    unfold cellOf at this
    rw [cell_val (by omega), cell_val (by omega)] at this
    omega
  · have := congrArg ZMod.val e
    rw [cell_succ w h, cell_succ w' h', cell_val (by omega), cell_val (by omega)] at this
    omega

theorem cell_ne_succ {w w' : ℕ} (h' : 2 * w' + 2 ≤ 2 ^ 28) : cellOf w ≠ cellOf w' + 1 := by
  intro e
  have := congrArg ZMod.val e
  rw [cell_succ w' h'] at this
  unfold cellOf at this
  rw [cell_val (by omega), cell_val (by omega)] at this
  omega

theorem felt_update {mem : Isa.Mem} {a : M31} {x : M31} (h : Isa.InRange a) :
    Isa.felt (Function.update mem a ⟨x, 0, 0, 0⟩) a = some x := by
  simp [Isa.felt, h]

theorem felt_update_ne {mem : Isa.Mem} {a c : M31} {q : QM31} (h : c ≠ a) :
    Isa.felt (Function.update mem a q) c = Isa.felt mem c := by
  simp [Isa.felt, Function.update_of_ne h]

/-- A word stored in two cells and read back. -/
theorem u32_write {mem : Isa.Mem} {w : ℕ} (h : 2 * w + 2 ≤ 2 ^ 28) (n : ℕ) (hn : n < 2 ^ 32) :
    Isa.u32 (Isa.write mem (Isa.split (cellOf w) n)) (cellOf w) = some n := by
  have hne : cellOf w ≠ cellOf w + 1 := cell_ne_succ h
  have e1 : ((n % 2 ^ 16 : ℕ) : M31).val = n % 2 ^ 16 := cell_val (by omega)
  have e2 : ((n / 2 ^ 16 : ℕ) : M31).val = n / 2 ^ 16 := cell_val (by omega)
  simp only [Isa.u32, Isa.write, Isa.split]
  rw [felt_update_ne hne, felt_update (cell_inRange w), felt_update (cell_succ_inRange w h)]
  show Isa.ofLimbs _ _ = _
  rw [Isa.ofLimbs, e1, e2, if_pos ⟨by omega, by omega⟩]
  congr 1
  omega

/-- A word stored elsewhere. -/
theorem u32_write_ne {mem : Isa.Mem} {w w' : ℕ} (h : 2 * w + 2 ≤ 2 ^ 28) (h' : 2 * w' + 2 ≤ 2 ^ 28) (hne : w' ≠ w) (n : ℕ) :
    Isa.u32 (Isa.write mem (Isa.split (cellOf w) n)) (cellOf w') = Isa.u32 mem (cellOf w') := by
  have := cell_ne h' h hne
  have a1 : cellOf w' ≠ cellOf w + 1 := cell_ne_succ h
  have a2 : cellOf w' + 1 ≠ cellOf w := (cell_ne_succ h').symm
  simp only [Isa.u32, Isa.write, Isa.split]
  rw [felt_update_ne a1, felt_update_ne this.1, felt_update_ne this.2, felt_update_ne a2]

/-- Storing a word keeps the relation. -/
theorem Repr.store {mem : Isa.Mem} {size : ℕ} {b : Bytes} (hr : Repr mem size b) (hs : size ≤ 2 ^ 29) {w : ℕ}
    (hw : 4 * w + 4 ≤ size) (v : I32) :
    Repr (Isa.write mem (Isa.split (cellOf w) v.toNat)) size (put32 b (4 * w) v) := by
  intro w' hw'
  rw [word32_put32]
  by_cases h : w' = w
  · subst h
    rw [if_pos rfl, u32_write (by omega) _ v.isLt]
  · rw [if_neg h, u32_write_ne (by omega) (by omega) h, hr w' hw']

/-! ### The address computation -/

theorem topCell_toNat {offset : ℕ} (h : offset < 2 ^ 29 - 2) : (topCell offset).toNat = 2 ^ 28 - 2 - offset / 2 := by
  have h1 : offset / 2 % 2 ^ 32 = offset / 2 := Nat.mod_eq_of_lt (by omega)
  have h2 : (1 : BitVec 32).toNat = 1 := rfl
  simp only [topCell, cellOffset, MAX_ADDRESS, BitVec.toNat_add, BitVec.toNat_sub, BitVec.toNat_neg, BitVec.toNat_ofNat, h2]
  omega

theorem upd_lt {env : Lang.Env} {d v : ℕ} {x : Option Val} (h : v < d) : Function.update env d x v = env v :=
  Function.update_of_ne (Nat.ne_of_lt h) _ _

theorem residue_cast (n : ℕ) : residue n = (n : M31) := by
  unfold residue
  rfl

/-- What the emitted address computation does, for operands below `2^29`. -/
theorem address_eval (calls : Lang.Calls) {env : Lang.Env} {mem : Isa.Mem} {a offset n : ℕ} {x : I32} (ha : env a = some (.u32 x.toNat))
    (hb : x.toNat + offset + 4 ≤ 2 ^ 29) (rest : List Instr) :
    ∃ env', evalMems calls (addressCode a offset n ++ rest) (env, mem) = evalMems calls rest (env', mem) ∧
      env' (n + 2) = some (.felt (((2 ^ 28 - 2 - offset / 2 : ℕ) : M31) - ((x.toNat / 2 : ℕ) : M31))) ∧ ∀ v < n, env' v = env v := by
  refine ⟨Function.update (Function.update (Function.update env n (some (.u32 (x.toNat / 2)))) (n + 1)
    (some (.felt ((x.toNat / 2 : ℕ) : M31)))) (n + 2)
      (some (.felt (((2 ^ 28 - 2 - offset / 2 : ℕ) : M31) - ((x.toNat / 2 : ℕ) : M31)))), ?_, ?_, ?_⟩
  · have hP : x.toNat / 2 < P := by norm_num [P]; omega
    have h2 : ((2 : BitVec 32)).toNat = 2 := rfl
    simp only [addressCode, List.cons_append, List.nil_append, evalMems, evalMem, evalInstr, operand, literalTy, denote, ha,
      binary, Option.bind_eq_bind, Option.bind_some, Option.map_some, readAt, scalarTy, Lang.cast, Function.update_self,
      topCell_toNat (show offset < 2 ^ 29 - 2 by omega), residue_cast, h2, if_neg (show ¬ (2 = 0) by decide), if_pos hP]
  · simp
  · intro v hv
    rw [upd_lt (by omega), upd_lt (by omega), upd_lt (by omega)]

/-- The cell computed for an aligned access. -/
theorem address_cell {x offset w : ℕ} (hx : x % 4 = 0) (hw : x + offset = 4 * w) (hb : 4 * w + 4 ≤ 2 ^ 29) :
    ((2 ^ 28 - 2 - offset / 2 : ℕ) : M31) - ((x / 2 : ℕ) : M31) = cellOf w := by
  have h : 2 ^ 28 - 2 - offset / 2 = 2 ^ 28 - 2 - 2 * w + x / 2 := by omega
  unfold cellOf
  rw [h]
  push_cast
  ring

end Wasm
end CairoM
