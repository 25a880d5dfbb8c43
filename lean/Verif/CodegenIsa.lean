import Verif.CodegenLemmas

/-!
# Helper lemmas: effect of the instructions the code generator emits

Addresses are given as `fp + offset = address` so that the lemmas apply to encoded offsets.
-/

namespace CairoM
namespace Codegen

open Mir Lang Relation

section

variable {pc fp : M31} {m : Isa.Mem} {a b d r pa pb pd pr x y imm lo hi : M31} {n k : ℕ}

theorem felt_bind {α : Type} {p v : M31} (h : Isa.felt m p = some v) (f : M31 → Option α) :
    (Isa.felt m p >>= f) = f v := by rw [h]; rfl

theorem u32_bind {α : Type} {p : M31} {v : ℕ} (h : Isa.u32 m p = some v) (f : ℕ → Option α) :
    (Isa.u32 m p >>= f) = f v := by rw [h]; rfl

theorem limbs_bind {α : Type} {v : ℕ} (h : Isa.ofLimbs lo hi = some v) (f : ℕ → Option α) :
    (Isa.ofLimbs lo hi >>= f) = f v := by rw [h]; rfl

theorem sem_add (ha : fp + a = pa) (hb : fp + b = pb) (hd : fp + d = pd)
    (h0 : Isa.felt m pa = some x) (h1 : Isa.felt m pb = some y) (hr : Isa.InRange pd) :
    Isa.sem (.StoreAddFpFp a b d) pc fp m = some ⟨[pa, pb], [(pd, x + y)], pc + 1, fp⟩ := by
  subst ha hb hd; dsimp only [Isa.sem]; rw [felt_bind h0, felt_bind h1]; exact done_one hr

theorem sem_sub (ha : fp + a = pa) (hb : fp + b = pb) (hd : fp + d = pd)
    (h0 : Isa.felt m pa = some x) (h1 : Isa.felt m pb = some y) (hr : Isa.InRange pd) :
    Isa.sem (.StoreSubFpFp a b d) pc fp m = some ⟨[pa, pb], [(pd, x - y)], pc + 1, fp⟩ := by
  subst ha hb hd; dsimp only [Isa.sem]; rw [felt_bind h0, felt_bind h1]; exact done_one hr

theorem sem_mul (ha : fp + a = pa) (hb : fp + b = pb) (hd : fp + d = pd)
    (h0 : Isa.felt m pa = some x) (h1 : Isa.felt m pb = some y) (hr : Isa.InRange pd) :
    Isa.sem (.StoreMulFpFp a b d) pc fp m = some ⟨[pa, pb], [(pd, x * y)], pc + 1, fp⟩ := by
  subst ha hb hd; dsimp only [Isa.sem]; rw [felt_bind h0, felt_bind h1]; exact done_one hr

theorem sem_div (ha : fp + a = pa) (hb : fp + b = pb) (hd : fp + d = pd)
    (h0 : Isa.felt m pa = some x) (h1 : Isa.felt m pb = some y) (hy : y ≠ 0) (hr : Isa.InRange pd) :
    Isa.sem (.StoreDivFpFp a b d) pc fp m = some ⟨[pa, pb], [(pd, x * y⁻¹)], pc + 1, fp⟩ := by
  subst ha hb hd; dsimp only [Isa.sem]; rw [felt_bind h0, felt_bind h1, if_neg hy]; exact done_one hr

theorem sem_addImm (ha : fp + a = pa) (hd : fp + d = pd)
    (h0 : Isa.felt m pa = some x) (hr : Isa.InRange pd) :
    Isa.sem (.StoreAddFpImm a imm d) pc fp m = some ⟨[pa], [(pd, x + imm)], pc + 1, fp⟩ := by
  subst ha hd; dsimp only [Isa.sem]; rw [felt_bind h0]; exact done_one hr

theorem sem_mulImm (ha : fp + a = pa) (hd : fp + d = pd)
    (h0 : Isa.felt m pa = some x) (hr : Isa.InRange pd) :
    Isa.sem (.StoreMulFpImm a imm d) pc fp m = some ⟨[pa], [(pd, x * imm)], pc + 1, fp⟩ := by
  subst ha hd; dsimp only [Isa.sem]; rw [felt_bind h0]; exact done_one hr

theorem sem_leImm (ha : fp + a = pa) (hd : fp + d = pd)
    (h0 : Isa.felt m pa = some x) (hr : Isa.InRange pd) :
    Isa.sem (.StoreLeFpImm a imm d) pc fp m = some ⟨[pa], [(pd, Isa.bit (x.val ≤ imm.val))], pc + 1, fp⟩ := by
  subst ha hd; dsimp only [Isa.sem]; rw [felt_bind h0]; exact done_one hr

theorem sem_imm (hd : fp + d = pd) (hr : Isa.InRange pd) :
    Isa.sem (.StoreImm imm d) pc fp m = some ⟨[], [(pd, imm)], pc + 1, fp⟩ := by
  subst hd; dsimp only [Isa.sem]; exact done_one hr

theorem sem_fp (hd : fp + d = pd) (hr : Isa.InRange pd) :
    Isa.sem (.StoreFramePointer imm d) pc fp m = some ⟨[], [(pd, fp + imm)], pc + 1, fp⟩ := by
  subst hd; dsimp only [Isa.sem]; exact done_one hr

theorem sem_assert (ha : fp + a = pa) (h0 : Isa.felt m pa = some imm) :
    Isa.sem (.AssertEqFpImm a imm) pc fp m = some ⟨[pa], [], pc + 1, fp⟩ := by
  subst ha; dsimp only [Isa.sem]; rw [felt_bind h0, if_pos rfl, Isa.done, if_pos]; intro w hw; cases hw

theorem sem_u32Add (ha : fp + a = pa) (hb : fp + b = pb) (hd : fp + d = pd)
    (h0 : Isa.u32 m pa = some n) (h1 : Isa.u32 m pb = some k) (hr : Isa.InRange pd) (hr1 : Isa.InRange (pd + 1)) :
    Isa.sem (.U32StoreAddFpFp a b d) pc fp m = some ⟨[pa, pa + 1, pb, pb + 1], Isa.split pd ((n + k) % 2 ^ 32), pc + 1, fp⟩ := by
  subst ha hb hd; dsimp only [Isa.sem, Isa.bin32]; rw [u32_bind h0, u32_bind h1]; exact done_split hr hr1

theorem sem_u32AddImm (ha : fp + a = pa) (hd : fp + d = pd)
    (h0 : Isa.u32 m pa = some n) (h1 : Isa.ofLimbs lo hi = some k) (hr : Isa.InRange pd) (hr1 : Isa.InRange (pd + 1)) :
    Isa.sem (.U32StoreAddFpImm a lo hi d) pc fp m = some ⟨[pa, pa + 1], Isa.split pd ((n + k) % 2 ^ 32), pc + 2, fp⟩ := by
  subst ha hd; dsimp only [Isa.sem, Isa.bin32Imm]; rw [limbs_bind h1, u32_bind h0]; exact done_split hr hr1

theorem sem_u32Sub (ha : fp + a = pa) (hb : fp + b = pb) (hd : fp + d = pd)
    (h0 : Isa.u32 m pa = some n) (h1 : Isa.u32 m pb = some k) (hr : Isa.InRange pd) (hr1 : Isa.InRange (pd + 1)) :
    Isa.sem (.U32StoreSubFpFp a b d) pc fp m = some ⟨[pa, pa + 1, pb, pb + 1], Isa.split pd ((n + 2 ^ 32 - k) % 2 ^ 32), pc + 1, fp⟩ := by
  subst ha hb hd; dsimp only [Isa.sem, Isa.bin32]; rw [u32_bind h0, u32_bind h1]; exact done_split hr hr1

theorem sem_u32Mul (ha : fp + a = pa) (hb : fp + b = pb) (hd : fp + d = pd)
    (h0 : Isa.u32 m pa = some n) (h1 : Isa.u32 m pb = some k) (hr : Isa.InRange pd) (hr1 : Isa.InRange (pd + 1)) :
    Isa.sem (.U32StoreMulFpFp a b d) pc fp m = some ⟨[pa, pa + 1, pb, pb + 1], Isa.split pd ((n * k) % 2 ^ 32), pc + 1, fp⟩ := by
  subst ha hb hd; dsimp only [Isa.sem, Isa.bin32]; rw [u32_bind h0, u32_bind h1]; exact done_split hr hr1

theorem sem_u32MulImm (ha : fp + a = pa) (hd : fp + d = pd)
    (h0 : Isa.u32 m pa = some n) (h1 : Isa.ofLimbs lo hi = some k) (hr : Isa.InRange pd) (hr1 : Isa.InRange (pd + 1)) :
    Isa.sem (.U32StoreMulFpImm a lo hi d) pc fp m = some ⟨[pa, pa + 1], Isa.split pd ((n * k) % 2 ^ 32), pc + 2, fp⟩ := by
  subst ha hd; dsimp only [Isa.sem, Isa.bin32Imm]; rw [limbs_bind h1, u32_bind h0]; exact done_split hr hr1

theorem sem_u32And (ha : fp + a = pa) (hb : fp + b = pb) (hd : fp + d = pd)
    (h0 : Isa.u32 m pa = some n) (h1 : Isa.u32 m pb = some k) (hr : Isa.InRange pd) (hr1 : Isa.InRange (pd + 1)) :
    Isa.sem (.U32StoreAndFpFp a b d) pc fp m = some ⟨[pa, pa + 1, pb, pb + 1], Isa.split pd (Nat.land n k), pc + 1, fp⟩ := by
  subst ha hb hd; dsimp only [Isa.sem, Isa.bin32]; rw [u32_bind h0, u32_bind h1]; exact done_split hr hr1

theorem sem_u32AndImm (ha : fp + a = pa) (hd : fp + d = pd)
    (h0 : Isa.u32 m pa = some n) (h1 : Isa.ofLimbs lo hi = some k) (hr : Isa.InRange pd) (hr1 : Isa.InRange (pd + 1)) :
    Isa.sem (.U32StoreAndFpImm a lo hi d) pc fp m = some ⟨[pa, pa + 1], Isa.split pd (Nat.land n k), pc + 2, fp⟩ := by
  subst ha hd; dsimp only [Isa.sem, Isa.bin32Imm]; rw [limbs_bind h1, u32_bind h0]; exact done_split hr hr1

theorem sem_u32Or (ha : fp + a = pa) (hb : fp + b = pb) (hd : fp + d = pd)
    (h0 : Isa.u32 m pa = some n) (h1 : Isa.u32 m pb = some k) (hr : Isa.InRange pd) (hr1 : Isa.InRange (pd + 1)) :
    Isa.sem (.U32StoreOrFpFp a b d) pc fp m = some ⟨[pa, pa + 1, pb, pb + 1], Isa.split pd (Nat.lor n k), pc + 1, fp⟩ := by
  subst ha hb hd; dsimp only [Isa.sem, Isa.bin32]; rw [u32_bind h0, u32_bind h1]; exact done_split hr hr1

theorem sem_u32OrImm (ha : fp + a = pa) (hd : fp + d = pd)
    (h0 : Isa.u32 m pa = some n) (h1 : Isa.ofLimbs lo hi = some k) (hr : Isa.InRange pd) (hr1 : Isa.InRange (pd + 1)) :
    Isa.sem (.U32StoreOrFpImm a lo hi d) pc fp m = some ⟨[pa, pa + 1], Isa.split pd (Nat.lor n k), pc + 2, fp⟩ := by
  subst ha hd; dsimp only [Isa.sem, Isa.bin32Imm]; rw [limbs_bind h1, u32_bind h0]; exact done_split hr hr1

theorem sem_u32Xor (ha : fp + a = pa) (hb : fp + b = pb) (hd : fp + d = pd)
    (h0 : Isa.u32 m pa = some n) (h1 : Isa.u32 m pb = some k) (hr : Isa.InRange pd) (hr1 : Isa.InRange (pd + 1)) :
    Isa.sem (.U32StoreXorFpFp a b d) pc fp m = some ⟨[pa, pa + 1, pb, pb + 1], Isa.split pd (Nat.xor n k), pc + 1, fp⟩ := by
  subst ha hb hd; dsimp only [Isa.sem, Isa.bin32]; rw [u32_bind h0, u32_bind h1]; exact done_split hr hr1

theorem sem_u32XorImm (ha : fp + a = pa) (hd : fp + d = pd)
    (h0 : Isa.u32 m pa = some n) (h1 : Isa.ofLimbs lo hi = some k) (hr : Isa.InRange pd) (hr1 : Isa.InRange (pd + 1)) :
    Isa.sem (.U32StoreXorFpImm a lo hi d) pc fp m = some ⟨[pa, pa + 1], Isa.split pd (Nat.xor n k), pc + 2, fp⟩ := by
  subst ha hd; dsimp only [Isa.sem, Isa.bin32Imm]; rw [limbs_bind h1, u32_bind h0]; exact done_split hr hr1

theorem sem_u32Eq (ha : fp + a = pa) (hb : fp + b = pb) (hd : fp + d = pd)
    (h0 : Isa.u32 m pa = some n) (h1 : Isa.u32 m pb = some k) (hr : Isa.InRange pd) :
    Isa.sem (.U32StoreEqFpFp a b d) pc fp m = some ⟨[pa, pa + 1, pb, pb + 1], [(pd, Isa.bit (n = k))], pc + 1, fp⟩ := by
  subst ha hb hd; dsimp only [Isa.sem]; rw [u32_bind h0, u32_bind h1]; exact done_one hr

theorem sem_u32EqImm (ha : fp + a = pa) (hd : fp + d = pd)
    (h0 : Isa.u32 m pa = some n) (h1 : Isa.ofLimbs lo hi = some k) (hr : Isa.InRange pd) :
    Isa.sem (.U32StoreEqFpImm a lo hi d) pc fp m = some ⟨[pa, pa + 1], [(pd, Isa.bit (n = k))], pc + 2, fp⟩ := by
  subst ha hd; dsimp only [Isa.sem]; rw [limbs_bind h1, u32_bind h0]; exact done_one hr

theorem sem_u32Lt (ha : fp + a = pa) (hb : fp + b = pb) (hd : fp + d = pd)
    (h0 : Isa.u32 m pa = some n) (h1 : Isa.u32 m pb = some k) (hr : Isa.InRange pd) :
    Isa.sem (.U32StoreLtFpFp a b d) pc fp m = some ⟨[pa, pa + 1, pb, pb + 1], [(pd, Isa.bit (n < k))], pc + 1, fp⟩ := by
  subst ha hb hd; dsimp only [Isa.sem]; rw [u32_bind h0, u32_bind h1]; exact done_one hr

theorem sem_u32LtImm (ha : fp + a = pa) (hd : fp + d = pd)
    (h0 : Isa.u32 m pa = some n) (h1 : Isa.ofLimbs lo hi = some k) (hr : Isa.InRange pd) :
    Isa.sem (.U32StoreLtFpImm a lo hi d) pc fp m = some ⟨[pa, pa + 1], [(pd, Isa.bit (n < k))], pc + 2, fp⟩ := by
  subst ha hd; dsimp only [Isa.sem]; rw [limbs_bind h1, u32_bind h0]; exact done_one hr

theorem sem_u32Lit (hd : fp + d = pd) (h1 : Isa.ofLimbs lo hi = some k) (hr : Isa.InRange pd) (hr1 : Isa.InRange (pd + 1)) :
    Isa.sem (.U32StoreImm lo hi d) pc fp m = some ⟨[], Isa.split pd k, pc + 1, fp⟩ := by
  subst hd; dsimp only [Isa.sem]; rw [limbs_bind h1]; exact done_split hr hr1

theorem sem_u32DivRem (ha : fp + a = pa) (hb : fp + b = pb) (hd : fp + d = pd) (hrr : fp + r = pr)
    (h0 : Isa.u32 m pa = some n) (h1 : Isa.u32 m pb = some k) (hk : k ≠ 0) (hr : Isa.InRange pd) (hr1 : Isa.InRange (pd + 1))
    (hq : Isa.InRange pr) (hq1 : Isa.InRange (pr + 1)) :
    Isa.sem (.U32StoreDivRemFpFp a b d r) pc fp m = some ⟨[pa, pa + 1, pb, pb + 1], Isa.split pd (n / k) ++ Isa.split pr (n % k), pc + 2, fp⟩ := by
  subst ha hb hd hrr; dsimp only [Isa.sem]; rw [u32_bind h0, u32_bind h1, if_neg hk]
  rw [Isa.done, if_pos]
  intro w hw
  rcases List.mem_append.1 hw with hw | hw <;>
    simp only [Isa.split, List.mem_cons, List.not_mem_nil, or_false] at hw <;> rcases hw with rfl | rfl <;> assumption

theorem sem_u32DivRemImm (ha : fp + a = pa) (hd : fp + d = pd) (hrr : fp + r = pr)
    (h0 : Isa.u32 m pa = some n) (h1 : Isa.ofLimbs lo hi = some k) (hk : k ≠ 0) (hr : Isa.InRange pd) (hr1 : Isa.InRange (pd + 1))
    (hq : Isa.InRange pr) (hq1 : Isa.InRange (pr + 1)) :
    Isa.sem (.U32StoreDivRemFpImm a lo hi d r) pc fp m = some ⟨[pa, pa + 1], Isa.split pd (n / k) ++ Isa.split pr (n % k), pc + 2, fp⟩ := by
  subst ha hd hrr; dsimp only [Isa.sem]; rw [limbs_bind h1, u32_bind h0, if_neg hk]
  rw [Isa.done, if_pos]
  intro w hw
  rcases List.mem_append.1 hw with hw | hw <;>
    simp only [Isa.split, List.mem_cons, List.not_mem_nil, or_false] at hw <;> rcases hw with rfl | rfl <;> assumption

theorem sem_load (ha : fp + a = pa) (hd : fp + d = pd)
    (h0 : Isa.felt m pa = some x) (h1 : Isa.felt m (x + imm) = some y) (hr : Isa.InRange pd) :
    Isa.sem (.StoreDoubleDerefFp a imm d) pc fp m = some ⟨[pa, x + imm], [(pd, y)], pc + 1, fp⟩ := by
  subst ha hd; dsimp only [Isa.sem]; rw [felt_bind h0, felt_bind h1]; exact done_one hr

end

end Codegen
end CairoM
