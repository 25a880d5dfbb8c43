import Verif.AirWriteSpec
import Verif.AirRows
import Verif.AirLemmas
import Mathlib.Tactic.LinearCombination
import Mathlib.Tactic.Ring

/-!
# Honest rows: auxiliary lemmas
-/

set_option linter.unusedSimpArgs false

namespace CairoM
namespace Air

open Adapter (Bundle DataAccess)
open Isa

theorem th_memory (m : M31) (t : List M31) : Entry.TableHolds ⟨.memory, m, t⟩ = True := by simp [Entry.TableHolds]
theorem th_registers (m : M31) (t : List M31) : Entry.TableHolds ⟨.registers, m, t⟩ = True := by
  simp [Entry.TableHolds]
theorem th_rc8 (v : M31) : Entry.TableHolds ⟨.rc8, -1, [v]⟩ = (v.val < 2 ^ 8) := by
  simp [Entry.TableHolds]
theorem th_rc16 (v : M31) : Entry.TableHolds ⟨.rc16, -1, [v]⟩ = (v.val < 2 ^ 16) := by
  simp [Entry.TableHolds]
theorem th_rc20 (v : M31) : Entry.TableHolds ⟨.rc20, -1, [v]⟩ = (v.val < 2 ^ 20) := by
  simp [Entry.TableHolds]

theorem acc_cons {xs : List DataAccess} {a : M31} {v : M31} {l : List MemoryEntry}
    (h : xs.map (fun a => (⟨a.address, QM31.ofM31 a.value⟩ : MemoryEntry)) = ⟨a, ⟨v, 0, 0, 0⟩⟩ :: l) :
    ∃ c p ys, xs = ⟨a, c, p, v⟩ :: ys ∧ ys.map (fun a => (⟨a.address, QM31.ofM31 a.value⟩ : MemoryEntry)) = l := by
  cases xs with
  | nil => simp at h
  | cons y ys =>
    rcases y with ⟨a', c, p, v'⟩
    simp only [List.map_cons, List.cons.injEq, MemoryEntry.mk.injEq, QM31.ofM31, QM31.mk.injEq, and_true] at h
    obtain ⟨⟨rfl, rfl⟩, h⟩ := h
    exact ⟨c, p, ys, rfl, h⟩

theorem acc_nil {xs : List DataAccess}
    (h : xs.map (fun a => (⟨a.address, QM31.ofM31 a.value⟩ : MemoryEntry)) = []) : xs = [] := by simpa using h

theorem felt_inv {mem : Mem} {a v : M31} (h : felt mem a = some v) : mem a = ⟨v, 0, 0, 0⟩ := by
  unfold felt at h
  split at h
  · rename_i hc
    obtain ⟨-, h1, h2, h3⟩ := hc
    cases h' : mem a
    simp_all
  · simp at h

theorem done_inv {reads : List M31} {writes : List (M31 × M31)} {pc fp : M31} {e : Effect}
    (h : done reads writes pc fp = some e) : e = ⟨reads, writes, pc, fp⟩ := by
  unfold done at h; split at h <;> simp_all

theorem performs_of {ev : Eval} {pc fp c pc' fp' qc gp : M31} {accs bccs : List Access}
    (h : Performs ev pc fp c pc' fp' accs) (h1 : pc' = qc) (h2 : fp' = gp) (h3 : accs.Perm bccs) :
    ∃ accs, Performs ev pc fp c qc gp accs ∧ accs.Perm bccs := by subst h1 h2; exact ⟨_, h, h3⟩

theorem invOr1 (v : M31) : v = 0 ∨ invOrZero v * v - 1 = 0 := by
  by_cases h : v = 0
  · exact .inl h
  · exact .inr (by rw [invOrZero, if_neg h, inv_mul_cancel₀ h, sub_self])

theorem invOr2 (v : M31) : invOrZero v = 0 ∨ invOrZero v * v - 1 = 0 := by
  rcases invOr1 v with h | h
  · exact .inl (by rw [invOrZero, if_pos h])
  · exact .inr h

theorem num1 : (2 : M31) + 1 = 3 := by decide
theorem num2 : (4 : M31) + 2 = 6 := by decide
theorem num3 : (13 : M31) - 12 = 1 := by decide
theorem num4 : (44 : M31) - 8 = 36 := by decide
theorem num5 : (45 : M31) - 42 = 3 := by decide
theorem num8 : (12 : M31) + 1 = 13 := by decide
theorem num6 : (36 : M31) * 36⁻¹ = 1 := mul_inv_cancel₀ (by decide)
theorem num7 : (3 : M31) * 3⁻¹ = 1 := mul_inv_cancel₀ (by decide)
theorem notRet1 : notRet 8 8 = 8 := by decide
theorem notRet2 : notRet 8 44 = 44 := by decide
theorem notRet3 : notRet 42 42 = 42 := by decide
theorem notRet4 : notRet 42 45 = 45 := by decide

theorem rc8_zero : (0 : M31).val < 2 ^ 8 := by decide
theorem num9 (pc : M31) : pc + 1 + 1 = pc + 2 := by ring

theorem ofLimbs_inv {l h : M31} {n : ℕ} (e : ofLimbs l h = some n) :
    ∃ y0 y1 : ℕ, y0 < 2 ^ 16 ∧ y1 < 2 ^ 16 ∧ l = (y0 : M31) ∧ h = (y1 : M31) ∧ n = y0 + 2 ^ 16 * y1 := by
  unfold ofLimbs at e
  split at e
  · rename_i hc
    exact ⟨l.val, h.val, hc.1, hc.2, (ZMod.natCast_zmod_val l).symm, (ZMod.natCast_zmod_val h).symm, by simpa using e.symm⟩
  · simp at e

theorem u32_inv {mem : Mem} {a : M31} {n : ℕ} (e : u32 mem a = some n) :
    ∃ x0 x1 : ℕ, x0 < 2 ^ 16 ∧ x1 < 2 ^ 16 ∧ mem a = ⟨(x0 : M31), 0, 0, 0⟩ ∧ mem (a + 1) = ⟨(x1 : M31), 0, 0, 0⟩ ∧
      n = x0 + 2 ^ 16 * x1 := by
  simp only [u32, Option.bind_eq_bind, Option.bind_eq_some_iff] at e
  obtain ⟨l, hl, h, hh, e⟩ := e
  obtain ⟨x0, x1, h0, h1, rfl, rfl, rfl⟩ := ofLimbs_inv e
  exact ⟨x0, x1, h0, h1, felt_inv hl, felt_inv hh, rfl⟩

theorem sortedArcs_spec {a b : ℕ} (hab : a ≤ b) (hb : b < P) : ∃ s l m i j k : ℕ,
    sortedArcs a b = ((s, i), (l, j), (m, k)) ∧ s ≤ l ∧ l ≤ m ∧
      ((k = 2 ∧ s + l = b ∧ s * l = a * (b - a)) ∨
        (k = 1 ∧ s + l = a + (P - 1 - b) ∧ s * l = a * (P - 1 - b)) ∨
        (k = 0 ∧ s + l = b - a + (P - 1 - b) ∧ s * l = (b - a) * (P - 1 - b))) ∧
      s + l + m = P - 1 := by
  have hP : P = 2147483647 := rfl
  unfold sortedArcs sort3
  by_cases h1 : a ≤ b - a <;> by_cases h2 : b - a ≤ P - 1 - b <;> by_cases h3 : a ≤ P - 1 - b <;>
    simp only [h1, h2, h3, if_true, if_false] <;>
    refine ⟨_, _, _, _, _, _, rfl, by omega, by omega, ?_, by omega⟩
  all_goals first
    | exact .inl ⟨rfl, by omega, by first | rfl | exact mul_comm _ _⟩
    | exact .inr (.inl ⟨rfl, by omega, by first | rfl | exact mul_comm _ _⟩)
    | exact .inr (.inr ⟨rfl, by omega, by first | rfl | exact mul_comm _ _⟩)

theorem cast_compl {b : M31} : ((P - 1 - b.val : ℕ) : M31) = -1 - b := by
  have h := ZMod.val_lt b
  have h1 : ((P - 1 - b.val : ℕ) : M31) + (b.val : M31) = ((P - 1 : ℕ) : M31) := by
    rw [← Nat.cast_add]; congr 1; omega
  have h2 : ((P - 1 : ℕ) : M31) = -1 := by decide
  rw [ZMod.natCast_zmod_val, h2] at h1
  linear_combination h1

theorem cast_diff {a b : M31} (h : a.val ≤ b.val) : ((b.val - a.val : ℕ) : M31) = b - a := by
  rw [Nat.cast_sub h, ZMod.natCast_zmod_val, ZMod.natCast_zmod_val]

theorem cast_divmod (n k : ℕ) : ((n % k : ℕ) : M31) + ((n / k : ℕ) : M31) * (k : M31) = (n : M31) := by
  rw [← Nat.cast_mul, ← Nat.cast_add, Nat.mul_comm, Nat.mod_add_div]

theorem cast_divmod3 (n : ℕ) : ((n % 10923 : ℕ) : M31) + ((n / 10923 : ℕ) : M31) * 10923 = (n : M31) := cast_divmod n 10923

theorem cast_divmod2 (n : ℕ) : ((n % 16384 : ℕ) : M31) + ((n / 16384 : ℕ) : M31) * 16384 = (n : M31) := cast_divmod n 16384

end Air
end CairoM
