import Verif.IsaFrame
import Verif.VMProps
import Verif.CodegenRun

/-!
# Helper lemmas: label resolution
-/

namespace CairoM
namespace Codegen

open Mir Lang Relation

theorem resolveOne_size {g : Gen} {pc : ℕ} {i : IB} {ins : Instruction} (h : resolveOne g pc i = .ok ins) :
    ins.sizeInQM31s = i.inner.sizeInQM31s := by
  rcases i with ⟨inner, l⟩
  cases l with
  | none => simp only [resolveOne, Except.ok.injEq] at h; rw [h]
  | some n =>
    cases hl : labelMap g n with
    | none => cases inner <;> simp [resolveOne, hl] at h
    | some a =>
      cases inner <;> simp [resolveOne, hl] at h
      all_goals (subst h; rw [size_one rfl, size_one rfl])

theorem resolveAll_get {g : Gen} : ∀ {is : List IB} {pc : ℕ} {js : List Instruction}, resolveAll g pc is = .ok js →
    js.length = is.length ∧
    ∀ i ib, is[i]? = some ib → ∃ ins, js[i]? = some ins ∧ resolveOne g (pc + physical is i) ib = .ok ins
  | [], pc, js, h => by
    simp only [resolveAll, Except.ok.injEq] at h
    subst h
    exact ⟨rfl, fun i ib hi => by simp at hi⟩
  | x :: is, pc, js, h => by
    simp only [resolveAll] at h
    cases h1 : resolveOne g pc x with
    | error e => rw [h1] at h; cases h
    | ok j =>
      rw [h1] at h
      cases h2 : resolveAll g (pc + x.inner.sizeInQM31s) is with
      | error e => rw [h2] at h; cases h
      | ok js' =>
        rw [h2] at h
        simp only [Except.ok.injEq] at h
        subst h
        obtain ⟨hl, hg⟩ := resolveAll_get h2
        refine ⟨by simp [hl], fun i ib hi => ?_⟩
        cases i with
        | zero =>
          simp only [List.getElem?_cons_zero, Option.some.injEq] at hi
          subst hi
          exact ⟨j, rfl, by simpa [physical, codeSize] using h1⟩
        | succ i =>
          rw [List.getElem?_cons_succ] at hi
          obtain ⟨ins, h3, h4⟩ := hg i ib hi
          refine ⟨ins, by simpa using h3, ?_⟩
          rw [← h4]
          congr 1
          simp [physical, codeSize, Nat.add_assoc]

theorem link_inv {g : Gen} {c : Compiled} (h : link g = .ok c) :
    resolveAll g 0 g.instrs = .ok c.code ∧ c.rodata = g.rodata.flatten ∧
      c.entries = g.entries.map (fun e => (e.1, physical g.instrs e.2)) ∧
      (∀ l ∈ g.labels, l.addr < g.instrs.length) ∧
      codeSize g.instrs + g.rodata.flatten.length + (if g.heap then 1 else 0) < 2 ^ 30 ∧
      c.data = if g.heap then [QM31.ofM31 0] else [] := by
  unfold link at h
  split at h
  · rename_i hall
    by_cases hsz : codeSize g.instrs + g.rodata.flatten.length + (if g.heap then 1 else 0) ≥ 2 ^ 30
    · rw [if_pos hsz] at h; cases h
    · rw [if_neg hsz] at h
      cases hr : resolveAll g 0 g.instrs with
      | error e => rw [hr] at h; cases h
      | ok js =>
        rw [hr] at h
        simp only [Except.ok.injEq] at h
        subst h
        simp only [Bool.and_eq_true, List.all_eq_true, decide_eq_true_eq] at hall
        exact ⟨rfl, rfl, rfl, hall.2, by omega, rfl⟩
  · cases h

/-- The address of instruction `i` of a list of resolved instructions. -/
def place (code : List Instruction) (i : ℕ) : ℕ := ((code.take i).map Instruction.sizeInQM31s).sum

theorem place_eq {g : Gen} {c : Compiled} (h : link g = .ok c) (i : ℕ) : place c.code i = physical g.instrs i := by
  obtain ⟨hr, -⟩ := link_inv h
  obtain ⟨hl, hg⟩ := resolveAll_get hr
  unfold place physical codeSize
  congr 1
  apply List.ext_getElem?
  intro k
  simp only [List.getElem?_map, List.getElem?_take]
  split_ifs with hk
  · cases hib : g.instrs[k]? with
    | none =>
      rw [List.getElem?_eq_none_iff] at hib
      rw [List.getElem?_eq_none_iff.mpr (by omega)]
      rfl
    | some ib =>
      obtain ⟨ins, h1, h2⟩ := hg k ib hib
      rw [h1]
      simp [resolveOne_size h2]
  · rfl

theorem lastLabel_foldl {n : Name} {a : ℕ} : ∀ {ls : List Label} {acc : Option ℕ},
    (∀ l ∈ ls, l.name = n → l.addr = a) → (acc = some a ∨ ∃ l ∈ ls, l.name = n) →
    ls.foldl (fun acc l => if l.name = n then some l.addr else acc) acc = some a
  | [], acc, _, h => by
    rcases h with h | ⟨l, hl, -⟩
    · exact h
    · cases hl
  | l :: ls, acc, hall, h => by
    rw [List.foldl_cons]
    apply lastLabel_foldl (fun l' hl' => hall l' (List.mem_cons_of_mem _ hl'))
    by_cases hn : l.name = n
    · left; rw [if_pos hn, hall l List.mem_cons_self hn]
    · rw [if_neg hn]
      rcases h with h | ⟨l', hl', hn'⟩
      · exact .inl h
      · rcases List.mem_cons.mp hl' with rfl | hl'
        · exact absurd hn' hn
        · exact .inr ⟨l', hl', hn'⟩

theorem rodataAddr_none {n : Name} : ∀ {ls : List Name} {bs : List (List QM31)} {base : ℕ}, n ∉ ls →
    rodataAddr base ls bs n = none
  | [], _, _, _ => rfl
  | _ :: _, [], _, _ => rfl
  | l :: ls, b :: bs, base, h => by
    rw [List.mem_cons, not_or] at h
    unfold rodataAddr
    rw [if_neg (fun e => h.1 e.symm)]
    exact rodataAddr_none h.2

/-- No two labels of the program share a name, and none has the name of a data label. -/
structure Distinct (g : Gen) : Prop where
  unique : ∀ l ∈ g.labels, ∀ l' ∈ g.labels, l.name = l'.name → l.addr = l'.addr
  rodata : ∀ l ∈ g.labels, l.name ∉ g.roLabels
  heap : ∀ l ∈ g.labels, l.name ≠ sHeapCursor

theorem labelMap_eq {g : Gen} (hd : Distinct g) {n : Name} {j : ℕ} (hl : (⟨n, j⟩ : Label) ∈ g.labels) :
    labelMap g n = some (physical g.instrs j) := by
  unfold labelMap
  rw [if_neg (fun h => hd.heap _ hl h.2), rodataAddr_none (hd.rodata _ hl)]
  have : lastLabel g.labels n = some j :=
    lastLabel_foldl (fun l h hn => hd.unique l h ⟨n, j⟩ hl hn) (.inr ⟨_, hl, rfl⟩)
  simp [this]

theorem physical_succ {is : List IB} {i : ℕ} {ib : IB} (h : is[i]? = some ib) :
    physical is (i + 1) = physical is i + ib.inner.sizeInQM31s := by
  unfold physical codeSize
  rw [List.take_add_one, h]
  simp

theorem rel_target (a b : ℕ) : ((b : ℕ) : M31) + ofI32 ((a : ℤ) - b) = ((a : ℕ) : M31) := by
  rw [ofI32_eq]
  push_cast
  ring

end Codegen
end CairoM
