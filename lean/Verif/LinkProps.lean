import Verif.LinkLemmas
import Verif.CodegenPassProps

/-!
# Properties of label resolution (C55)
-/

namespace CairoM
namespace Codegen

open Mir Lang Relation Abi

/-- Every instruction of a compiled program is in memory at its address. -/
def CodeAt (m : Isa.Mem) (code : List Instruction) : Prop :=
  ∀ i ins, code[i]? = some ins → Isa.Stored m (place code i : ℕ) ins

theorem words_length (code : List Instruction) :
    ((code.map ProgramData.instruction).flatMap ProgramData.words).length =
      (code.map Instruction.sizeInQM31s).sum := by
  induction code with
  | nil => rfl
  | cons i is ih =>
    simp only [List.map_cons, List.flatMap_cons, List.length_append, List.sum_cons, ih]
    congr 1
    exact (Instruction.C05_words i).2.1

/-- C55 (placement): after loading, every instruction of a compiled program is stored at the address that counts
the words of the instructions before it. -/
theorem C55_loaded (c : Compiled) (hsize : (c.program.flatMap ProgramData.words).length ≤ 2 ^ 28) :
    CodeAt (VM.load c.program).memory.view c.code := by
  intro i ins hi
  obtain ⟨hlt, hget⟩ := List.getElem?_eq_some_iff.mp hi
  have hsplit : c.program = (c.code.take i).map .instruction ++ [.instruction ins] ++
      ((c.code.drop (i + 1)).map .instruction ++ c.rodata.map .value ++ c.data.map .value) := by
    unfold Compiled.program
    conv_lhs => rw [← List.take_append_drop i c.code, List.drop_eq_getElem_cons hlt, hget]
    simp
  have hs := hsize
  rw [hsplit] at hs
  obtain ⟨m', h1, h2, h3⟩ := C03_fetch_loaded _ _ ins hs
  rw [← hsplit] at h1
  have hwf : (VM.load c.program).memory.WF := by
    simp only [Memory.WF, MAX_ADDRESS, VM.load, Memory.ofWords, List.length_nil, Nat.add_zero]
    exact hsize
  have := (stored_of_getInstruction hwf h1 (Instruction.decode_encode ins)).1
  rw [words_length] at this
  exact this

/-- C55 (jumps): in a linked program with distinct label names, an unconditional jump to a label transfers
control to the address of the instruction carrying the label. -/
theorem C55_jump (g : Gen) (c : Compiled) (h : link g = .ok c) (hd : Distinct g) (i j : ℕ) (o : M31) (l : Name)
    (hi : g.instrs[i]? = some ⟨.JmpRelImm o, some l⟩) (hl : (⟨l, j⟩ : Label) ∈ g.labels) :
    ∃ o', c.code[i]? = some (.JmpRelImm o') ∧ ∀ fp m, Isa.sem (.JmpRelImm o') (place c.code i : ℕ) fp m =
      some ⟨[], [], (place c.code j : ℕ), fp⟩ := by
  obtain ⟨hr, -⟩ := link_inv h
  obtain ⟨ins, h1, h2⟩ := (resolveAll_get hr).2 i _ hi
  simp only [resolveOne, labelMap_eq hd hl, Except.ok.injEq] at h2
  subst h2
  refine ⟨_, h1, fun fp m => ?_⟩
  dsimp only [Isa.sem]
  rw [place_eq h, place_eq h, Nat.zero_add, rel_target]
  simp [Isa.done]

/-- C55 (conditional jumps): control goes to the labelled instruction if the tested cell is not zero and to the
next instruction otherwise. -/
theorem C55_branch (g : Gen) (c : Compiled) (h : link g = .ok c) (hd : Distinct g) (i j : ℕ) (v o : M31) (l : Name)
    (hi : g.instrs[i]? = some ⟨.JnzFpImm v o, some l⟩) (hl : (⟨l, j⟩ : Label) ∈ g.labels) :
    ∃ o', c.code[i]? = some (.JnzFpImm v o') ∧ ∀ fp m x, Isa.felt m (fp + v) = some x →
      Isa.sem (.JnzFpImm v o') (place c.code i : ℕ) fp m =
        some ⟨[fp + v], [], (place c.code (if x = 0 then i + 1 else j) : ℕ), fp⟩ := by
  obtain ⟨hr, -⟩ := link_inv h
  obtain ⟨ins, h1, h2⟩ := (resolveAll_get hr).2 i _ hi
  simp only [resolveOne, labelMap_eq hd hl, Except.ok.injEq] at h2
  subst h2
  refine ⟨_, h1, fun fp m x hx => ?_⟩
  dsimp only [Isa.sem]
  rw [felt_bind hx, place_eq h, place_eq h, Nat.zero_add, rel_target]
  split_ifs
  · rw [physical_succ hi, size_one rfl]
    simp [Isa.done]
  · simp [Isa.done]

/-- C55 (calls): a call enters the function at the address of the instruction carrying its label, and the saved
return address is the address of the instruction after the call. -/
theorem C55_call (g : Gen) (c : Compiled) (h : link g = .ok c) (hd : Distinct g) (i j : ℕ) (f o : M31) (l : Name)
    (hi : g.instrs[i]? = some ⟨.CallAbsImm f o, some l⟩) (hl : (⟨l, j⟩ : Label) ∈ g.labels) :
    ∃ o', c.code[i]? = some (.CallAbsImm f o') ∧ ∀ fp m,
      Isa.sem (.CallAbsImm f o') (place c.code i : ℕ) fp m =
        Isa.done [] [(fp + f, fp), (fp + f + 1, (place c.code (i + 1) : ℕ))] (place c.code j : ℕ) (fp + f + 2) := by
  obtain ⟨hr, -⟩ := link_inv h
  obtain ⟨ins, h1, h2⟩ := (resolveAll_get hr).2 i _ hi
  simp only [resolveOne, labelMap_eq hd hl, Except.ok.injEq] at h2
  subst h2
  refine ⟨_, h1, fun fp m => ?_⟩
  dsimp only [Isa.sem]
  rw [place_eq h, place_eq h, place_eq h, physical_succ hi, size_one rfl]
  rw [ofI32_eq]
  push_cast
  rfl

/-- C55 (execution): every step of the emitted code over instruction indices is a step of the linked code over
addresses. -/
theorem C55_step (g : Gen) (c : Compiled) (h : link g = .ok c) (hd : Distinct g) (tgt : Name → Option ℕ)
    (htgt : ∀ l j, tgt l = some j → (⟨l, j⟩ : Label) ∈ g.labels) (fp : M31) (i j : ℕ) (m m' : Isa.Mem)
    (hs : Step g.instrs tgt fp (i, m) (j, m')) :
    ∃ ins e, c.code[i]? = some ins ∧ Isa.sem ins (place c.code i : ℕ) fp m = some e ∧
      e.pc = (place c.code j : ℕ) ∧ e.fp = fp ∧ e.memory m = m' := by
  cases hs with
  | plain hi hp he =>
    rename_i ins e
    obtain ⟨hr, -⟩ := link_inv h
    obtain ⟨ins', h1, h2⟩ := (resolveAll_get hr).2 i _ hi
    simp only [resolveOne, Except.ok.injEq] at h2
    subst h2
    refine ⟨ins, _, h1, sem_pc hp he, ?_, rfl, rfl⟩
    rw [place_eq h, place_eq h, physical_succ hi]
    push_cast
    rfl
  | jump hi hj =>
    obtain ⟨o', h1, h2⟩ := C55_jump g c h hd i j _ _ hi (htgt _ _ hj)
    exact ⟨_, _, h1, h2 fp m, rfl, rfl, rfl⟩
  | branch hi hx hnz hj =>
    obtain ⟨o', h1, h2⟩ := C55_branch g c h hd i j _ _ _ hi (htgt _ _ hj)
    have := h2 fp m _ hx
    rw [if_neg hnz] at this
    exact ⟨_, _, h1, this, rfl, rfl, rfl⟩
  | fall hi hx =>
    rename_i v o l
    obtain ⟨hr, -⟩ := link_inv h
    obtain ⟨ins', h1, h2⟩ := (resolveAll_get hr).2 i _ hi
    cases hl : labelMap g l with
    | none => simp [resolveOne, hl] at h2
    | some a =>
      simp only [resolveOne, hl, Except.ok.injEq] at h2
      subst h2
      refine ⟨_, ⟨[fp + v], [], (place c.code (i + 1) : ℕ), fp⟩, h1, ?_, rfl, rfl, rfl⟩
      dsimp only [Isa.sem]
      rw [felt_bind hx, if_pos rfl, place_eq h, place_eq h, physical_succ hi, size_one rfl]
      simp [Isa.done]

/-! ### Label names that clash -/

/-- `fn f(x: felt) -> felt { if x { return 1; } return 2; }` -/
def branchFn : Function :=
  ⟨['f'], [⟨[], .If (.Operand 0) 1 2⟩, ⟨[.Assign 1 (.Literal (.Integer 1)) .Felt], .Return [.Operand 1]⟩,
    ⟨[.Assign 2 (.Literal (.Integer 2)) .Felt], .Return [.Operand 2]⟩], [0], [1], 3,
    types [(0, .Felt), (1, .Felt), (2, .Felt)]⟩

/-- `fn f_1(x: felt) -> felt { return 42; }` -/
def clashFn : Function :=
  ⟨['f', '_', '1'], [⟨[.Assign 1 (.Literal (.Integer 42)) .Felt], .Return [.Operand 1]⟩], [0], [1], 2,
    types [(0, .Felt), (1, .Felt)]⟩

/-- `fn g(x: felt) -> felt { return 42; }` -/
def noClashFn : Function := { clashFn with name := ['g'] }

/-- **C55 violated** without the hypothesis on names: block labels are built from function names, so the label of
the second block of `f` is also the label of a function called `f_1`; `f(7)` then runs the body of `f_1` and
returns 42. With another name for the second function it returns 1. -/
theorem C55_violated_names :
    feltsOf (compileRun 100 [branchFn, clashFn] ['f'] [.felt] [.felt] [.number 7]) = some [42] ∧
    feltsOf (compileRun 100 [branchFn, noClashFn] ['f'] [.felt] [.felt] [.number 7]) = some [1] := by
  constructor <;> decide +kernel

/-- The linker input of a module. -/
def genOf (m : Module) : Option Gen :=
  match genFunctions (m.map legalFunction) (m.map legalFunction) Gen.init with
  | .ok g => some g
  | .error _ => none

/-- Executable form of the hypotheses of C55. -/
def linkCheck (m : Module) : Bool :=
  match genOf m with
  | none => false
  | some g =>
    match link g with
    | .error _ => false
    | .ok c =>
      (g.labels.all fun l => (g.labels.all fun l' => decide (l.name = l'.name → l.addr = l'.addr)) &&
        decide (l.name ∉ g.roLabels) && decide (l.name ≠ sHeapCursor)) &&
      decide ((c.program.flatMap ProgramData.words).length ≤ 2 ^ 28) && decide (3 < g.labels.length)

/-- Non-vacuity: the module without the clash links, has distinct labels and fits into memory. -/
example : ∃ g c, genOf [branchFn, noClashFn] = some g ∧ link g = .ok c ∧ Distinct g ∧ 3 < g.labels.length ∧
    (c.program.flatMap ProgramData.words).length ≤ 2 ^ 28 := by
  have h : linkCheck [branchFn, noClashFn] = true := by decide +kernel
  unfold linkCheck at h
  cases hg : genOf [branchFn, noClashFn] with
  | none => rw [hg] at h; cases h
  | some g =>
    rw [hg] at h
    cases hc : link g with
    | error e => simp only [hc] at h; cases h
    | ok c =>
      simp only [hc, Bool.and_eq_true, List.all_eq_true, decide_eq_true_eq] at h
      exact ⟨g, c, rfl, hc, ⟨fun l hl => (h.1.1 l hl).1.1, fun l hl => (h.1.1 l hl).1.2, fun l hl => (h.1.1 l hl).2⟩,
        h.2, h.1.2⟩

end Codegen
end CairoM
