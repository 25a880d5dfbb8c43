import Verif.ProgramRun
import Verif.CodegenPassProps
import Verif.LinkLemmas

/-!
# Helper lemmas: the peephole passes on the code of a function with calls
-/

namespace CairoM
namespace Codegen

open Mir Lang Relation

variable {code : List IB} {tgt tgt' : Name → Option ℕ} {fp pc : M31} {m m' m₂ : Isa.Mem} {b b' : Builder} {lo hi fr F : ℤ}
  {f : Function} {L : Layout} {ts : List MirType} {md : Module} {g g' : Gen} {ins : Instruction}
  {live : BlockId → ValueId → Prop} {calls : Calls} {C : CallRel} {Q : ℕ → Isa.Mem → Prop} {e : Isa.Effect}

/-! ### Cells an instruction touches -/

/-- A cell of the frame. -/
def CellIn (fp : M31) (lo F : ℤ) (a : M31) : Prop := ∃ o, lo ≤ o ∧ o < F ∧ a = adr fp o

theorem cellIn_one {a : M31} (h : In lo F 1 a) : CellIn fp lo F (fp + a) := by
  obtain ⟨o, rfl, h1, h2⟩ := h
  exact ⟨o, h1, by push_cast at h2; omega, adr_ofI32 _ _⟩

theorem cellIn_two {a : M31} (h : In lo F 2 a) : CellIn fp lo F (fp + a) := by
  obtain ⟨o, rfl, h1, h2⟩ := h
  exact ⟨o, h1, by push_cast at h2; omega, adr_ofI32 _ _⟩

theorem cellIn_succ {a : M31} (h : In lo F 2 a) : CellIn fp lo F (fp + a + 1) := by
  obtain ⟨o, rfl, h1, h2⟩ := h
  exact ⟨o + 1, by omega, by push_cast at h2; omega, by rw [adr_ofI32, adr_succ]⟩

theorem done_cells {r : List M31} {w : List (M31 × M31)} {pc' fp' : M31} {S : M31 → Prop}
    (h : Isa.done r w pc' fp' = some e) (hr : ∀ a ∈ r ++ w.map Prod.fst, S a) :
    ∀ a ∈ e.reads ++ e.writes.map Prod.fst, S a := by
  unfold Isa.done at h
  split_ifs at h
  injection h with h
  subst h
  exact hr

theorem inFrame_cells (h : InFrame lo F ins) (hc : ∀ x t, ins ≠ .CallAbsImm x t) (hr : ins ≠ .Ret)
    (he : Isa.sem ins pc fp m = some e) : ∀ a ∈ e.reads ++ e.writes.map Prod.fst, CellIn fp lo F a := by
  cases ins <;> first | exact False.elim h | skip
  case CallAbsImm x t => exact absurd rfl (hc x t)
  case Ret => exact absurd rfl hr
  case StoreImm => refine done_cells he ?_; simp; exact cellIn_one h
  case U32StoreImm =>
    dsimp only [Isa.sem, Isa.bin32, Isa.bin32Imm] at he
    obtain ⟨_, -, he⟩ := Option.bind_eq_some_iff.mp he
    refine done_cells he ?_; simp [Isa.split]; exact ⟨cellIn_two h, cellIn_succ h⟩
  case JmpRelImm => refine done_cells he ?_; simp
  case JnzFpImm =>
    dsimp only [Isa.sem] at he
    obtain ⟨_, -, he⟩ := Option.bind_eq_some_iff.mp he
    refine done_cells he ?_; simp; exact cellIn_one h
  case AssertEqFpImm =>
    dsimp only [Isa.sem, Isa.bin32, Isa.bin32Imm] at he
    obtain ⟨_, -, he⟩ := Option.bind_eq_some_iff.mp he
    split_ifs at he
    refine done_cells he ?_; simp; exact cellIn_one h
  case StoreDivFpFp =>
    dsimp only [Isa.sem, Isa.bin32, Isa.bin32Imm] at he
    obtain ⟨_, -, he⟩ := Option.bind_eq_some_iff.mp he
    obtain ⟨_, -, he⟩ := Option.bind_eq_some_iff.mp he
    split_ifs at he
    obtain ⟨h1, h2, h3⟩ := h
    refine done_cells he ?_; simp; exact ⟨cellIn_one h1, cellIn_one h2, cellIn_one h3⟩
  case StoreAddFpFp | StoreSubFpFp | StoreMulFpFp =>
    dsimp only [Isa.sem, Isa.bin32, Isa.bin32Imm] at he
    obtain ⟨_, -, he⟩ := Option.bind_eq_some_iff.mp he
    obtain ⟨_, -, he⟩ := Option.bind_eq_some_iff.mp he
    obtain ⟨h1, h2, h3⟩ := h
    refine done_cells he ?_; simp; exact ⟨cellIn_one h1, cellIn_one h2, cellIn_one h3⟩
  case StoreAddFpImm | StoreMulFpImm | StoreLeFpImm =>
    dsimp only [Isa.sem, Isa.bin32, Isa.bin32Imm] at he
    obtain ⟨_, -, he⟩ := Option.bind_eq_some_iff.mp he
    obtain ⟨h1, h2⟩ := h
    refine done_cells he ?_; simp; exact ⟨cellIn_one h1, cellIn_one h2⟩
  case U32StoreAddFpFp | U32StoreSubFpFp | U32StoreMulFpFp | U32StoreAndFpFp | U32StoreOrFpFp | U32StoreXorFpFp =>
    dsimp only [Isa.sem, Isa.bin32, Isa.bin32Imm] at he
    obtain ⟨_, -, he⟩ := Option.bind_eq_some_iff.mp he
    obtain ⟨_, -, he⟩ := Option.bind_eq_some_iff.mp he
    obtain ⟨h1, h2, h3⟩ := h
    refine done_cells he ?_; simp [Isa.split]
    exact ⟨cellIn_two h1, cellIn_succ h1, cellIn_two h2, cellIn_succ h2, cellIn_two h3, cellIn_succ h3⟩
  case U32StoreEqFpFp | U32StoreLtFpFp =>
    dsimp only [Isa.sem, Isa.bin32, Isa.bin32Imm] at he
    obtain ⟨_, -, he⟩ := Option.bind_eq_some_iff.mp he
    obtain ⟨_, -, he⟩ := Option.bind_eq_some_iff.mp he
    obtain ⟨h1, h2, h3⟩ := h
    refine done_cells he ?_; simp
    exact ⟨cellIn_two h1, cellIn_succ h1, cellIn_two h2, cellIn_succ h2, cellIn_one h3⟩
  case U32StoreDivRemFpFp =>
    dsimp only [Isa.sem, Isa.bin32, Isa.bin32Imm] at he
    obtain ⟨_, -, he⟩ := Option.bind_eq_some_iff.mp he
    obtain ⟨_, -, he⟩ := Option.bind_eq_some_iff.mp he
    split_ifs at he
    obtain ⟨h1, h2, h3, h4⟩ := h
    refine done_cells he ?_; simp [Isa.split]
    exact ⟨cellIn_two h1, cellIn_succ h1, cellIn_two h2, cellIn_succ h2, cellIn_two h3, cellIn_succ h3, cellIn_two h4,
      cellIn_succ h4⟩
  case U32StoreDivRemFpImm =>
    dsimp only [Isa.sem, Isa.bin32, Isa.bin32Imm] at he
    obtain ⟨_, -, he⟩ := Option.bind_eq_some_iff.mp he
    obtain ⟨_, -, he⟩ := Option.bind_eq_some_iff.mp he
    split_ifs at he
    obtain ⟨h1, h3, h4⟩ := h
    refine done_cells he ?_; simp [Isa.split]
    exact ⟨cellIn_two h1, cellIn_succ h1, cellIn_two h3, cellIn_succ h3, cellIn_two h4, cellIn_succ h4⟩
  case U32StoreEqFpImm | U32StoreLtFpImm =>
    dsimp only [Isa.sem, Isa.bin32, Isa.bin32Imm] at he
    obtain ⟨_, -, he⟩ := Option.bind_eq_some_iff.mp he
    obtain ⟨_, -, he⟩ := Option.bind_eq_some_iff.mp he
    obtain ⟨h1, h3⟩ := h
    refine done_cells he ?_; simp
    exact ⟨cellIn_two h1, cellIn_succ h1, cellIn_one h3⟩
  case U32StoreAddFpImm | U32StoreMulFpImm | U32StoreAndFpImm | U32StoreOrFpImm | U32StoreXorFpImm =>
    dsimp only [Isa.sem, Isa.bin32, Isa.bin32Imm] at he
    obtain ⟨_, -, he⟩ := Option.bind_eq_some_iff.mp he
    obtain ⟨_, -, he⟩ := Option.bind_eq_some_iff.mp he
    obtain ⟨h1, h3⟩ := h
    refine done_cells he ?_; simp [Isa.split]
    exact ⟨cellIn_two h1, cellIn_succ h1, cellIn_two h3, cellIn_succ h3⟩

/-- Writing cells of the frame changes nothing else. -/
theorem write_same_cells : ∀ {ws : List (M31 × M31)} {m : Isa.Mem}, (∀ w ∈ ws, CellIn fp lo F w.1) →
    SameExcept fp (fun o => lo ≤ o ∧ o < F) m (Isa.write m ws)
  | [], m, _ => SameExcept.refl
  | (a, v) :: ws, m, h => by
    obtain ⟨o, h1, h2, h3⟩ := h (a, v) (by simp)
    dsimp only at h3
    subst h3
    exact (SameExcept.put (v := v) (o := o) ⟨h1, h2⟩).trans (write_same_cells fun w hw => h w (by simp [hw]))

/-- A step of code within the frame changes only the frame. -/
theorem step_same (hin : ∀ ib ∈ code, InFrame lo F ib.inner) {i j : ℕ} (h : Step code tgt fp (i, m) (j, m')) :
    SameExcept fp (fun o => lo ≤ o ∧ o < F) m m' := by
  cases h with
  | plain hi hp he =>
    refine write_same_cells fun w hw => ?_
    refine inFrame_cells (hin _ (List.mem_of_getElem? hi)) ?_ ?_ he w.1 (List.mem_append_right _ (List.mem_map_of_mem hw))
    · rintro x t rfl; cases hp
    · rintro rfl; cases hp
  | jump => exact SameExcept.refl
  | branch => exact SameExcept.refl
  | fall => exact SameExcept.refl

theorem avoids_of_good {i : ℕ} {s : ℕ × Isa.Mem} {F' : ℤ} (hin : ∀ ib ∈ code, InFrame lo F ib.inner)
    (w : Window fp lo F') (hlo : lo ≤ F) (hF : F ≤ F') (h : Step code tgt fp (i, m) s) : Avoids code fp F F' (i, m) := by
  intro ib e' hi' he' a ha o h1 h2
  have hne : (∀ x t, ib.inner ≠ .CallAbsImm x t) ∧ ib.inner ≠ .Ret := by
    cases h with
    | plain hi hp he => rw [hi'] at hi; cases hi; exact ⟨(by rintro x t rfl; cases hp), (by rintro rfl; cases hp)⟩
    | jump hi hj => rw [hi'] at hi; cases hi; exact ⟨by simp, by simp⟩
    | branch hi hx hnz hj => rw [hi'] at hi; cases hi; exact ⟨by simp, by simp⟩
    | fall hi hx => rw [hi'] at hi; cases hi; exact ⟨by simp, by simp⟩
  obtain ⟨o', q1, q2, rfl⟩ := inFrame_cells (hin _ (List.mem_of_getElem? hi')) hne.1 hne.2 he' a ha
  intro heq
  have := w.inj q1 (by omega) (by omega) h2 heq
  omega

/-! ### Code after the passes -/

theorem InFrame.canonImm {ib : IB} (h : InFrame lo F ib.inner) : InFrame lo F (Codegen.canonImm ib).inner := by
  unfold Codegen.canonImm
  split
  · rename_i s imm d hi
    rw [hi] at h
    split_ifs
    · exact h
    · exact h.2
    · rw [hi]; exact h
  · rename_i s l h' d hi
    rw [hi] at h
    split_ifs
    · exact h
    · exact h.2
    · rw [hi]; exact h
  · exact h

theorem InFrame.dedupInstr {ib j : IB} {F F' frm : ℕ} (h : InFrame lo F ib.inner) (hlo : lo ≤ 0) (hF : F ≤ frm)
    (hF' : frm + (Codegen.dedupInstr frm ib).1 ≤ F') (hj : j ∈ (Codegen.dedupInstr frm ib).2) : InFrame lo F' j.inner := by
  have hle : F ≤ F' := by omega
  have h0 : InFrame lo F' ib.inner := h.mono (by exact_mod_cast hle)
  have t1 : frm + 1 ≤ F' → In lo F' 1 (ofI32 frm) := fun h => ⟨frm, rfl, by omega, by exact_mod_cast h⟩
  have t2 : frm + 2 ≤ F' → In lo F' 2 (ofI32 frm) := fun h => ⟨frm, rfl, by omega, by exact_mod_cast h⟩
  rcases ib with ⟨ins, l⟩
  cases ins <;> simp only [Codegen.dedupInstr] at hj hF'
  case StoreAddFpFp | StoreSubFpFp | StoreMulFpFp | StoreDivFpFp =>
    split_ifs at hj hF' with hq
    · simp only [List.mem_cons, List.not_mem_nil, or_false] at hj
      rcases hj with rfl | rfl
      · exact ⟨h0.1, t1 hF'⟩
      · exact ⟨t1 hF', h0.2⟩
    · simp only [List.mem_singleton] at hj; subst hj; exact h0
  case U32StoreAddFpFp | U32StoreSubFpFp | U32StoreMulFpFp | U32StoreDivRemFpFp | U32StoreEqFpFp | U32StoreLtFpFp =>
    split_ifs at hj hF' with hq
    · simp only [List.mem_cons, List.not_mem_nil, or_false] at hj
      rcases hj with rfl | rfl
      · exact ⟨h0.1, t2 hF'⟩
      · exact ⟨t2 hF', h0.2⟩
    · simp only [List.mem_singleton] at hj; subst hj; exact h0
  all_goals
    simp only [List.mem_singleton] at hj; subst hj; exact h0

theorem inFrame_dedup (hg : ∀ ib ∈ b.instrs, InFrame lo b.layout.frame ib.inner) (hlo : lo ≤ 0) :
    ∀ ib ∈ (dedup b).instrs, InFrame lo (dedup b).layout.frame ib.inner := by
  intro ib hib
  unfold dedup at hib ⊢
  simp only [List.mem_flatten] at hib
  obtain ⟨js, hjs, hj⟩ := hib
  obtain ⟨k, hk⟩ := List.getElem?_of_mem hjs
  have hlen := dedupChunks_length b.instrs b.layout.frame
  have hk' : k < b.instrs.length := by
    rw [← hlen]; exact (List.getElem?_eq_some_iff.mp hk).1
  obtain ⟨frm, h1, h2, h3⟩ := dedupChunks_get (frame := b.layout.frame) (List.getElem?_eq_getElem hk')
  rw [h3] at hk
  injection hk with hk
  subst hk
  exact (hg _ (List.getElem_mem hk')).dedupInstr hlo h1 h2 hj

theorem inFrame_passes (hg : ∀ ib ∈ b.instrs, InFrame lo b.layout.frame ib.inner) (hlo : lo ≤ 0) :
    ∀ ib ∈ (runPasses b).instrs, InFrame lo (runPasses b).layout.frame ib.inner := by
  intro ib hib
  simp only [runPasses, List.mem_map] at hib
  obtain ⟨j, hj, rfl⟩ := hib
  exact (inFrame_dedup hg hlo j hj).canonImm

theorem dedupInstr_pos (frm : ℕ) (ib : IB) : 0 < (dedupInstr frm ib).2.length := by
  rcases dedupInstr_cases frm ib with h | ⟨_, _, _, _, _, _, _, h⟩ | ⟨_, _, _, _, _, _, h⟩ <;> rw [h] <;> simp

theorem position_lt {i : ℕ} (hi : i < b.instrs.length) : position b i < position b (i + 1) := by
  obtain ⟨frm, -, -, h3⟩ := dedupChunks_get (frame := b.layout.frame) (List.getElem?_eq_getElem hi)
  have := chunkStart_succ h3
  have h0 := dedupInstr_pos frm b.instrs[i]
  unfold position
  omega

theorem position_mono {i j : ℕ} (hij : i < j) (hj : j ≤ b.instrs.length) : position b i < position b j := by
  induction j with
  | zero => omega
  | succ j ih =>
    rcases Nat.lt_or_ge i j with h | h
    · exact (ih h (by omega)).trans (position_lt (by omega))
    · have : i = j := by omega
      subst this
      exact position_lt (by omega)

theorem position_inj {i j : ℕ} (hi : i ≤ b.instrs.length) (hj : j ≤ b.instrs.length) (h : position b i = position b j) :
    i = j := by
  rcases Nat.lt_trichotomy i j with q | q | q
  · have := position_mono q hj; omega
  · exact q
  · have := position_mono q hi; omega

/-- Instructions the pass leaves alone. -/
theorem dedup_keep {i : ℕ} {ib : IB} (hi : b.instrs[i]? = some ib) (hd : ∀ frm, dedupInstr frm ib = (0, [ib])) :
    (dedup b).instrs[position b i]? = some ib ∧ position b (i + 1) = position b i + 1 := by
  obtain ⟨frm, -, -, h3⟩ := dedupChunks_get (frame := b.layout.frame) hi
  rw [hd] at h3
  refine ⟨?_, ?_⟩
  · have := chunk_get (k := 0) h3 (by simp)
    simpa [dedup, position] using this
  · have := chunkStart_succ h3
    simpa [position] using this

theorem HoldsAll.same {S : ℤ → Prop} : ∀ {vs : List Val} {off : ℤ}, HoldsAll m fp off vs → SameExcept fp S m m' →
    Window fp lo hi → lo ≤ off → off + widths vs ≤ hi → (∀ t, S t → lo ≤ t ∧ t < hi) →
    (∀ o, off ≤ o → o < off + widths vs → ¬ S o) → HoldsAll m' fp off vs
  | [], off, _, _, _, _, _, _, _ => trivial
  | v :: vs, off, h, hs, w, h1, h2, hS, ho => by
    rw [widths_cons] at h2 ho
    push_cast at h2 ho
    refine ⟨hs.holds w h1 (by omega) hS (fun o q1 q2 => ho o q1 (by omega)) h.1, ?_⟩
    exact HoldsAll.same h.2 hs w (by omega) (by omega) hS fun o q1 q2 => ho o (by omega) (by omega)

theorem isPrint_of_inFrame (h : InFrame lo F ins) : isPrint ins = false := by
  cases ins <;> first | rfl | exact h.elim

/-- Removal of duplicate operands, with calls. -/
theorem Ev.dedup (w : Window fp lo hi) (hlo : lo ≤ 0) (hF : ((Codegen.dedup b).layout.frame : ℤ) ≤ hi)
    (hg : ∀ ib ∈ b.instrs, InFrame lo b.layout.frame ib.inner)
    (htgt : Labelled b tgt) (htgt' : ∀ l ∈ (Codegen.dedup b).labels, tgt' l.name = some l.addr) {i : ℕ}
    (h : Ev b.instrs tgt fp lo b.layout.frame hi C Q i m) :
    ∀ {m₂ : Isa.Mem}, SameExcept fp (fun o => (b.layout.frame : ℤ) ≤ o ∧ o < (Codegen.dedup b).layout.frame) m m₂ →
    Ev (Codegen.dedup b).instrs tgt' fp lo b.layout.frame hi C
      (fun i' m₂' => ∃ i m', Q i m' ∧ i' = position b i ∧
        SameExcept fp (fun o => (b.layout.frame : ℤ) ≤ o ∧ o < (Codegen.dedup b).layout.frame) m' m₂') (position b i) m₂ := by
  have hle : (b.layout.frame : ℤ) ≤ (Codegen.dedup b).layout.frame := by
    have := dedupChunks_le b.instrs b.layout.frame
    unfold Codegen.dedup
    exact_mod_cast this
  induction h with
  | now h => exact fun hs => .now ⟨_, _, h, rfl, hs⟩
  | step h _ ih =>
    intro m₂ hs
    obtain ⟨m₂', r, hs'⟩ := step_dedup (w.mono (by omega) hF) (fun ib hib => isPrint_of_inFrame (hg ib hib)) htgt htgt' h
      (avoids_of_good hg (w.mono le_rfl hF) (by omega) hle h) hs
    exact Ev.runs r (ih hs')
  | @call i m off l args vs hf hc ha h1 h2 h3 _ ih =>
    intro m₂ hs
    obtain ⟨q1, q2⟩ := dedup_keep hf fun _ => rfl
    refine .call q1 hc ?_ h1 h2 h3 fun m₂' hv hs' => ?_
    · exact ha.same hs w h1 (by omega) (fun t ht => ⟨by omega, by omega⟩) (fun o _ ho ht => by omega)
    · rw [← q2]
      refine ih m₂' hv ?_ SameExcept.refl
      exact (hs.mono fun o ho => ⟨by omega, by omega⟩).trans hs'

theorem Ev.canonImm {i : ℕ} (h : Ev code tgt fp lo fr hi C Q i m) :
    Ev (code.map Codegen.canonImm) tgt fp lo fr hi C Q i m := by
  induction h with
  | now h => exact .now h
  | step h _ ih => exact .step (canonImm_step h) ih
  | call hf hc ha h1 h2 h3 _ ih =>
    refine .call ?_ hc ha h1 h2 h3 ih
    rw [List.getElem?_map, hf]; rfl

/-- The code as a part of a larger program. -/
theorem Ev.shift {big : List IB} {base : ℕ} (hb : ∀ (i : ℕ) ib, code[i]? = some ib → big[base + i]? = some ib)
    (ht : ∀ n j, tgt n = some j → tgt' n = some (base + j)) {i : ℕ} (h : Ev code tgt fp lo fr hi C Q i m) :
    Ev big tgt' fp lo fr hi C (fun i' m' => ∃ i, i' = base + i ∧ Q i m') (base + i) m := by
  induction h with
  | now h => exact .now ⟨_, rfl, h⟩
  | step h _ ih =>
    refine .step ?_ ih
    cases h with
    | plain hi hp he => exact .plain (hb _ _ hi) hp he
    | jump hi hj => exact .jump (hb _ _ hi) (ht _ _ hj)
    | branch hi hx hnz hj => exact .branch (hb _ _ hi) hx hnz (ht _ _ hj)
    | fall hi hx => exact .fall (hb _ _ hi) hx
  | call hf hc ha h1 h2 h3 _ ih => exact .call (hb _ _ hf) hc ha h1 h2 h3 ih

/-! ### Labels -/

/-- A terminator other than `Unreachable` with no block to follow ends with an instruction. -/
theorem term_last {term : Terminator} (hc : Sig f lo ts) (ht : TermTyped f term) (hu : term ≠ .Unreachable)
    (hl : Shape f lo ts b.layout) (h : genTerm f b term none = .ok b') :
    ∃ b₁ i, Emits lo b b₁ ∧ b'.labels = b₁.labels ∧ b'.instrs = b₁.instrs ++ [i] := by
  have hlo : lo ≤ 0 := by have := hc.low; omega
  have jmp : ∀ {b₁ : Builder} {n : Name}, Emits lo b b₁ → ∃ b₂ i, Emits lo b b₂ ∧ (b₁.jump n).labels = b₂.labels ∧
      (b₁.jump n).instrs = b₂.instrs ++ [i] := fun em => ⟨_, _, em, rfl, rfl⟩
  cases term with
  | Jump t =>
    simp only [genTerm, Except.ok.injEq, reduceCtorEq, if_false] at h
    subst h
    exact jmp Emits.refl
  | If c t e =>
    simp only [genTerm, Bind.bind, Except.bind, Builder.jnz] at h
    simp only [TermTyped] at ht
    cases c with
    | Error => simp at h
    | Literal lit =>
      cases lit <;> simp only [reduceCtorEq, pure, Except.pure, Except.ok.injEq] at h
      subst h
      split_ifs
      · exact jmp emits_jump
      · exact jmp Emits.refl
    | Operand id =>
      have hr := hl.readable_op (n := 1) ht (by simp [MirType.memSize])
      cases ho : b.layout.getOffset id with
      | error e => simp [ho] at h
      | ok o =>
        simp only [ho, pure, Except.pure, Except.ok.injEq] at h
        subst h
        obtain ⟨r1, r2⟩ := hr.offset ho
        exact jmp (emits_jnz r1 r2)
  | BranchCmp op l r t e =>
    simp only [TermTyped] at ht
    obtain ⟨-, hl1, hr1⟩ := ht
    have hf : ((b.reserve 1).2.layout.frame : ℤ) = b.layout.frame + 1 := rfl
    have htmp : (b.reserve 1).1 = (b.layout.frame : ℤ) := rfl
    have e0 : Emits lo b (b.reserve 1).2 := emits_reserve
    have hl0 := hl.emits e0
    cases op <;> simp only [genTerm, Bind.bind, Except.bind, reduceCtorEq] at h <;> split at h
    all_goals first
      | simp only [reduceCtorEq] at h
      | skip
    all_goals
      rename_i b₁ hb₁
      simp only [operandTypes] at hl1 hr1
      have em := emits_computeInto hb₁ (hl0.readable_op (n := opArg _) hl1 (by simp [MirType.memSize, opArg]))
        (hl0.readable_op (n := opArg _) hr1 (by simp [MirType.memSize, opArg])) hlo (by rw [htmp]; omega)
        (by rw [htmp, hf]; simp [opWidth, resultType, MirType.memSize])
      have hfr := em.frame
      simp only [pure, Except.pure, Except.ok.injEq, if_false] at h
      subst h
      exact jmp ((e0.trans em).trans (emits_jnz (by rw [htmp]; omega) (by rw [htmp]; omega)))
  | Return vs =>
    simp only [genTerm, hc.rts, Builder.returnValues, Bind.bind, Except.bind] at h
    split at h
    · cases h
    · rename_i b₁ hb₁
      simp only [pure, Except.pure, Except.ok.injEq] at h
      subst h
      have hlow := hc.low
      have hrs := hl.ret
      exact ⟨_, _, emits_returnLoop hlo (returns_typed ht (returnTys_eq hc.rts)) (by omega) (by omega) hl hb₁, rfl, rfl⟩
  | Unreachable => exact absurd rfl hu

end Codegen
end CairoM
