import Verif.CodegenPassLemmas
import Verif.CodegenRun
import Verif.CodegenWitness

/-!
# Properties of the passes over emitted instructions (C52, C53)
-/

namespace CairoM
namespace Codegen

open Mir Lang Relation Abi

/-! ### C53: canonicalisation of immediates -/

/-- C53: wherever an instruction has an effect, its canonical form has an effect with the same memory and frame
pointer, and like the original continues with the next instruction. -/
theorem C53_instruction (i : IB) (pc fp : M31) (m : Isa.Mem) (e : Isa.Effect)
    (h : Isa.sem i.inner pc fp m = some e) :
    ∃ e', Isa.sem (canonImm i).inner pc fp m = some e' ∧ e'.memory m = e.memory m ∧ e'.fp = e.fp ∧
      (plain i.inner = true → e'.pc = pc + ((canonImm i).inner.sizeInQM31s : ℕ)) := by
  obtain ⟨e', h1, h2, h3⟩ := canonImm_sem i h
  refine ⟨e', h1, by unfold Isa.Effect.memory; rw [h2], h3, fun hp => ?_⟩
  have := sem_pc (pc := pc) ((canonImm_plain i).trans hp) h1
  rw [h1] at this
  injection this with this
  rw [this]

/-- C53 (programs): every execution of the emitted code is an execution of the code after the pass. -/
theorem C53_runs (code : List IB) (tgt : Name → Option ℕ) (fp : M31) (s s' : ℕ × Isa.Mem)
    (h : Runs code tgt fp s s') : Runs (code.map canonImm) tgt fp s s' := by
  induction h with
  | refl => exact Runs.refl
  | tail _ h ih => exact ih.tail (canonImm_step h)

/-- C53 (converse): if the canonical form has an effect then so does the original, except for a product with
zero, which faults on operands that are not numbers. -/
theorem C53_converse (i : IB) (pc fp : M31) (m : Isa.Mem) (e' : Isa.Effect)
    (h : Isa.sem (canonImm i).inner pc fp m = some e') :
    (∃ e, Isa.sem i.inner pc fp m = some e) ∨
    (∃ s d, i.inner = .StoreMulFpImm s 0 d ∧ Isa.felt m (fp + s) = none) ∨
    (∃ s d, i.inner = .U32StoreMulFpImm s 0 0 d ∧ Isa.u32 m (fp + s) = none) := by
  rcases i with ⟨ins, l⟩
  unfold canonImm at h
  split at h
  · rename_i s imm d hi
    dsimp only at hi
    subst hi
    split_ifs at h with h1 h0
    · have := val_eq_one h1; subst this
      left
      refine ⟨e', ?_⟩
      dsimp only [Isa.sem] at h ⊢
      refine bind_pc h fun x hx => ?_
      rw [mul_one]
      rwa [add_zero] at hx
    · have := val_eq_zero h0; subst this
      cases hf : Isa.felt m (fp + s) with
      | none => exact .inr (.inl ⟨s, d, rfl, hf⟩)
      | some x =>
        left
        dsimp only [Isa.sem] at h ⊢
        rw [felt_bind hf, mul_zero]
        obtain ⟨e, he, -⟩ := done_other (r' := [fp + s]) h
        exact ⟨e, he⟩
    · exact .inl ⟨e', h⟩
  · rename_i s lo hi d hi'
    dsimp only at hi'
    subst hi'
    split_ifs at h with h1 h0
    · have := val_eq_one h1.1; subst this
      have := val_eq_zero h1.2; subst this
      left
      refine ⟨e', ?_⟩
      dsimp only [Isa.sem, Isa.bin32Imm] at h ⊢
      have l1 : Isa.ofLimbs 1 0 = some 1 := by decide +kernel
      have l0 : Isa.ofLimbs 0 0 = some 0 := by decide +kernel
      rw [limbs_bind l0] at h
      rw [limbs_bind l1]
      refine bind_pc h fun x hx => ?_
      rw [Nat.mul_one]
      rwa [Nat.add_zero] at hx
    · have := val_eq_zero h0.1; subst this
      have := val_eq_zero h0.2; subst this
      have l0 : Isa.ofLimbs 0 0 = some 0 := by decide +kernel
      cases hf : Isa.u32 m (fp + s) with
      | none => exact .inr (.inr ⟨s, d, rfl, hf⟩)
      | some x =>
        left
        dsimp only [Isa.sem, Isa.bin32Imm] at h ⊢
        rw [limbs_bind l0] at h
        rw [limbs_bind l0, u32_bind hf, Nat.mul_zero, Nat.zero_mod]
        obtain ⟨e, he, -⟩ := done_other (r' := [fp + s, fp + s + 1]) h
        exact ⟨_, done_pc he⟩
    · exact .inl ⟨e', h⟩
  · exact .inl ⟨e', h⟩

theorem felt_five (a : M31) (h : a.val < 2 ^ 28) : Isa.felt (fun _ => QM31.ofM31 5) a = some 5 := by
  unfold Isa.felt
  rw [if_pos ⟨h, rfl, rfl, rfl⟩]
  rfl

/-- The pass does something: a product with one becomes a copy, a product with zero a constant. -/
example : canonImm ⟨.StoreMulFpImm 3 1 4, none⟩ = ⟨.StoreAddFpImm 3 0 4, none⟩ ∧
    canonImm ⟨.U32StoreMulFpImm 3 0 0 4, none⟩ = ⟨.U32StoreImm 0 0 4, none⟩ := by decide +kernel

/-- The first instruction above has an effect in the memory full of fives, and so has its canonical form. -/
example : ∃ e, Isa.sem (.StoreMulFpImm 3 1 4) 0 10 (fun _ => QM31.ofM31 5) = some e ∧ e.writes = [(14, 5)] :=
  ⟨_, sem_mulImm (pa := 13) (pd := 14) (x := 5) (by decide +kernel) (by decide +kernel) (felt_five _ (by decide +kernel))
    (by decide +kernel), by decide +kernel⟩

/-! ### C52: de-duplication of operands -/

/-- The instruction about to be executed neither reads nor writes the slots from `lo` to `hi`. -/
def Avoids (code : List IB) (fp : M31) (lo hi : ℤ) (s : ℕ × Isa.Mem) : Prop :=
  ∀ ib e, code[s.1]? = some ib → Isa.sem ib.inner 0 fp s.2 = some e → Clear fp lo hi e

/-- Where the code of instruction `i` starts after the pass. -/
def position (b : Builder) (i : ℕ) : ℕ := chunkStart (dedupChunks b.layout.frame b.instrs).2 i

theorem position_zero (b : Builder) : position b 0 = 0 := rfl

theorem position_end (b : Builder) : position b b.instrs.length = (dedup b).instrs.length := by
  have h := dedupChunks_length b.instrs b.layout.frame
  unfold position chunkStart dedup
  rw [← h, List.take_length]

/-- The names of the labels mean the instructions they stand at, none of which is the end of the code. -/
structure Labelled (b : Builder) (tgt : Name → Option ℕ) : Prop where
  some : ∀ n j, tgt n = some j → j < b.instrs.length ∧ (⟨n, j⟩ : Label) ∈ b.labels

theorem step_dedup {b : Builder} {tgt tgt' : Name → Option ℕ} {fp : M31}
    (w : Window fp b.layout.frame (dedup b).layout.frame)
    (hprint : ∀ ib ∈ b.instrs, isPrint ib.inner = false)
    (htgt : Labelled b tgt) (htgt' : ∀ l ∈ (dedup b).labels, tgt' l.name = some l.addr)
    {i j : ℕ} {m m' m₂ : Isa.Mem} (hstep : Step b.instrs tgt fp (i, m) (j, m'))
    (hav : Avoids b.instrs fp b.layout.frame (dedup b).layout.frame (i, m))
    (hs : SameExcept fp (fun o => (b.layout.frame : ℤ) ≤ o ∧ o < (dedup b).layout.frame) m m₂) :
    ∃ m₂', Runs (dedup b).instrs tgt' fp (position b i, m₂) (position b j, m₂') ∧
      SameExcept fp (fun o => (b.layout.frame : ℤ) ≤ o ∧ o < (dedup b).layout.frame) m' m₂' := by
  have hlabel : ∀ {n : Name} {j : ℕ}, tgt n = some j → tgt' n = some (position b j) := by
    intro n j hn
    obtain ⟨hj, hl⟩ := htgt.some n j hn
    have := htgt' _ (List.mem_map_of_mem (f := remapLabel (dedupChunks b.layout.frame b.instrs).2) hl)
    have hlen := dedupChunks_length b.instrs b.layout.frame
    have hr : remapLabel (dedupChunks b.layout.frame b.instrs).2 ⟨n, j⟩ = ⟨n, position b j⟩ := by
      unfold remapLabel
      rw [if_pos (by dsimp only; omega)]
      rfl
    rw [hr] at this
    exact this
  have hone : ∀ {ib : IB}, b.instrs[i]? = some ib → (∀ fr, dedupInstr fr ib = (0, [ib])) →
      (dedup b).instrs[position b i]? = some ib ∧ position b (i + 1) = position b i + 1 := by
    intro ib hi hd
    obtain ⟨fr, -, -, h3⟩ := dedupChunks_get (frame := b.layout.frame) hi
    rw [hd] at h3
    refine ⟨?_, ?_⟩
    · have := chunk_get (k := 0) h3 (by simp)
      simpa [dedup, position] using this
    · have := chunkStart_succ h3
      simpa [position] using this
  cases hstep with
  | plain hi hp he =>
    rename_i ins e
    obtain ⟨fr, h1, h2, h3⟩ := dedupChunks_get (frame := b.layout.frame) hi
    have hpos : position b (i + 1) = position b i + (dedupInstr fr ⟨ins, none⟩).2.length := chunkStart_succ h3
    rw [hpos]
    exact dedup_plain w (hprint _ (List.mem_of_getElem? hi)) hp he (hav _ _ hi he) h1 h2
      (fun j hj => chunk_get h3 hj) hs
  | jump hi hj =>
    exact ⟨m₂, Runs.single (.jump (hone hi fun _ => rfl).1 (hlabel hj)), hs⟩
  | branch hi hx hnz hj =>
    rename_i c o x l
    have hc : Isa.felt m₂ (fp + c) = some x := by
      refine (felt_congr ?_).trans hx
      have he : Isa.sem (.JnzFpImm c o) 0 fp m = some ⟨[fp + c], [], 0 + o, fp⟩ := by
        dsimp only [Isa.sem]
        rw [felt_bind hx, if_neg hnz]
        simp [Isa.done]
      exact clear_reads (hav _ _ hi he) hs _ (by simp)
    exact ⟨m₂, Runs.single (.branch (hone hi fun _ => rfl).1 hc hnz (hlabel hj)), hs⟩
  | fall hi hx =>
    rename_i c o l
    have hc : Isa.felt m₂ (fp + c) = some 0 := by
      refine (felt_congr ?_).trans hx
      have he : Isa.sem (.JnzFpImm c o) 0 fp m = some ⟨[fp + c], [], 0 + 1, fp⟩ := by
        dsimp only [Isa.sem]
        rw [felt_bind hx, if_pos rfl]
        simp [Isa.done]
      exact clear_reads (hav _ _ hi he) hs _ (by simp)
    obtain ⟨h1, h2⟩ := hone hi fun _ => rfl
    rw [h2]
    exact ⟨m₂, Runs.single (.fall h1 hc), hs⟩

/-- C52 (meaning): every execution of the emitted code that does not touch the slots above the frame is matched
by an execution of the code after the pass, from the code of the first to the code of the last instruction; the
final memories agree except for the new temporaries. -/
theorem C52_runs (b : Builder) (tgt tgt' : Name → Option ℕ) (fp : M31)
    (w : Window fp b.layout.frame (dedup b).layout.frame)
    (hprint : ∀ ib ∈ b.instrs, isPrint ib.inner = false)
    (htgt : Labelled b tgt) (htgt' : ∀ l ∈ (dedup b).labels, tgt' l.name = some l.addr)
    (i j : ℕ) (m m' : Isa.Mem)
    (hrun : ReflTransGen (fun s s' => Step b.instrs tgt fp s s' ∧
      Avoids b.instrs fp b.layout.frame (dedup b).layout.frame s) (i, m) (j, m')) :
    ∃ m₂, Runs (dedup b).instrs tgt' fp (position b i, m) (position b j, m₂) ∧
      SameExcept fp (fun o => (b.layout.frame : ℤ) ≤ o ∧ o < (dedup b).layout.frame) m' m₂ := by
  generalize hs : (j, m') = s at hrun
  induction hrun generalizing j m' with
  | refl => cases hs; exact ⟨m, Runs.refl, SameExcept.refl⟩
  | @tail s1 s2 _ hstep ih =>
    obtain ⟨i1, m1⟩ := s1
    subst hs
    obtain ⟨m2, hr, hsame⟩ := ih i1 m1 rfl
    obtain ⟨m3, hr', hsame'⟩ := step_dedup w hprint htgt htgt' hstep.1 hstep.2 hsame
    exact ⟨m3, hr.trans hr', hsame'⟩

/-- `fn m(x: felt) -> felt { return x * x; }` as emitted, with room for one temporary. -/
def square : Builder :=
  ⟨[⟨.StoreMulFpFp (ofI32 (-4)) (ofI32 (-4)) (ofI32 (-3)), none⟩, ⟨.StoreImm 7 0, none⟩], [⟨['m'], 0⟩],
    ⟨fun _ => none, 1, 1⟩, 0, 0⟩

/-- Non-vacuity of C52: the square of 5 is computed by the emitted code and the hypotheses hold. -/
example : ∃ m', ReflTransGen (fun s s' => Step square.instrs (fun n => if n = ['m'] then some 0 else none) 10 s s' ∧
      Avoids square.instrs 10 square.layout.frame (dedup square).layout.frame s) (0, fun _ => QM31.ofM31 5) (2, m') ∧
    (m' 7).l0 = 25 ∧ (dedup square).instrs.length = 3 ∧
    Window 10 square.layout.frame (dedup square).layout.frame ∧
    Labelled square (fun n => if n = ['m'] then some 0 else none) := by
  have hav : ∀ {i : ℕ} {m : Isa.Mem} {ib : IB} {e : Isa.Effect}, square.instrs[i]? = some ib →
      Isa.sem ib.inner 0 10 m = some e →
      (e.reads ++ e.writes.map Prod.fst).all (fun a => decide (a ≠ adr 10 1)) = true →
      Avoids square.instrs 10 square.layout.frame (dedup square).layout.frame (i, m) := by
    intro i m ib e hi he hall ib' e' hi' he' a ha o h1 h2
    rw [hi] at hi'; injection hi' with hi'; subst hi'
    rw [he] at he'; injection he' with he'; subst he'
    have h1' : (1 : ℤ) ≤ o := h1
    have h2' : o < ((2 : ℕ) : ℤ) := h2
    have : o = 1 := by omega
    subst this
    exact of_decide_eq_true (List.all_eq_true.mp hall a ha)
  have e1 : Isa.sem (.StoreMulFpFp (ofI32 (-4)) (ofI32 (-4)) (ofI32 (-3))) 0 10 (fun _ => QM31.ofM31 5) =
      some ⟨[6, 6], [(7, 5 * 5)], 0 + 1, 10⟩ :=
    sem_mul (by decide +kernel) (by decide +kernel) (by decide +kernel) (felt_five _ (by decide +kernel))
      (felt_five _ (by decide +kernel)) (by decide +kernel)
  have e2 : Isa.sem (.StoreImm 7 0) 0 10 (Isa.Effect.memory ⟨[6, 6], [(7, 5 * 5)], 0 + 1, 10⟩ (fun _ => QM31.ofM31 5)) =
      some ⟨[], [(10, 7)], 0 + 1, 10⟩ := sem_imm (by decide +kernel) (by decide +kernel)
  refine ⟨_, .tail (.single ⟨.plain (i := 0) rfl rfl e1, hav (i := 0) rfl e1 (by decide +kernel)⟩)
    ⟨.plain (i := 1) rfl rfl e2, hav (i := 1) rfl e2 (by decide +kernel)⟩, by decide +kernel, by decide +kernel,
    ⟨by decide +kernel, by decide +kernel⟩, ⟨fun n j h => ?_⟩⟩
  split at h
  · rename_i hn; injection h with h; subst h hn; exact ⟨by decide, by simp [square]⟩
  · cases h

/-! #### Distinct operands -/

/-- The two source operands of the felt and u32 arithmetic and comparison instructions, with the number of
cells of an operand. -/
def sources : Instruction → Option (M31 × M31 × ℕ)
  | .StoreAddFpFp a b _ | .StoreSubFpFp a b _ | .StoreMulFpFp a b _ | .StoreDivFpFp a b _ => some (a, b, 1)
  | .U32StoreAddFpFp a b _ | .U32StoreSubFpFp a b _ | .U32StoreMulFpFp a b _ | .U32StoreDivRemFpFp a b _ _
  | .U32StoreEqFpFp a b _ | .U32StoreLtFpFp a b _ => some (a, b, 2)
  | _ => none

/-- The cells of an operand. -/
def cells (fp a : M31) (n : ℕ) : List M31 := (List.range n).map fun k : ℕ => fp + a + (k : M31)

/-- Operands are frame slots between `lo` and `frame`, none straddling the saved program counter. -/
def GoodSlots (lo : ℤ) (frame : ℕ) (ins : Instruction) : Prop :=
  ∀ a b n, sources ins = some (a, b, n) → ∃ oa ob : ℤ, a = ofI32 oa ∧ b = ofI32 ob ∧
    lo ≤ oa ∧ oa + n ≤ frame ∧ oa ≠ -1 ∧ lo ≤ ob ∧ ob + n ≤ frame ∧ ob ≠ -1

theorem sources_width {ins : Instruction} {a b : M31} {n : ℕ} (h : sources ins = some (a, b, n)) : n = 1 ∨ n = 2 := by
  cases ins <;> simp [sources] at h <;> simp [← h.2.2]

theorem ofI32_val {o : ℤ} (h1 : -2 ^ 29 ≤ o) (h2 : o < 2 ^ 29) :
    ((ofI32 o).val : ℤ) = if o < 0 then P + o else o := by
  have hP : P = 2147483647 := rfl
  rw [ofI32_eq]
  split_ifs with h
  · obtain ⟨n, hn⟩ := Int.eq_ofNat_of_zero_le (show 0 ≤ (P : ℤ) + o by omega)
    have : ((o : ℤ) : M31) = ((n : ℕ) : M31) := by
      have h0 : (((P : ℕ) : ℤ) : M31) = 0 := by rw [Int.cast_natCast]; exact ZMod.natCast_self P
      have e2 := congrArg (fun z : ℤ => (z : M31)) hn
      simp only [Int.cast_add, h0, zero_add] at e2
      rw [e2]
      exact Int.cast_natCast n
    rw [this, ZMod.val_natCast, Nat.mod_eq_of_lt (by omega)]
    omega
  · obtain ⟨n, rfl⟩ := Int.eq_ofNat_of_zero_le (show 0 ≤ o by omega)
    rw [Int.cast_natCast, ZMod.val_natCast, Nat.mod_eq_of_lt (by omega)]

theorem cells_disjoint {fp : M31} {lo hi oa ob : ℤ} {n : ℕ} (w : Window fp lo hi) (h1 : lo ≤ oa) (h2 : oa + n ≤ hi)
    (h3 : lo ≤ ob) (h4 : ob + n ≤ hi) (hd : oa + n ≤ ob ∨ ob + n ≤ oa) :
    ∀ x ∈ cells fp (ofI32 oa) n, x ∉ cells fp (ofI32 ob) n := by
  intro x hx hy
  simp only [cells, List.mem_map, List.mem_range] at hx hy
  obtain ⟨k, hk, rfl⟩ := hx
  obtain ⟨k', hk', he⟩ := hy
  rw [adr_ofI32, adr_ofI32] at he
  have e1 : ∀ (o : ℤ) (k : ℕ), adr fp o + (k : M31) = adr fp (o + k) := by
    intro o k; simp [adr, add_assoc]
  rw [e1, e1] at he
  have := w.inj (by omega) (by omega) (by omega) (by omega) he
  omega

/-- What the pass emits for one instruction has disjoint sources. -/
theorem dedupInstr_sources {lo : ℤ} {F F' fr : ℕ} {fp : M31} {i j : IB} {a b : M31} {n : ℕ}
    (w : Window fp lo F') (hlo : lo ≤ 0) (hg : GoodSlots lo F i.inner) (hF : F ≤ fr)
    (hF' : fr + (dedupInstr fr i).1 ≤ F') (hj : j ∈ (dedupInstr fr i).2) (hs : sources j.inner = some (a, b, n)) :
    ∀ x ∈ cells fp a n, x ∉ cells fp b n := by
  have hlo' : -2 ^ 28 ≤ lo := by have := w.lo; have := w.hi; omega
  have hhi : (F' : ℤ) ≤ 2 ^ 28 := by have := w.hi; omega
  have key : ∀ {a b : M31} {k : ℕ} {op : M31 → M31 → Instruction}, i.inner = op a b →
      (∀ x y, sources (op x y) = some (x, y, k)) → fr + k ≤ F' →
      (∀ x ∈ cells fp (ofI32 fr) k, x ∉ cells fp b k) := by
    intro a b k op hi hop hk
    obtain ⟨oa, ob, rfl, rfl, h1, h2, h3, h4, h5, h6⟩ := hg a b k (by rw [hi]; exact hop a b)
    exact cells_disjoint w (by omega) (by omega) h4 (by omega) (by omega)
  have keyF : ∀ {a b : M31}, sources i.inner = some (a, b, 1) → a ≠ b → ∀ x ∈ cells fp a 1, x ∉ cells fp b 1 := by
    intro a b hi hab x hx hy
    simp only [cells, List.range_one, List.map_cons, List.map_nil, List.mem_singleton] at hx hy
    rw [hx] at hy
    exact hab (add_left_cancel (add_right_cancel hy))
  have keyU : ∀ {a b : M31}, sources i.inner = some (a, b, 2) → u32Overlap a b = false →
      F ≤ F' → ∀ x ∈ cells fp a 2, x ∉ cells fp b 2 := by
    intro a b hi hab hle
    obtain ⟨oa, ob, rfl, rfl, h1, h2, h3, h4, h5, h6⟩ := hg a b 2 hi
    refine cells_disjoint w h1 (by omega) h4 (by omega) ?_
    have va := ofI32_val (o := oa) (by omega) (by omega)
    have vb := ofI32_val (o := ob) (by omega) (by omega)
    unfold u32Overlap at hab
    simp only [Bool.not_eq_false', Bool.or_eq_true, decide_eq_true_eq] at hab
    have hP : P = 2147483647 := rfl
    split_ifs at va vb <;> omega
  rcases i with ⟨ins, l⟩
  cases ins
  case StoreAddFpFp x y d =>
    by_cases h : x = y
    · simp only [dedupInstr, h, if_true] at hj hF'
      simp only [List.mem_cons, List.not_mem_nil, or_false] at hj
      rcases hj with rfl | rfl
      · simp [sources] at hs
      · simp only [sources, Option.some.injEq, Prod.mk.injEq] at hs
        obtain ⟨rfl, rfl, rfl⟩ := hs
        exact key (op := fun x y => .StoreAddFpFp x y d) rfl (fun _ _ => rfl) hF'
    · simp only [dedupInstr, h, if_false, List.mem_singleton] at hj
      subst hj
      simp only [sources, Option.some.injEq, Prod.mk.injEq] at hs
      obtain ⟨rfl, rfl, rfl⟩ := hs
      exact keyF rfl h
  case StoreSubFpFp x y d =>
    by_cases h : x = y
    · simp only [dedupInstr, h, if_true] at hj hF'
      simp only [List.mem_cons, List.not_mem_nil, or_false] at hj
      rcases hj with rfl | rfl
      · simp [sources] at hs
      · simp only [sources, Option.some.injEq, Prod.mk.injEq] at hs
        obtain ⟨rfl, rfl, rfl⟩ := hs
        exact key (op := fun x y => .StoreSubFpFp x y d) rfl (fun _ _ => rfl) hF'
    · simp only [dedupInstr, h, if_false, List.mem_singleton] at hj
      subst hj
      simp only [sources, Option.some.injEq, Prod.mk.injEq] at hs
      obtain ⟨rfl, rfl, rfl⟩ := hs
      exact keyF rfl h
  case StoreMulFpFp x y d =>
    by_cases h : x = y
    · simp only [dedupInstr, h, if_true] at hj hF'
      simp only [List.mem_cons, List.not_mem_nil, or_false] at hj
      rcases hj with rfl | rfl
      · simp [sources] at hs
      · simp only [sources, Option.some.injEq, Prod.mk.injEq] at hs
        obtain ⟨rfl, rfl, rfl⟩ := hs
        exact key (op := fun x y => .StoreMulFpFp x y d) rfl (fun _ _ => rfl) hF'
    · simp only [dedupInstr, h, if_false, List.mem_singleton] at hj
      subst hj
      simp only [sources, Option.some.injEq, Prod.mk.injEq] at hs
      obtain ⟨rfl, rfl, rfl⟩ := hs
      exact keyF rfl h
  case StoreDivFpFp x y d =>
    by_cases h : x = y
    · simp only [dedupInstr, h, if_true] at hj hF'
      simp only [List.mem_cons, List.not_mem_nil, or_false] at hj
      rcases hj with rfl | rfl
      · simp [sources] at hs
      · simp only [sources, Option.some.injEq, Prod.mk.injEq] at hs
        obtain ⟨rfl, rfl, rfl⟩ := hs
        exact key (op := fun x y => .StoreDivFpFp x y d) rfl (fun _ _ => rfl) hF'
    · simp only [dedupInstr, h, if_false, List.mem_singleton] at hj
      subst hj
      simp only [sources, Option.some.injEq, Prod.mk.injEq] at hs
      obtain ⟨rfl, rfl, rfl⟩ := hs
      exact keyF rfl h
  case U32StoreAddFpFp x y d =>
    by_cases h : u32Overlap x y = true
    · simp only [dedupInstr, h, if_true] at hj hF'
      simp only [List.mem_cons, List.not_mem_nil, or_false] at hj
      rcases hj with rfl | rfl
      · simp [sources] at hs
      · simp only [sources, Option.some.injEq, Prod.mk.injEq] at hs
        obtain ⟨rfl, rfl, rfl⟩ := hs
        exact key (op := fun x y => .U32StoreAddFpFp x y d) rfl (fun _ _ => rfl) hF'
    · simp only [dedupInstr, if_neg h, List.mem_singleton] at hj
      subst hj
      simp only [sources, Option.some.injEq, Prod.mk.injEq] at hs
      obtain ⟨rfl, rfl, rfl⟩ := hs
      exact keyU rfl (by simpa using h) (by omega)
  case U32StoreSubFpFp x y d =>
    by_cases h : u32Overlap x y = true
    · simp only [dedupInstr, h, if_true] at hj hF'
      simp only [List.mem_cons, List.not_mem_nil, or_false] at hj
      rcases hj with rfl | rfl
      · simp [sources] at hs
      · simp only [sources, Option.some.injEq, Prod.mk.injEq] at hs
        obtain ⟨rfl, rfl, rfl⟩ := hs
        exact key (op := fun x y => .U32StoreSubFpFp x y d) rfl (fun _ _ => rfl) hF'
    · simp only [dedupInstr, if_neg h, List.mem_singleton] at hj
      subst hj
      simp only [sources, Option.some.injEq, Prod.mk.injEq] at hs
      obtain ⟨rfl, rfl, rfl⟩ := hs
      exact keyU rfl (by simpa using h) (by omega)
  case U32StoreMulFpFp x y d =>
    by_cases h : u32Overlap x y = true
    · simp only [dedupInstr, h, if_true] at hj hF'
      simp only [List.mem_cons, List.not_mem_nil, or_false] at hj
      rcases hj with rfl | rfl
      · simp [sources] at hs
      · simp only [sources, Option.some.injEq, Prod.mk.injEq] at hs
        obtain ⟨rfl, rfl, rfl⟩ := hs
        exact key (op := fun x y => .U32StoreMulFpFp x y d) rfl (fun _ _ => rfl) hF'
    · simp only [dedupInstr, if_neg h, List.mem_singleton] at hj
      subst hj
      simp only [sources, Option.some.injEq, Prod.mk.injEq] at hs
      obtain ⟨rfl, rfl, rfl⟩ := hs
      exact keyU rfl (by simpa using h) (by omega)
  case U32StoreEqFpFp x y d =>
    by_cases h : u32Overlap x y = true
    · simp only [dedupInstr, h, if_true] at hj hF'
      simp only [List.mem_cons, List.not_mem_nil, or_false] at hj
      rcases hj with rfl | rfl
      · simp [sources] at hs
      · simp only [sources, Option.some.injEq, Prod.mk.injEq] at hs
        obtain ⟨rfl, rfl, rfl⟩ := hs
        exact key (op := fun x y => .U32StoreEqFpFp x y d) rfl (fun _ _ => rfl) hF'
    · simp only [dedupInstr, if_neg h, List.mem_singleton] at hj
      subst hj
      simp only [sources, Option.some.injEq, Prod.mk.injEq] at hs
      obtain ⟨rfl, rfl, rfl⟩ := hs
      exact keyU rfl (by simpa using h) (by omega)
  case U32StoreLtFpFp x y d =>
    by_cases h : u32Overlap x y = true
    · simp only [dedupInstr, h, if_true] at hj hF'
      simp only [List.mem_cons, List.not_mem_nil, or_false] at hj
      rcases hj with rfl | rfl
      · simp [sources] at hs
      · simp only [sources, Option.some.injEq, Prod.mk.injEq] at hs
        obtain ⟨rfl, rfl, rfl⟩ := hs
        exact key (op := fun x y => .U32StoreLtFpFp x y d) rfl (fun _ _ => rfl) hF'
    · simp only [dedupInstr, if_neg h, List.mem_singleton] at hj
      subst hj
      simp only [sources, Option.some.injEq, Prod.mk.injEq] at hs
      obtain ⟨rfl, rfl, rfl⟩ := hs
      exact keyU rfl (by simpa using h) (by omega)
  case U32StoreDivRemFpFp x y d r =>
    by_cases h : u32Overlap x y = true
    · simp only [dedupInstr, h, if_true] at hj hF'
      simp only [List.mem_cons, List.not_mem_nil, or_false] at hj
      rcases hj with rfl | rfl
      · simp [sources] at hs
      · simp only [sources, Option.some.injEq, Prod.mk.injEq] at hs
        obtain ⟨rfl, rfl, rfl⟩ := hs
        exact key (op := fun x y => .U32StoreDivRemFpFp x y d r) rfl (fun _ _ => rfl) hF'
    · simp only [dedupInstr, if_neg h, List.mem_singleton] at hj
      subst hj
      simp only [sources, Option.some.injEq, Prod.mk.injEq] at hs
      obtain ⟨rfl, rfl, rfl⟩ := hs
      exact keyU rfl (by simpa using h) (by omega)
  all_goals
    simp only [dedupInstr, List.mem_singleton] at hj
    subst hj
    simp [sources] at hs

/-- C52 (distinct operands, partial): after the pass the two source operands of every felt or u32 arithmetic or
comparison instruction occupy disjoint cells. Bitwise and double-dereferencing instructions are not covered, see
`C52_violated_bitwise`. -/
theorem C52_distinct_partial (b : Builder) (lo : ℤ) (fp : M31) (w : Window fp lo (dedup b).layout.frame) (hlo : lo ≤ 0)
    (hg : ∀ ib ∈ b.instrs, GoodSlots lo b.layout.frame ib.inner) (ib : IB) (hib : ib ∈ (dedup b).instrs)
    (x y : M31) (n : ℕ) (hs : sources ib.inner = some (x, y, n)) : ∀ c ∈ cells fp x n, c ∉ cells fp y n := by
  unfold dedup at hib
  simp only [List.mem_flatten] at hib
  obtain ⟨js, hjs, hj⟩ := hib
  obtain ⟨k, hk⟩ := List.getElem?_of_mem hjs
  have hlen := dedupChunks_length b.instrs b.layout.frame
  have hk' : k < b.instrs.length := by
    rw [← hlen]; exact (List.getElem?_eq_some_iff.mp hk).1
  obtain ⟨fr, h1, h2, h3⟩ := dedupChunks_get (frame := b.layout.frame) (List.getElem?_eq_getElem hk')
  rw [h3] at hk
  injection hk with hk
  subst hk
  exact dedupInstr_sources w hlo (hg _ (List.getElem_mem hk')) h1 h2 hj hs

/-- Non-vacuity: the square has equal operands before the pass and meets the hypotheses. -/
example : (∀ ib ∈ square.instrs, GoodSlots (-5) square.layout.frame ib.inner) ∧
    Window 10 (-5) (dedup square).layout.frame ∧
    (∃ ib ∈ square.instrs, ∃ x n, sources ib.inner = some (x, x, n)) := by
  refine ⟨fun ib hib a b n hs => ?_, ⟨by decide +kernel, by decide +kernel⟩, ⟨_, by simp [square]; exact .inl rfl, _, _, rfl⟩⟩
  simp only [square, List.mem_cons, List.not_mem_nil, or_false] at hib
  rcases hib with rfl | rfl
  · simp only [sources, Option.some.injEq, Prod.mk.injEq] at hs
    obtain ⟨rfl, rfl, rfl⟩ := hs
    exact ⟨-4, -4, rfl, rfl, by decide +kernel⟩
  · simp [sources] at hs

/-- `fn m(x: u32) -> u32 { return x & x; }` -/
def andSelf : Function :=
  ⟨['m'], [⟨[.BinaryOp .U32BitwiseAnd 1 (.Operand 0) (.Operand 0)], .Return [.Operand 1]⟩], [0], [1], 2,
    types [(0, .U32), (1, .U32)]⟩

/-- The instructions of a compiled module. -/
def codeOf (m : Module) : List Instruction :=
  match compileModule m with
  | .ok c => c.code
  | .error _ => []

/-- **C52 violated** for bitwise instructions: the compiled code of `x & x` has an instruction with twice the same
source operand. -/
theorem C52_violated_bitwise : ∃ a d, Instruction.U32StoreAndFpFp a a d ∈ codeOf [andSelf] :=
  ⟨ofI32 (-6), ofI32 (-4), by decide +kernel⟩

end Codegen
end CairoM
