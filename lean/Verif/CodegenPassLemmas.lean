import Verif.IsaFrame

/-!
# Helper lemmas: the passes over emitted instructions
-/

namespace CairoM
namespace Codegen

open Mir Lang Relation

/-! ### Canonicalisation of immediates -/

theorem val_eq_one {x : M31} (h : x.val = 1) : x = 1 := ZMod.val_injective P (h.trans rfl)

theorem val_eq_zero {x : M31} (h : x.val = 0) : x = 0 := ZMod.val_injective P (h.trans rfl)

theorem canonImm_label (i : IB) : (canonImm i).label = i.label := by
  unfold canonImm
  split
  · split_ifs <;> rfl
  · split_ifs <;> rfl
  · rfl

theorem canonImm_plain (i : IB) : plain (canonImm i).inner = plain i.inner := by
  rcases i with ⟨ins, l⟩
  unfold canonImm
  split
  · rename_i h; dsimp only at h; subst h; split_ifs <;> rfl
  · rename_i h; dsimp only at h; subst h; split_ifs <;> rfl
  · rfl

theorem canonImm_not_plain (i : IB) (h : plain i.inner = false) : canonImm i = i := by
  rcases i with ⟨ins, l⟩
  cases ins <;> first | rfl | cases h

theorem canonImm_sem (i : IB) {pc fp : M31} {m : Isa.Mem} {e : Isa.Effect} (h : Isa.sem i.inner pc fp m = some e) :
    ∃ e', Isa.sem (canonImm i).inner pc fp m = some e' ∧ e'.writes = e.writes ∧ e'.fp = e.fp := by
  rcases i with ⟨ins, l⟩
  dsimp only at h
  unfold canonImm
  split
  · rename_i s imm d hi
    dsimp only at hi
    subst hi
    split_ifs with h1 h0
    · have := val_eq_one h1; subst this
      refine ⟨e, ?_, rfl, rfl⟩
      dsimp only [Isa.sem] at h ⊢
      refine bind_pc h fun x hx => ?_
      rw [add_zero]
      rwa [mul_one] at hx
    · have := val_eq_zero h0; subst this
      dsimp only [Isa.sem] at h ⊢
      simp only [Option.bind_eq_bind, Option.bind_eq_some_iff] at h
      obtain ⟨x, -, hx⟩ := h
      rw [mul_zero] at hx
      obtain ⟨-, hw, -, hf⟩ := done_reads hx
      have hr : Isa.InRange (fp + d) := by
        unfold Isa.done at hx
        split at hx
        · rename_i hall; exact hall (fp + d, 0) (by simp)
        · cases hx
      exact ⟨_, done_one hr, hw.symm, hf.symm⟩
    · exact ⟨e, h, rfl, rfl⟩
  · rename_i s lo hi d hi'
    dsimp only at hi'
    subst hi'
    split_ifs with h1 h0
    · have := val_eq_one h1.1; subst this
      have := val_eq_zero h1.2; subst this
      refine ⟨e, ?_, rfl, rfl⟩
      dsimp only [Isa.sem, Isa.bin32Imm] at h ⊢
      have l1 : Isa.ofLimbs 1 0 = some 1 := by decide +kernel
      have l0 : Isa.ofLimbs 0 0 = some 0 := by decide +kernel
      rw [limbs_bind l1] at h
      rw [limbs_bind l0]
      refine bind_pc h fun x hx => ?_
      rw [Nat.add_zero]
      rwa [Nat.mul_one] at hx
    · have := val_eq_zero h0.1; subst this
      have := val_eq_zero h0.2; subst this
      have l0 : Isa.ofLimbs 0 0 = some 0 := by decide +kernel
      dsimp only [Isa.sem, Isa.bin32Imm] at h ⊢
      rw [limbs_bind l0] at h
      rw [limbs_bind l0]
      simp only [Option.bind_eq_bind, Option.bind_eq_some_iff] at h
      obtain ⟨x, -, hx⟩ := h
      rw [Nat.mul_zero, Nat.zero_mod] at hx
      obtain ⟨-, hw, -, hf⟩ := done_reads hx
      have hx' := done_pc (pc' := pc + 1) hx
      have : Isa.done [] (Isa.split (fp + d) 0) (pc + 1) fp = some ⟨[], Isa.split (fp + d) 0, pc + 1, fp⟩ := by
        unfold Isa.done at hx ⊢
        split at hx
        · rename_i hall; rw [if_pos hall]
        · cases hx
      exact ⟨_, this, hw.symm, hf.symm⟩
    · exact ⟨e, h, rfl, rfl⟩
  · exact ⟨e, h, rfl, rfl⟩

theorem canonImm_step {code : List IB} {tgt : Name → Option ℕ} {fp : M31} {s s' : ℕ × Isa.Mem}
    (h : Step code tgt fp s s') : Step (code.map canonImm) tgt fp s s' := by
  have hget : ∀ {i : ℕ} {ib : IB}, code[i]? = some ib → (code.map canonImm)[i]? = some (canonImm ib) := by
    intro i ib hi; rw [List.getElem?_map, hi]; rfl
  cases h with
  | plain hi hp he =>
    rename_i i ins m e
    obtain ⟨e', h1, h2, h3⟩ := canonImm_sem ⟨ins, none⟩ he
    have hm : e.memory m = e'.memory m := by unfold Isa.Effect.memory; rw [h2]
    rw [hm]
    refine .plain ?_ ((canonImm_plain ⟨ins, none⟩).trans hp) h1
    rw [hget hi]
    generalize hc : canonImm ⟨ins, none⟩ = c
    have hl : c.label = none := by rw [← hc]; exact canonImm_label ⟨ins, none⟩
    rcases c with ⟨ci, cl⟩
    dsimp only at hl
    rw [hl]
  | jump hi hj => exact .jump (by rw [hget hi]; rfl) hj
  | branch hi hx hnz hj => exact .branch (by rw [hget hi]; rfl) hx hnz hj
  | fall hi hx => exact .fall (by rw [hget hi]; rfl) hx

/-! ### De-duplication of operands -/

theorem write_same {fp : M31} {S : ℤ → Prop} {m m₂ : Isa.Mem} (h : SameExcept fp S m m₂) :
    ∀ ws, SameExcept fp S (Isa.write m ws) (Isa.write m₂ ws)
  | [] => h
  | (a, v) :: ws => by
    refine write_same (fun x hx => ?_) ws
    by_cases hxa : x = a
    · subst hxa; simp
    · rw [Function.update_of_ne hxa, Function.update_of_ne hxa]; exact h x hx

/-- The cells of an effect avoid the slots from `lo` to `hi`. -/
def Clear (fp : M31) (lo hi : ℤ) (e : Isa.Effect) : Prop :=
  ∀ a ∈ e.reads ++ e.writes.map Prod.fst, ∀ o, lo ≤ o → o < hi → a ≠ adr fp o

theorem clear_reads {fp : M31} {lo hi : ℤ} {e : Isa.Effect} {m m₂ : Isa.Mem} (hc : Clear fp lo hi e)
    (hs : SameExcept fp (fun o => lo ≤ o ∧ o < hi) m m₂) : ∀ x ∈ e.reads, m₂ x = m x :=
  fun x hx => hs x fun o ho => hc x (List.mem_append_left _ hx) o ho.1 ho.2

/-- A felt instruction with two frame operands whose written cells depend only on the operand values. -/
def FeltPair (op : M31 → M31 → Instruction) : Prop :=
  ∀ {fp a b : M31} {m : Isa.Mem} {e : Isa.Effect}, Isa.sem (op a b) 0 fp m = some e →
    ∃ x y, Isa.felt m (fp + a) = some x ∧ Isa.felt m (fp + b) = some y ∧ e.reads = [fp + a, fp + b] ∧
      ∀ {a' : M31} {m' : Isa.Mem}, Isa.felt m' (fp + a') = some x → Isa.felt m' (fp + b) = some y →
        ∃ e', Isa.sem (op a' b) 0 fp m' = some e' ∧ e'.writes = e.writes

/-- The same for u32 instructions. -/
def U32Pair (op : M31 → M31 → Instruction) : Prop :=
  ∀ {fp a b : M31} {m : Isa.Mem} {e : Isa.Effect}, Isa.sem (op a b) 0 fp m = some e →
    ∃ x y, Isa.u32 m (fp + a) = some x ∧ Isa.u32 m (fp + b) = some y ∧
      e.reads = [fp + a, fp + a + 1, fp + b, fp + b + 1] ∧
      ∀ {a' : M31} {m' : Isa.Mem}, Isa.u32 m' (fp + a') = some x → Isa.u32 m' (fp + b) = some y →
        ∃ e', Isa.sem (op a' b) 0 fp m' = some e' ∧ e'.writes = e.writes

theorem done_other {r r' : List M31} {w : List (M31 × M31)} {pc fp : M31} {e : Isa.Effect}
    (h : Isa.done r w pc fp = some e) : ∃ e', Isa.done r' w pc fp = some e' ∧ e'.writes = e.writes := by
  unfold Isa.done at h ⊢
  by_cases hw : ∀ w' ∈ w, Isa.InRange w'.1
  · rw [if_pos hw] at h ⊢
    injection h with h; subst h; exact ⟨_, rfl, rfl⟩
  · rw [if_neg hw] at h; cases h

theorem feltOp_add (d : M31) : FeltPair (fun a b => .StoreAddFpFp a b d) := by
  intro fp a b m e h
  dsimp only [Isa.sem] at h ⊢
  simp only [Option.bind_eq_bind, Option.bind_eq_some_iff] at h
  obtain ⟨x, hx, y, hy, hd⟩ := h
  refine ⟨x, y, hx, hy, (done_reads hd).1, fun h1 h2 => ?_⟩
  rw [felt_bind h1, felt_bind h2]
  exact done_other hd

theorem feltOp_sub (d : M31) : FeltPair (fun a b => .StoreSubFpFp a b d) := by
  intro fp a b m e h
  dsimp only [Isa.sem] at h ⊢
  simp only [Option.bind_eq_bind, Option.bind_eq_some_iff] at h
  obtain ⟨x, hx, y, hy, hd⟩ := h
  refine ⟨x, y, hx, hy, (done_reads hd).1, fun h1 h2 => ?_⟩
  rw [felt_bind h1, felt_bind h2]
  exact done_other hd

theorem feltOp_mul (d : M31) : FeltPair (fun a b => .StoreMulFpFp a b d) := by
  intro fp a b m e h
  dsimp only [Isa.sem] at h ⊢
  simp only [Option.bind_eq_bind, Option.bind_eq_some_iff] at h
  obtain ⟨x, hx, y, hy, hd⟩ := h
  refine ⟨x, y, hx, hy, (done_reads hd).1, fun h1 h2 => ?_⟩
  rw [felt_bind h1, felt_bind h2]
  exact done_other hd

theorem feltOp_div (d : M31) : FeltPair (fun a b => .StoreDivFpFp a b d) := by
  intro fp a b m e h
  dsimp only [Isa.sem] at h ⊢
  simp only [Option.bind_eq_bind, Option.bind_eq_some_iff] at h
  obtain ⟨x, hx, y, hy, hd⟩ := h
  by_cases h0 : y = 0
  · rw [if_pos h0] at hd; cases hd
  rw [if_neg h0] at hd
  refine ⟨x, y, hx, hy, (done_reads hd).1, fun h1 h2 => ?_⟩
  rw [felt_bind h1, felt_bind h2, if_neg h0]
  exact done_other hd

theorem u32Op_bin {op : M31 → M31 → Instruction} {d : M31} {f : ℕ → ℕ → ℕ}
    (hop : ∀ a b fp m, Isa.sem (op a b) 0 fp m = Isa.bin32 0 fp m a b d f) : U32Pair op := by
  intro fp a b m e h
  rw [hop] at h
  simp only [hop]
  unfold Isa.bin32 at h ⊢
  simp only [Option.bind_eq_bind, Option.bind_eq_some_iff] at h
  obtain ⟨x, hx, y, hy, hd⟩ := h
  refine ⟨x, y, hx, hy, (done_reads hd).1, fun h1 h2 => ?_⟩
  rw [u32_bind h1, u32_bind h2]
  exact done_other hd

theorem u32Op_eq (d : M31) : U32Pair (fun a b => .U32StoreEqFpFp a b d) := by
  intro fp a b m e h
  dsimp only [Isa.sem] at h ⊢
  simp only [Option.bind_eq_bind, Option.bind_eq_some_iff] at h
  obtain ⟨x, hx, y, hy, hd⟩ := h
  refine ⟨x, y, hx, hy, (done_reads hd).1, fun h1 h2 => ?_⟩
  rw [u32_bind h1, u32_bind h2]
  exact done_other hd

theorem u32Op_lt (d : M31) : U32Pair (fun a b => .U32StoreLtFpFp a b d) := by
  intro fp a b m e h
  dsimp only [Isa.sem] at h ⊢
  simp only [Option.bind_eq_bind, Option.bind_eq_some_iff] at h
  obtain ⟨x, hx, y, hy, hd⟩ := h
  refine ⟨x, y, hx, hy, (done_reads hd).1, fun h1 h2 => ?_⟩
  rw [u32_bind h1, u32_bind h2]
  exact done_other hd

theorem u32Op_div (d r : M31) : U32Pair (fun a b => .U32StoreDivRemFpFp a b d r) := by
  intro fp a b m e h
  dsimp only [Isa.sem] at h ⊢
  simp only [Option.bind_eq_bind, Option.bind_eq_some_iff] at h
  obtain ⟨x, hx, y, hy, hd⟩ := h
  by_cases h0 : y = 0
  · rw [if_pos h0] at hd; cases hd
  rw [if_neg h0] at hd
  refine ⟨x, y, hx, hy, (done_reads hd).1, fun h1 h2 => ?_⟩
  rw [u32_bind h1, u32_bind h2, if_neg h0]
  exact done_other hd

/-- The two shapes of a rewritten instruction. -/
theorem dedupInstr_cases (frame : ℕ) (i : IB) :
    dedupInstr frame i = (0, [i]) ∨
    (∃ op a b, FeltPair op ∧ i.inner = op a b ∧ (∀ x, plain (op x b) = true) ∧ a = b ∧
      dedupInstr frame i = (1, [⟨.StoreAddFpImm a 0 (ofI32 frame), none⟩, ⟨op (ofI32 frame) b, none⟩])) ∨
    (∃ op a b, U32Pair op ∧ i.inner = op a b ∧ (∀ x, plain (op x b) = true) ∧
      dedupInstr frame i = (2, [⟨.U32StoreAddFpImm a 0 0 (ofI32 frame), none⟩, ⟨op (ofI32 frame) b, none⟩])) := by
  rcases i with ⟨ins, l⟩
  cases ins
  case StoreAddFpFp a b d =>
    by_cases h : a = b
    · exact .inr (.inl ⟨_, a, b, feltOp_add d, rfl, fun _ => rfl, h, by simp [dedupInstr, h]⟩)
    · exact .inl (by simp [dedupInstr, h])
  case StoreSubFpFp a b d =>
    by_cases h : a = b
    · exact .inr (.inl ⟨_, a, b, feltOp_sub d, rfl, fun _ => rfl, h, by simp [dedupInstr, h]⟩)
    · exact .inl (by simp [dedupInstr, h])
  case StoreMulFpFp a b d =>
    by_cases h : a = b
    · exact .inr (.inl ⟨_, a, b, feltOp_mul d, rfl, fun _ => rfl, h, by simp [dedupInstr, h]⟩)
    · exact .inl (by simp [dedupInstr, h])
  case StoreDivFpFp a b d =>
    by_cases h : a = b
    · exact .inr (.inl ⟨_, a, b, feltOp_div d, rfl, fun _ => rfl, h, by simp [dedupInstr, h]⟩)
    · exact .inl (by simp [dedupInstr, h])
  case U32StoreAddFpFp a b d =>
    by_cases h : u32Overlap a b = true
    · exact .inr (.inr ⟨_, a, b, u32Op_bin (op := fun a b => .U32StoreAddFpFp a b d) fun _ _ _ _ => rfl, rfl,
        fun _ => rfl, by simp [dedupInstr, h]⟩)
    · exact .inl (by simp [dedupInstr, h])
  case U32StoreSubFpFp a b d =>
    by_cases h : u32Overlap a b = true
    · exact .inr (.inr ⟨_, a, b, u32Op_bin (op := fun a b => .U32StoreSubFpFp a b d) fun _ _ _ _ => rfl, rfl,
        fun _ => rfl, by simp [dedupInstr, h]⟩)
    · exact .inl (by simp [dedupInstr, h])
  case U32StoreMulFpFp a b d =>
    by_cases h : u32Overlap a b = true
    · exact .inr (.inr ⟨_, a, b, u32Op_bin (op := fun a b => .U32StoreMulFpFp a b d) fun _ _ _ _ => rfl, rfl,
        fun _ => rfl, by simp [dedupInstr, h]⟩)
    · exact .inl (by simp [dedupInstr, h])
  case U32StoreEqFpFp a b d =>
    by_cases h : u32Overlap a b = true
    · exact .inr (.inr ⟨_, a, b, u32Op_eq d, rfl, fun _ => rfl, by simp [dedupInstr, h]⟩)
    · exact .inl (by simp [dedupInstr, h])
  case U32StoreLtFpFp a b d =>
    by_cases h : u32Overlap a b = true
    · exact .inr (.inr ⟨_, a, b, u32Op_lt d, rfl, fun _ => rfl, by simp [dedupInstr, h]⟩)
    · exact .inl (by simp [dedupInstr, h])
  case U32StoreDivRemFpFp a b d r =>
    by_cases h : u32Overlap a b = true
    · exact .inr (.inr ⟨_, a, b, u32Op_div d r, rfl, fun _ => rfl, by simp [dedupInstr, h]⟩)
    · exact .inl (by simp [dedupInstr, h])
  all_goals exact .inl rfl

theorem chunkStart_succ {cs : List (List IB)} {i : ℕ} {js : List IB} (h : cs[i]? = some js) :
    chunkStart cs (i + 1) = chunkStart cs i + js.length := by
  unfold chunkStart
  rw [List.take_add_one, h]
  simp

theorem chunk_get {cs : List (List IB)} {i k : ℕ} {js : List IB} (h : cs[i]? = some js) (hk : k < js.length) :
    cs.flatten[chunkStart cs i + k]? = js[k]? := by
  obtain ⟨hi, hj⟩ := List.getElem?_eq_some_iff.mp h
  have hsplit : cs = cs.take i ++ js :: cs.drop (i + 1) := by
    rw [← hj, List.getElem_cons_drop, List.take_append_drop]
  unfold chunkStart
  have : cs.flatten = (cs.take i).flatten ++ (js ++ (cs.drop (i + 1)).flatten) := by
    conv_lhs => rw [hsplit]
    simp
  rw [this, List.getElem?_append_right (by omega)]
  rw [List.getElem?_append_left (by omega)]
  congr 1
  omega

theorem dedupChunks_le : ∀ (is : List IB) (frame : ℕ), frame ≤ (dedupChunks frame is).1
  | [], _ => le_rfl
  | i :: is, frame => by
    have := dedupChunks_le is (frame + (dedupInstr frame i).1)
    simp only [dedupChunks]
    omega

theorem dedupChunks_get : ∀ {is : List IB} {frame i : ℕ} {ib : IB}, is[i]? = some ib →
    ∃ fr, frame ≤ fr ∧ fr + (dedupInstr fr ib).1 ≤ (dedupChunks frame is).1 ∧
      (dedupChunks frame is).2[i]? = some (dedupInstr fr ib).2
  | [], _, _, _, h => by simp at h
  | j :: is, frame, 0, ib, h => by
    simp only [List.getElem?_cons_zero, Option.some.injEq] at h
    subst h
    exact ⟨frame, le_rfl, dedupChunks_le _ _, rfl⟩
  | j :: is, frame, i + 1, ib, h => by
    rw [List.getElem?_cons_succ] at h
    obtain ⟨fr, h1, h2, h3⟩ := dedupChunks_get (frame := frame + (dedupInstr frame j).1) h
    exact ⟨fr, by omega, h2, by simpa [dedupChunks] using h3⟩

theorem dedupChunks_length : ∀ (is : List IB) (frame : ℕ), (dedupChunks frame is).2.length = is.length
  | [], _ => rfl
  | i :: is, frame => by simp [dedupChunks, dedupChunks_length is]

theorem u32_bound {m : Isa.Mem} {a : M31} {x : ℕ} (h : Isa.u32 m a = some x) : x < 2 ^ 32 := by
  unfold Isa.u32 at h
  simp only [Option.bind_eq_bind, Option.bind_eq_some_iff] at h
  obtain ⟨lo, -, hi, -, h⟩ := h
  unfold Isa.ofLimbs at h
  split at h
  · injection h with h; omega
  · cases h

/-- The rewritten instruction computes the same on memories that differ in temporaries. -/
theorem dedup_plain {code : List IB} {tgt : Name → Option ℕ} {fp : M31} {F F' fr k : ℕ} {ins : Instruction}
    {m m₂ : Isa.Mem} {e : Isa.Effect} (w : Window fp F F') (hpr : isPrint ins = false)
    (hp : plain ins = true) (he : Isa.sem ins 0 fp m = some e) (hc : Clear fp F F' e)
    (h1 : F ≤ fr) (h2 : fr + (dedupInstr fr ⟨ins, none⟩).1 ≤ F')
    (hget : ∀ j < (dedupInstr fr ⟨ins, none⟩).2.length, code[k + j]? = (dedupInstr fr ⟨ins, none⟩).2[j]?)
    (hs : SameExcept fp (fun o => (F : ℤ) ≤ o ∧ o < F') m m₂) :
    ∃ m₂', Runs code tgt fp (k, m₂) (k + (dedupInstr fr ⟨ins, none⟩).2.length, m₂') ∧
      SameExcept fp (fun o => (F : ℤ) ≤ o ∧ o < F') (e.memory m) m₂' := by
  have hrd := clear_reads hc hs
  rcases dedupInstr_cases fr ⟨ins, none⟩ with hd | ⟨op, a, b, hop, hi, hpl, hab, hd⟩ | ⟨op, a, b, hop, hi, hpl, hd⟩
  · rw [hd] at hget ⊢
    refine ⟨_, runs_plain (i := k) (hget 0 (by simp)) hp (sem_congr hpr he hrd), write_same hs _⟩
  · rw [hd] at hget h2 ⊢
    dsimp only at hi h2
    subst hi
    obtain ⟨x, y, hx, hy, hr, hnext⟩ := hop he
    have ht : F ≤ (fr : ℤ) ∧ (fr : ℤ) < F' := by omega
    have r0 := w.inRange ht.1 ht.2
    have hx2 : Isa.felt m₂ (fp + a) = some x := (felt_congr (hrd _ (by rw [hr]; simp))).trans hx
    have hy2 : Isa.felt m₂ (fp + b) = some y := (felt_congr (hrd _ (by rw [hr]; simp))).trans hy
    have hbt : fp + b ≠ adr fp fr := hc _ (by rw [hr]; simp) _ ht.1 ht.2
    have hcopy := sem_addImm (pc := 0) (m := m₂) (imm := 0) rfl (adr_ofI32 fp (fr : ℤ)) hx2 r0
    rw [add_zero] at hcopy
    have hm : (⟨[fp + a], [(adr fp fr, x)], 0 + 1, fp⟩ : Isa.Effect).memory m₂ = put m₂ (adr fp fr) x := rfl
    obtain ⟨e', he', hw⟩ := hnext (a' := ofI32 fr) (m' := put m₂ (adr fp fr) x)
      (by rw [adr_ofI32]; exact felt_put_same r0) (by rw [felt_put_ne hbt]; exact hy2)
    have s1 := runs_plain (tgt := tgt) (hget 0 (by simp)) rfl hcopy
    rw [hm] at s1
    have s2 := runs_plain (tgt := tgt) (hget 1 (by simp)) (hpl _) he'
    refine ⟨_, s1.trans s2, ?_⟩
    unfold Isa.Effect.memory
    rw [hw]
    exact write_same (hs.trans (SameExcept.put ht)) _
  · rw [hd] at hget h2 ⊢
    dsimp only at hi h2
    subst hi
    obtain ⟨x, y, hx, hy, hr, hnext⟩ := hop he
    have ht : F ≤ (fr : ℤ) ∧ (fr : ℤ) < F' := by omega
    have ht1 : F ≤ (fr : ℤ) + 1 ∧ (fr : ℤ) + 1 < F' := by omega
    have r0 := w.inRange ht.1 ht.2
    have r1 := w.inRange ht1.1 ht1.2
    rw [adr_succ] at r1
    have hx2 : Isa.u32 m₂ (fp + a) = some x :=
      (u32_congr (hrd _ (by rw [hr]; simp)) (hrd _ (by rw [hr]; simp))).trans hx
    have hy2 : Isa.u32 m₂ (fp + b) = some y :=
      (u32_congr (hrd _ (by rw [hr]; simp)) (hrd _ (by rw [hr]; simp))).trans hy
    have hxr : x < 2 ^ 32 := u32_bound hx
    have hcopy := sem_u32AddImm (pc := 0) (m := m₂) (lo := 0) (hi := 0) (k := 0) rfl (adr_ofI32 fp (fr : ℤ)) hx2
      (by decide +kernel) r0 r1
    rw [Nat.add_zero, Nat.mod_eq_of_lt hxr] at hcopy
    have s1 := runs_plain (tgt := tgt) (hget 0 (by simp)) rfl hcopy
    have hh := holds_split (m := m₂) w ht.1 (by omega) hxr
    have hsame : SameExcept fp (fun o => (F : ℤ) ≤ o ∧ o < F') m₂ (Isa.write m₂ (Isa.split (adr fp fr) x)) :=
      same_split ht ht1
    have hyb : Isa.u32 (Isa.write m₂ (Isa.split (adr fp fr) x)) (fp + b) = some y := by
      rw [u32_congr (m := m₂) ?_ ?_]
      · exact hy2
      · exact hsame _ fun o ho => hc _ (by rw [hr]; simp) o ho.1 ho.2
      · exact hsame _ fun o ho => hc _ (by rw [hr]; simp) o ho.1 ho.2
    obtain ⟨e', he', hw⟩ := hnext (a' := ofI32 fr) (m' := Isa.write m₂ (Isa.split (adr fp fr) x))
      (by rw [adr_ofI32]; exact hh) hyb
    have s2 := runs_plain (tgt := tgt) (hget 1 (by simp)) (hpl _) he'
    refine ⟨_, s1.trans s2, ?_⟩
    unfold Isa.Effect.memory
    rw [hw]
    exact write_same (hs.trans hsame) _

end Codegen
end CairoM
