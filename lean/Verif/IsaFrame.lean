import Verif.CodegenIsa

/-!
# Helper lemmas: what the meaning of an instruction depends on

An effect is determined by the cells it lists as read, the program counter only enters through relative
addressing.
-/

namespace CairoM
namespace Codegen

open Mir Lang Relation

/-- Debugging instructions (they inspect cells without listing them as read). -/
def isPrint : Instruction → Bool
  | .PrintM31 _ | .PrintU32 _ => true
  | _ => false

theorem done_reads {r : List M31} {w : List (M31 × M31)} {pc fp : M31} {e : Isa.Effect}
    (h : Isa.done r w pc fp = some e) : e.reads = r ∧ e.writes = w ∧ e.pc = pc ∧ e.fp = fp := by
  unfold Isa.done at h
  split at h
  · injection h with h; subst h; exact ⟨rfl, rfl, rfl, rfl⟩
  · cases h

theorem u32_congr {m m₂ : Isa.Mem} {a : M31} (h : m₂ a = m a) (h1 : m₂ (a + 1) = m (a + 1)) :
    Isa.u32 m₂ a = Isa.u32 m a := by
  unfold Isa.u32
  rw [felt_congr h, felt_congr h1]

theorem bin32_congr {pc fp : M31} {m m₂ : Isa.Mem} {a b d : M31} {f : ℕ → ℕ → ℕ} {e : Isa.Effect}
    (h : Isa.bin32 pc fp m a b d f = some e) (hag : ∀ x ∈ e.reads, m₂ x = m x) :
    Isa.bin32 pc fp m₂ a b d f = some e := by
  unfold Isa.bin32 at h ⊢
  simp only [Option.bind_eq_bind, Option.bind_eq_some_iff] at h ⊢
  obtain ⟨x, hx, y, hy, hd⟩ := h
  have hr := (done_reads hd).1
  rw [hr] at hag
  exact ⟨x, by rw [u32_congr (hag _ (by simp)) (hag _ (by simp)), hx], y,
    by rw [u32_congr (hag _ (by simp)) (hag _ (by simp)), hy], hd⟩

theorem bin32Imm_congr {pc fp : M31} {m m₂ : Isa.Mem} {a lo hi d : M31} {f : ℕ → ℕ → ℕ} {e : Isa.Effect}
    (h : Isa.bin32Imm pc fp m a lo hi d f = some e) (hag : ∀ x ∈ e.reads, m₂ x = m x) :
    Isa.bin32Imm pc fp m₂ a lo hi d f = some e := by
  unfold Isa.bin32Imm at h ⊢
  simp only [Option.bind_eq_bind, Option.bind_eq_some_iff] at h ⊢
  obtain ⟨y, hy, x, hx, hd⟩ := h
  have hr := (done_reads hd).1
  rw [hr] at hag
  exact ⟨y, hy, x, by rw [u32_congr (hag _ (by simp)) (hag _ (by simp)), hx], hd⟩

section

variable {α : Type} {m m₂ : Isa.Mem} {e : Isa.Effect}

theorem felt_bind_congr {p : M31} {k k₂ : M31 → Option Isa.Effect}
    (h : (Isa.felt m p >>= k) = some e) (hk : ∀ x, k x = some e → p ∈ e.reads ∧ k₂ x = some e)
    (hag : ∀ x ∈ e.reads, m₂ x = m x) : (Isa.felt m₂ p >>= k₂) = some e := by
  simp only [Option.bind_eq_bind, Option.bind_eq_some_iff] at h ⊢
  obtain ⟨x, hx, hd⟩ := h
  obtain ⟨hm, h2⟩ := hk x hd
  exact ⟨x, (felt_congr (hag _ hm)).trans hx, h2⟩

theorem u32_bind_congr {p : M31} {k k₂ : ℕ → Option Isa.Effect}
    (h : (Isa.u32 m p >>= k) = some e) (hk : ∀ x, k x = some e → (p ∈ e.reads ∧ p + 1 ∈ e.reads) ∧ k₂ x = some e)
    (hag : ∀ x ∈ e.reads, m₂ x = m x) : (Isa.u32 m₂ p >>= k₂) = some e := by
  simp only [Option.bind_eq_bind, Option.bind_eq_some_iff] at h ⊢
  obtain ⟨x, hx, hd⟩ := h
  obtain ⟨hm, h2⟩ := hk x hd
  exact ⟨x, (u32_congr (hag _ hm.1) (hag _ hm.2)).trans hx, h2⟩

end

theorem mem_of_done {r : List M31} {w : List (M31 × M31)} {pc fp p : M31} {e : Isa.Effect}
    (h : Isa.done r w pc fp = some e) (hp : p ∈ r) : p ∈ e.reads := by rw [(done_reads h).1]; exact hp

/-- An instruction has the same effect in every memory with the same contents in the cells it reads. -/
theorem sem_congr {i : Instruction} {pc fp : M31} {m m₂ : Isa.Mem} {e : Isa.Effect} (hi : isPrint i = false)
    (h : Isa.sem i pc fp m = some e) (hag : ∀ x ∈ e.reads, m₂ x = m x) : Isa.sem i pc fp m₂ = some e := by
  cases i
  case U32StoreAddFpFp => exact bin32_congr h hag
  case U32StoreSubFpFp => exact bin32_congr h hag
  case U32StoreMulFpFp => exact bin32_congr h hag
  case U32StoreAndFpFp => exact bin32_congr h hag
  case U32StoreOrFpFp => exact bin32_congr h hag
  case U32StoreXorFpFp => exact bin32_congr h hag
  case U32StoreAddFpImm => exact bin32Imm_congr h hag
  case U32StoreMulFpImm => exact bin32Imm_congr h hag
  case U32StoreAndFpImm => exact bin32Imm_congr h hag
  case U32StoreOrFpImm => exact bin32Imm_congr h hag
  case U32StoreXorFpImm => exact bin32Imm_congr h hag
  case PrintM31 => cases hi
  case PrintU32 => cases hi
  case CallAbsImm => exact h
  case JmpAbsImm => exact h
  case JmpRelImm => exact h
  case StoreImm => exact h
  case StoreFramePointer => exact h
  case U32StoreImm => exact h
  case U32StoreEqFpFp | U32StoreLtFpFp =>
    dsimp only [Isa.sem] at h ⊢
    refine u32_bind_congr h (fun x hx => ?_) hag
    have h2 := hx
    simp only [Option.bind_eq_bind, Option.bind_eq_some_iff] at h2
    obtain ⟨y, -, hd⟩ := h2
    refine ⟨⟨mem_of_done hd (by simp), mem_of_done hd (by simp)⟩,
      u32_bind_congr hx (fun z hz => ⟨⟨mem_of_done hz (by simp), mem_of_done hz (by simp)⟩, hz⟩) hag⟩
  case U32StoreDivRemFpFp =>
    dsimp only [Isa.sem] at h ⊢
    refine u32_bind_congr h (fun x hx => ?_) hag
    have h2 := hx
    simp only [Option.bind_eq_bind, Option.bind_eq_some_iff] at h2
    obtain ⟨y, -, hd⟩ := h2
    have hd' : ∀ {z : ℕ} {α : Option Isa.Effect}, (if z = 0 then none else α) = some e → α = some e := by
      intro z α hz; split at hz
      · cases hz
      · exact hz
    refine ⟨⟨mem_of_done (hd' hd) (by simp), mem_of_done (hd' hd) (by simp)⟩,
      u32_bind_congr hx (fun z hz => ⟨⟨mem_of_done (hd' hz) (by simp), mem_of_done (hd' hz) (by simp)⟩, hz⟩) hag⟩
  case U32StoreEqFpImm | U32StoreLtFpImm =>
    dsimp only [Isa.sem] at h ⊢
    simp only [Option.bind_eq_bind, Option.bind_eq_some_iff] at h ⊢
    obtain ⟨y, hy, x, hx, hd⟩ := h
    exact ⟨y, hy, x, by rw [u32_congr (hag _ (mem_of_done hd (by simp))) (hag _ (mem_of_done hd (by simp))), hx], hd⟩
  case U32StoreDivRemFpImm =>
    dsimp only [Isa.sem] at h ⊢
    simp only [Option.bind_eq_bind, Option.bind_eq_some_iff] at h ⊢
    obtain ⟨y, hy, x, hx, hd⟩ := h
    have hd' := hd
    split at hd'
    · cases hd'
    · exact ⟨y, hy, x,
        by rw [u32_congr (hag _ (mem_of_done hd' (by simp))) (hag _ (mem_of_done hd' (by simp))), hx], hd⟩
  case StoreAddFpFp | StoreSubFpFp | StoreMulFpFp | StoreToDoubleDerefFpImm | Ret =>
    dsimp only [Isa.sem] at h ⊢
    refine felt_bind_congr h (fun x hx => ?_) hag
    have h2 := hx
    simp only [Option.bind_eq_bind, Option.bind_eq_some_iff] at h2
    obtain ⟨y, -, hd⟩ := h2
    exact ⟨mem_of_done hd (by simp), felt_bind_congr hx (fun z hz => ⟨mem_of_done hz (by simp), hz⟩) hag⟩
  case StoreDivFpFp =>
    dsimp only [Isa.sem] at h ⊢
    refine felt_bind_congr h (fun x hx => ?_) hag
    have h2 := hx
    simp only [Option.bind_eq_bind, Option.bind_eq_some_iff] at h2
    obtain ⟨y, -, hd⟩ := h2
    have hd' : ∀ {z : M31} {α : Option Isa.Effect}, (if z = 0 then none else α) = some e → α = some e := by
      intro z α hz; split at hz
      · cases hz
      · exact hz
    exact ⟨mem_of_done (hd' hd) (by simp), felt_bind_congr hx (fun z hz => ⟨mem_of_done (hd' hz) (by simp), hz⟩) hag⟩
  case StoreAddFpImm | StoreMulFpImm | StoreLeFpImm =>
    dsimp only [Isa.sem] at h ⊢
    exact felt_bind_congr h (fun x hx => ⟨mem_of_done hx (by simp), hx⟩) hag
  case JnzFpImm =>
    dsimp only [Isa.sem] at h ⊢
    exact felt_bind_congr h (fun x hx => ⟨mem_of_done hx (by simp), hx⟩) hag
  case AssertEqFpImm =>
    dsimp only [Isa.sem] at h ⊢
    refine felt_bind_congr h (fun x hx => ⟨?_, hx⟩) hag
    split at hx
    · exact mem_of_done hx (by simp)
    · cases hx
  case StoreDoubleDerefFp =>
    dsimp only [Isa.sem] at h ⊢
    refine felt_bind_congr h (fun x hx => ?_) hag
    have h2 := hx
    simp only [Option.bind_eq_bind, Option.bind_eq_some_iff] at h2
    obtain ⟨y, -, hd⟩ := h2
    exact ⟨mem_of_done hd (by simp), felt_bind_congr hx (fun z hz => ⟨mem_of_done hz (by simp), hz⟩) hag⟩
  case StoreDoubleDerefFpFp | StoreToDoubleDerefFpFp =>
    dsimp only [Isa.sem] at h ⊢
    refine felt_bind_congr h (fun x hx => ?_) hag
    have h2 := hx
    simp only [Option.bind_eq_bind, Option.bind_eq_some_iff] at h2
    obtain ⟨y, -, z, -, hd⟩ := h2
    refine ⟨mem_of_done hd (by simp), felt_bind_congr hx (fun y hy => ?_) hag⟩
    have h3 := hy
    simp only [Option.bind_eq_bind, Option.bind_eq_some_iff] at h3
    obtain ⟨z, -, hd⟩ := h3
    exact ⟨mem_of_done hd (by simp), felt_bind_congr hy (fun z hz => ⟨mem_of_done hz (by simp), hz⟩) hag⟩

theorem size_one {i : Instruction} (h : decide (i.sizeInM31s ≤ 4) = true) : i.sizeInQM31s = 1 := by
  have h := of_decide_eq_true h
  have : 1 ≤ i.sizeInM31s := by cases i <;> simp [Instruction.sizeInM31s]
  unfold Instruction.sizeInQM31s Instruction.divCeil4
  omega

theorem size_two {i : Instruction} (h : decide (4 < i.sizeInM31s) = true) : i.sizeInQM31s = 2 := by
  have h := of_decide_eq_true h
  have : i.sizeInM31s ≤ 8 := by cases i <;> simp [Instruction.sizeInM31s]
  unfold Instruction.sizeInQM31s Instruction.divCeil4
  omega

theorem done_pc {r : List M31} {w : List (M31 × M31)} {pc pc' fp : M31} {e : Isa.Effect}
    (h : Isa.done r w pc fp = some e) : Isa.done r w pc' fp = some ⟨e.reads, e.writes, pc', fp⟩ := by
  unfold Isa.done at h ⊢
  by_cases hw : ∀ w' ∈ w, Isa.InRange w'.1
  · rw [if_pos hw] at h ⊢
    injection h with h; subst h; rfl
  · rw [if_neg hw] at h; cases h

theorem bind_pc {α : Type} {o : Option α} {k k' : α → Option Isa.Effect} {e e' : Isa.Effect}
    (h : (o >>= k) = some e) (hk : ∀ x, k x = some e → k' x = some e') : (o >>= k') = some e' := by
  cases o with
  | none => cases h
  | some x => exact hk x h

theorem ite_pc {c : Prop} [Decidable c] {a a' : Option Isa.Effect} {e e' : Isa.Effect}
    (h : (if c then none else a) = some e) (hk : a = some e → a' = some e') : (if c then none else a') = some e' := by
  split at h
  · cases h
  · rename_i hc; rw [if_neg hc]; exact hk h

theorem ite_pc' {c : Prop} [Decidable c] {a a' : Option Isa.Effect} {e e' : Isa.Effect}
    (h : (if c then a else none) = some e) (hk : a = some e → a' = some e') : (if c then a' else none) = some e' := by
  split at h
  · rename_i hc; rw [if_pos hc]; exact hk h
  · cases h

/-- An instruction that is not a jump, call or return has the same effect at every program counter and is
followed by the next instruction. -/
theorem sem_pc {i : Instruction} {pc0 pc fp : M31} {m : Isa.Mem} {e : Isa.Effect} (hp : plain i = true)
    (h : Isa.sem i pc0 fp m = some e) :
    Isa.sem i pc fp m = some ⟨e.reads, e.writes, pc + (i.sizeInQM31s : ℕ), fp⟩ := by
  have one : ((1 : ℕ) : M31) = 1 := Nat.cast_one
  have two : ((2 : ℕ) : M31) = 2 := rfl
  cases i
  case JmpAbsImm => cases hp
  case JmpRelImm => cases hp
  case JnzFpImm => cases hp
  case CallAbsImm => cases hp
  case Ret => cases hp
  case U32StoreAddFpFp | U32StoreSubFpFp | U32StoreMulFpFp | U32StoreAndFpFp | U32StoreOrFpFp | U32StoreXorFpFp =>
    dsimp only [Isa.sem, Isa.bin32] at h ⊢
    rw [size_one rfl, one]
    exact bind_pc h fun x hx => bind_pc hx fun y hy => done_pc hy
  case U32StoreAddFpImm | U32StoreMulFpImm | U32StoreAndFpImm | U32StoreOrFpImm | U32StoreXorFpImm =>
    dsimp only [Isa.sem, Isa.bin32Imm] at h ⊢
    rw [size_two rfl, two]
    exact bind_pc h fun x hx => bind_pc hx fun y hy => done_pc hy
  case StoreAddFpFp | StoreSubFpFp | StoreMulFpFp | StoreDoubleDerefFp | StoreToDoubleDerefFpImm | U32StoreEqFpFp |
      U32StoreLtFpFp =>
    dsimp only [Isa.sem] at h ⊢
    rw [size_one rfl, one]
    exact bind_pc h fun x hx => bind_pc hx fun y hy => done_pc hy
  case U32StoreEqFpImm | U32StoreLtFpImm =>
    dsimp only [Isa.sem] at h ⊢
    rw [size_two rfl, two]
    exact bind_pc h fun x hx => bind_pc hx fun y hy => done_pc hy
  case StoreDoubleDerefFpFp | StoreToDoubleDerefFpFp =>
    dsimp only [Isa.sem] at h ⊢
    rw [size_one rfl, one]
    exact bind_pc h fun x hx => bind_pc hx fun y hy => bind_pc hy fun z hz => done_pc hz
  case StoreAddFpImm | StoreMulFpImm | StoreLeFpImm | U32StoreImm | PrintM31 | PrintU32 =>
    dsimp only [Isa.sem] at h ⊢
    rw [size_one rfl, one]
    exact bind_pc h fun x hx => done_pc hx
  case StoreImm | StoreFramePointer =>
    dsimp only [Isa.sem] at h ⊢
    rw [size_one rfl, one]
    exact done_pc h
  case AssertEqFpImm =>
    dsimp only [Isa.sem] at h ⊢
    rw [size_one rfl, one]
    exact bind_pc h fun x hx => ite_pc' hx done_pc
  case StoreDivFpFp =>
    dsimp only [Isa.sem] at h ⊢
    rw [size_one rfl, one]
    exact bind_pc h fun x hx => bind_pc hx fun y hy => ite_pc hy done_pc
  case U32StoreDivRemFpFp =>
    dsimp only [Isa.sem] at h ⊢
    rw [size_two rfl, two]
    exact bind_pc h fun x hx => bind_pc hx fun y hy => ite_pc hy done_pc
  case U32StoreDivRemFpImm =>
    dsimp only [Isa.sem] at h ⊢
    rw [size_two rfl, two]
    exact bind_pc h fun x hx => bind_pc hx fun y hy => ite_pc hy done_pc


end Codegen
end CairoM
