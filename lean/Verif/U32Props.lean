import Verif.VMProps

/-!
# Property C11: u32 instructions are exact 32-bit unsigned arithmetic

The specification side is `BitVec 32`.
-/

namespace CairoM

open Memory

/-- The binary u32 operations. -/
inductive U32Op where
  | add | sub | mul | and | or | xor
deriving DecidableEq

namespace U32Op

/-- What each operation computes. -/
def eval : U32Op → BitVec 32 → BitVec 32 → BitVec 32
  | add, x, y => x + y
  | sub, x, y => x - y
  | mul, x, y => x * y
  | and, x, y => x &&& y
  | or, x, y => x ||| y
  | xor, x, y => x ^^^ y

/-- The instruction with two memory operands. -/
def fpFp : U32Op → M31 → M31 → M31 → Instruction
  | add => .U32StoreAddFpFp
  | sub => .U32StoreSubFpFp
  | mul => .U32StoreMulFpFp
  | and => .U32StoreAndFpFp
  | or => .U32StoreOrFpFp
  | xor => .U32StoreXorFpFp

/-- The instruction with an immediate (there is none for subtraction). -/
def fpImm : U32Op → Option (M31 → M31 → M31 → M31 → Instruction)
  | add => some .U32StoreAddFpImm
  | sub => none
  | mul => some .U32StoreMulFpImm
  | and => some .U32StoreAndFpImm
  | or => some .U32StoreOrFpImm
  | xor => some .U32StoreXorFpImm

end U32Op

theorem ne_add_one (a : M31) : a ≠ a + 1 := by
  intro h
  have : (1 : M31) = 0 := by simpa using h.symm
  exact absurd this (by decide)

theorem isa_ofLimbs_split {n : ℕ} (h : n < 2 ^ 32) :
    Isa.ofLimbs ((n % 2 ^ 16 : ℕ) : M31) ((n / 2 ^ 16 : ℕ) : M31) = some n := by
  have h1 : ((n % 2 ^ 16 : ℕ) : M31).val = n % 2 ^ 16 := ZMod.val_natCast_of_lt (by unfold P; omega)
  have h2 : ((n / 2 ^ 16 : ℕ) : M31).val = n / 2 ^ 16 := ZMod.val_natCast_of_lt (by unfold P; omega)
  unfold Isa.ofLimbs
  rw [h1, h2, if_pos (by omega)]
  congr 1
  omega

/-- Reading back a u32 that was written (later writes elsewhere do not matter). -/
theorem u32_write {mem : Isa.Mem} {pre post : List (M31 × M31)} {a : M31} {n : ℕ} (hn : n < 2 ^ 32)
    (h0 : Isa.InRange a) (h1 : Isa.InRange (a + 1)) (hp0 : a ∉ post.map Prod.fst)
    (hp1 : a + 1 ∉ post.map Prod.fst) :
    Isa.u32 (Isa.write mem (pre ++ (Isa.split a n ++ post))) a = some n := by
  have e0 : Isa.write mem (pre ++ (Isa.split a n ++ post)) a = ⟨((n % 2 ^ 16 : ℕ) : M31), 0, 0, 0⟩ := by
    apply write_last _ _ _ _ ((a + 1, ((n / 2 ^ 16 : ℕ) : M31)) :: post) pre
    · rfl
    · simp only [List.map_cons, List.mem_cons, not_or]; exact ⟨ne_add_one a, hp0⟩
  have e1 : Isa.write mem (pre ++ (Isa.split a n ++ post)) (a + 1) = ⟨((n / 2 ^ 16 : ℕ) : M31), 0, 0, 0⟩ := by
    apply write_last _ _ _ _ post (pre ++ [(a, ((n % 2 ^ 16 : ℕ) : M31))])
    · simp [Isa.split]
    · exact hp1
  have f0 : Isa.felt (Isa.write mem (pre ++ (Isa.split a n ++ post))) a = some ((n % 2 ^ 16 : ℕ) : M31) := by
    rw [Isa.felt, e0, if_pos ⟨h0, rfl, rfl, rfl⟩]
  have f1 : Isa.felt (Isa.write mem (pre ++ (Isa.split a n ++ post))) (a + 1) =
      some ((n / 2 ^ 16 : ℕ) : M31) := by
    rw [Isa.felt, e1, if_pos ⟨h1, rfl, rfl, rfl⟩]
  unfold Isa.u32
  rw [f0, Option.bind_eq_bind, Option.bind_some, f1, Option.bind_some]
  exact isa_ofLimbs_split hn

/-- Run an instruction whose reference effect is known. -/
theorem run_of_sem {i : Instruction} {s : State} {m : Memory} {e : Isa.Effect}
    (he : Isa.sem i s.pc s.fp m.view = some e) :
    ∃ m', execInstr i s m = .ok ⟨e.pc, e.fp⟩ m' ∧ m'.view = Isa.write m.view e.writes := by
  obtain ⟨h1, h2⟩ := agrees_some (exec_agrees i s m) he
  exact ⟨_, h1, by rw [view_log, view_storeAll _ _ h2]⟩

theorem done_pos {r : List M31} {w : List (M31 × M31)} {pc fp : M31} (h : ∀ x ∈ w, Isa.InRange x.1) :
    Isa.done r w pc fp = some ⟨r, w, pc, fp⟩ := by
  unfold Isa.done; rw [if_pos h]

theorem split_inRange {a : M31} {n : ℕ} (h0 : Isa.InRange a) (h1 : Isa.InRange (a + 1)) :
    ∀ x ∈ Isa.split a n, Isa.InRange x.1 := by
  intro x hx
  simp only [Isa.split, List.mem_cons, List.not_mem_nil, or_false] at hx
  rcases hx with rfl | rfl
  · exact h0
  · exact h1

/-- The numeric function used by the reference semantics. -/
def U32Op.nat : U32Op → ℕ → ℕ → ℕ
  | .add => fun x y => (x + y) % 2 ^ 32
  | .sub => fun x y => (x + 2 ^ 32 - y) % 2 ^ 32
  | .mul => fun x y => (x * y) % 2 ^ 32
  | .and => Nat.land
  | .or => Nat.lor
  | .xor => Nat.xor

theorem U32Op.nat_eq (op : U32Op) {x y : ℕ} (hx : x < 2 ^ 32) (hy : y < 2 ^ 32) :
    op.nat x y = (op.eval (BitVec.ofNat 32 x) (BitVec.ofNat 32 y)).toNat := by
  have ex : x % 2 ^ 32 = x := Nat.mod_eq_of_lt hx
  have ey : y % 2 ^ 32 = y := Nat.mod_eq_of_lt hy
  cases op
  · simp only [U32Op.nat, U32Op.eval, BitVec.toNat_add, BitVec.toNat_ofNat, ex, ey]
  · simp only [U32Op.nat, U32Op.eval, BitVec.toNat_sub, BitVec.toNat_ofNat, ex, ey]
    congr 1; omega
  · simp only [U32Op.nat, U32Op.eval, BitVec.toNat_mul, BitVec.toNat_ofNat, ex, ey]
  · simp only [U32Op.nat, U32Op.eval, BitVec.toNat_and, BitVec.toNat_ofNat, ex, ey]; rfl
  · simp only [U32Op.nat, U32Op.eval, BitVec.toNat_or, BitVec.toNat_ofNat, ex, ey]; rfl
  · simp only [U32Op.nat, U32Op.eval, BitVec.toNat_xor, BitVec.toNat_ofNat, ex, ey]; rfl

theorem U32Op.sem_fpFp (op : U32Op) (pc fp : M31) (mem : Isa.Mem) (a b d : M31) :
    Isa.sem (op.fpFp a b d) pc fp mem = Isa.bin32 pc fp mem a b d op.nat := by
  cases op <;> dsimp only [U32Op.fpFp, Isa.sem, U32Op.nat]

theorem U32Op.sem_fpImm (op : U32Op) (mk) (h : op.fpImm = some mk) (pc fp : M31) (mem : Isa.Mem)
    (a lo hi d : M31) :
    Isa.sem (mk a lo hi d) pc fp mem = Isa.bin32Imm pc fp mem a lo hi d op.nat := by
  cases op <;> dsimp only [U32Op.fpImm] at h <;> first | cases h; dsimp only [Isa.sem, U32Op.nat] | cases h

/-- C11: a binary u32 instruction on two stored u32 operands stores the 32-bit result, for all operands. -/
theorem C11_binary (op : U32Op) (s : State) (m : Memory) (a b d : M31) (x y : ℕ)
    (hx : Isa.u32 m.view (s.fp + a) = some x) (hy : Isa.u32 m.view (s.fp + b) = some y)
    (h0 : (s.fp + d).val < 2 ^ 28) (h1 : (s.fp + d + 1).val < 2 ^ 28) :
    ∃ m', execInstr (op.fpFp a b d) s m = .ok ⟨s.pc + 1, s.fp⟩ m' ∧
      Isa.u32 m'.view (s.fp + d) = some (op.eval (BitVec.ofNat 32 x) (BitVec.ofNat 32 y)).toNat := by
  have he := op.sem_fpFp s.pc s.fp m.view a b d
  unfold Isa.bin32 at he
  rw [hx, Option.bind_eq_bind, Option.bind_some, hy, Option.bind_some,
    done_pos (split_inRange h0 h1)] at he
  obtain ⟨m', hr, hv⟩ := run_of_sem he
  refine ⟨m', hr, ?_⟩
  rw [hv, ← op.nat_eq (u32_lt hx) (u32_lt hy)]
  have := u32_write (mem := m.view) (pre := []) (post := []) (a := s.fp + d)
    (n := op.nat x y) (by rw [op.nat_eq (u32_lt hx) (u32_lt hy)]; exact BitVec.isLt _) h0 h1 (by simp) (by simp)
  simpa using this

/-- C11: the same with an immediate operand. -/
theorem C11_binary_imm (op : U32Op) (mk) (hmk : op.fpImm = some mk) (s : State) (m : Memory)
    (a lo hi d : M31) (x y : ℕ) (hx : Isa.u32 m.view (s.fp + a) = some x) (hy : Isa.ofLimbs lo hi = some y)
    (h0 : (s.fp + d).val < 2 ^ 28) (h1 : (s.fp + d + 1).val < 2 ^ 28) :
    ∃ m', execInstr (mk a lo hi d) s m = .ok ⟨s.pc + 2, s.fp⟩ m' ∧
      Isa.u32 m'.view (s.fp + d) = some (op.eval (BitVec.ofNat 32 x) (BitVec.ofNat 32 y)).toNat := by
  have he := op.sem_fpImm mk hmk s.pc s.fp m.view a lo hi d
  unfold Isa.bin32Imm at he
  rw [hy, Option.bind_eq_bind, Option.bind_some, hx, Option.bind_some,
    done_pos (split_inRange h0 h1)] at he
  obtain ⟨m', hr, hv⟩ := run_of_sem he
  refine ⟨m', hr, ?_⟩
  have hylt := ofLimbs_lt hy
  rw [hv, ← op.nat_eq (u32_lt hx) hylt]
  have := u32_write (mem := m.view) (pre := []) (post := []) (a := s.fp + d)
    (n := op.nat x y) (by rw [op.nat_eq (u32_lt hx) hylt]; exact BitVec.isLt _) h0 h1 (by simp) (by simp)
  simpa using this

/-- C11: division with two memory operands stores quotient and remainder with `x = q*y + r`, `r < y`, when
the two destinations do not overlap. -/
theorem C11_divrem (s : State) (m : Memory) (a b d r : M31) (x y : ℕ)
    (hx : Isa.u32 m.view (s.fp + a) = some x) (hy : Isa.u32 m.view (s.fp + b) = some y) (hy0 : y ≠ 0)
    (hd0 : (s.fp + d).val < 2 ^ 28) (hd1 : (s.fp + d + 1).val < 2 ^ 28)
    (hr0 : (s.fp + r).val < 2 ^ 28) (hr1 : (s.fp + r + 1).val < 2 ^ 28)
    (hdis : d ≠ r ∧ d ≠ r + 1 ∧ d + 1 ≠ r) :
    ∃ m' q rem, execInstr (.U32StoreDivRemFpFp a b d r) s m = .ok ⟨s.pc + 2, s.fp⟩ m' ∧
      Isa.u32 m'.view (s.fp + d) = some q ∧ Isa.u32 m'.view (s.fp + r) = some rem ∧
      x = q * y + rem ∧ rem < y := by
  have he : Isa.sem (.U32StoreDivRemFpFp a b d r) s.pc s.fp m.view =
      some ⟨[s.fp + a, s.fp + a + 1, s.fp + b, s.fp + b + 1],
        Isa.split (s.fp + d) (x / y) ++ Isa.split (s.fp + r) (x % y), s.pc + 2, s.fp⟩ := by
    dsimp only [Isa.sem]
    rw [hx, Option.bind_eq_bind, Option.bind_some, hy, Option.bind_some, if_neg hy0]
    apply done_pos
    intro w hw
    rcases List.mem_append.1 hw with h | h
    · exact split_inRange hd0 hd1 w h
    · exact split_inRange hr0 hr1 w h
  obtain ⟨m', hrun, hv⟩ := run_of_sem he
  have hxlt := u32_lt hx
  have hypos : 0 < y := Nat.pos_of_ne_zero hy0
  refine ⟨m', x / y, x % y, hrun, ?_, ?_, ?_, Nat.mod_lt _ hypos⟩
  · rw [hv]
    have n1 : s.fp + d ≠ s.fp + r := fun h => hdis.1 (add_left_cancel h)
    have n2 : s.fp + d ≠ s.fp + r + 1 := fun h => hdis.2.1 (add_left_cancel (h.trans (add_assoc _ _ _)))
    have n3 : s.fp + d + 1 ≠ s.fp + r := fun h => hdis.2.2 (add_left_cancel ((add_assoc _ _ _).symm.trans h))
    have n4 : s.fp + d + 1 ≠ s.fp + r + 1 := fun h => n1 (add_right_cancel h)
    exact u32_write (pre := []) (lt_of_le_of_lt (Nat.div_le_self _ _) hxlt) hd0 hd1
      (by simp [Isa.split, n1, n2]) (by simp only [Isa.split, List.map_cons, List.map_nil, List.mem_cons,
          List.not_mem_nil, or_false, not_or]; exact ⟨n3, n4⟩)
  · rw [hv]
    have := u32_write (mem := m.view) (pre := Isa.split (s.fp + d) (x / y)) (post := [])
      (lt_trans (Nat.mod_lt x hypos) (u32_lt hy)) hr0 hr1 (by simp) (by simp)
    simpa using this
  · rw [Nat.mul_comm]; exact (Nat.div_add_mod x y).symm

/-- C11: division by an immediate. -/
theorem C11_divrem_imm (s : State) (m : Memory) (a lo hi d r : M31) (x y : ℕ)
    (hx : Isa.u32 m.view (s.fp + a) = some x) (hy : Isa.ofLimbs lo hi = some y) (hy0 : y ≠ 0)
    (hd0 : (s.fp + d).val < 2 ^ 28) (hd1 : (s.fp + d + 1).val < 2 ^ 28)
    (hr0 : (s.fp + r).val < 2 ^ 28) (hr1 : (s.fp + r + 1).val < 2 ^ 28)
    (hdis : d ≠ r ∧ d ≠ r + 1 ∧ d + 1 ≠ r) :
    ∃ m' q rem, execInstr (.U32StoreDivRemFpImm a lo hi d r) s m = .ok ⟨s.pc + 2, s.fp⟩ m' ∧
      Isa.u32 m'.view (s.fp + d) = some q ∧ Isa.u32 m'.view (s.fp + r) = some rem ∧
      x = q * y + rem ∧ rem < y := by
  have he : Isa.sem (.U32StoreDivRemFpImm a lo hi d r) s.pc s.fp m.view =
      some ⟨[s.fp + a, s.fp + a + 1], Isa.split (s.fp + d) (x / y) ++ Isa.split (s.fp + r) (x % y), s.pc + 2, s.fp⟩ := by
    dsimp only [Isa.sem]
    rw [hy, Option.bind_eq_bind, Option.bind_some, hx, Option.bind_some, if_neg hy0]
    apply done_pos
    intro w hw
    rcases List.mem_append.1 hw with h | h
    · exact split_inRange hd0 hd1 w h
    · exact split_inRange hr0 hr1 w h
  obtain ⟨m', hrun, hv⟩ := run_of_sem he
  have hxlt := u32_lt hx
  have hypos : 0 < y := Nat.pos_of_ne_zero hy0
  refine ⟨m', x / y, x % y, hrun, ?_, ?_, ?_, Nat.mod_lt _ hypos⟩
  · rw [hv]
    have n1 : s.fp + d ≠ s.fp + r := fun h => hdis.1 (add_left_cancel h)
    have n2 : s.fp + d ≠ s.fp + r + 1 := fun h => hdis.2.1 (add_left_cancel (h.trans (add_assoc _ _ _)))
    have n3 : s.fp + d + 1 ≠ s.fp + r := fun h => hdis.2.2 (add_left_cancel ((add_assoc _ _ _).symm.trans h))
    have n4 : s.fp + d + 1 ≠ s.fp + r + 1 := fun h => n1 (add_right_cancel h)
    exact u32_write (pre := []) (lt_of_le_of_lt (Nat.div_le_self _ _) hxlt) hd0 hd1
      (by simp [Isa.split, n1, n2]) (by simp only [Isa.split, List.map_cons, List.map_nil, List.mem_cons,
          List.not_mem_nil, or_false, not_or]; exact ⟨n3, n4⟩)
  · rw [hv]
    have := u32_write (mem := m.view) (pre := Isa.split (s.fp + d) (x / y)) (post := [])
      (lt_trans (Nat.mod_lt x hypos) (ofLimbs_lt hy)) hr0 hr1 (by simp) (by simp)
    simpa using this
  · rw [Nat.mul_comm]; exact (Nat.div_add_mod x y).symm

/-- C11: comparisons store 1 or 0. `eq = true` is equality, `eq = false` is unsigned less-than. -/
theorem C11_compare (eq : Bool) (s : State) (m : Memory) (a b d : M31) (x y : ℕ)
    (hx : Isa.u32 m.view (s.fp + a) = some x) (hy : Isa.u32 m.view (s.fp + b) = some y)
    (h0 : (s.fp + d).val < 2 ^ 28) :
    ∃ m', execInstr (if eq then .U32StoreEqFpFp a b d else .U32StoreLtFpFp a b d) s m =
        .ok ⟨s.pc + 1, s.fp⟩ m' ∧
      m'.view (s.fp + d) = ⟨if (if eq then x = y else x < y) then 1 else 0, 0, 0, 0⟩ := by
  have hr : ∀ v : M31, ∀ w ∈ [(s.fp + d, v)], Isa.InRange w.1 := by
    intro v w hw; rw [List.mem_singleton.1 hw]; exact h0
  cases eq
  · have he : Isa.sem (.U32StoreLtFpFp a b d) s.pc s.fp m.view =
        some ⟨[s.fp + a, s.fp + a + 1, s.fp + b, s.fp + b + 1], [(s.fp + d, Isa.bit (x < y))], s.pc + 1, s.fp⟩ := by
      dsimp only [Isa.sem]
      rw [hx, Option.bind_eq_bind, Option.bind_some, hy, Option.bind_some]
      exact done_pos (hr _)
    obtain ⟨m', hrun, hv⟩ := run_of_sem he
    refine ⟨m', hrun, ?_⟩
    rw [hv]
    simp only [Isa.write, Function.update_self, Isa.bit, if_true, Bool.false_eq_true, if_false]
  · have he : Isa.sem (.U32StoreEqFpFp a b d) s.pc s.fp m.view =
        some ⟨[s.fp + a, s.fp + a + 1, s.fp + b, s.fp + b + 1], [(s.fp + d, Isa.bit (x = y))], s.pc + 1, s.fp⟩ := by
      dsimp only [Isa.sem]
      rw [hx, Option.bind_eq_bind, Option.bind_some, hy, Option.bind_some]
      exact done_pos (hr _)
    obtain ⟨m', hrun, hv⟩ := run_of_sem he
    refine ⟨m', hrun, ?_⟩
    rw [hv]
    simp only [Isa.write, Function.update_self, Isa.bit, if_true, Bool.false_eq_true, if_false]

/-- C11: comparisons with an immediate. -/
theorem C11_compare_imm (eq : Bool) (s : State) (m : Memory) (a lo hi d : M31) (x y : ℕ)
    (hx : Isa.u32 m.view (s.fp + a) = some x) (hy : Isa.ofLimbs lo hi = some y)
    (h0 : (s.fp + d).val < 2 ^ 28) :
    ∃ m', execInstr (if eq then .U32StoreEqFpImm a lo hi d else .U32StoreLtFpImm a lo hi d) s m =
        .ok ⟨s.pc + 2, s.fp⟩ m' ∧
      m'.view (s.fp + d) = ⟨if (if eq then x = y else x < y) then 1 else 0, 0, 0, 0⟩ := by
  have hr : ∀ v : M31, ∀ w ∈ [(s.fp + d, v)], Isa.InRange w.1 := by
    intro v w hw; rw [List.mem_singleton.1 hw]; exact h0
  cases eq
  · have he : Isa.sem (.U32StoreLtFpImm a lo hi d) s.pc s.fp m.view =
        some ⟨[s.fp + a, s.fp + a + 1], [(s.fp + d, Isa.bit (x < y))], s.pc + 2, s.fp⟩ := by
      dsimp only [Isa.sem]
      rw [hy, Option.bind_eq_bind, Option.bind_some, hx, Option.bind_some]
      exact done_pos (hr _)
    obtain ⟨m', hrun, hv⟩ := run_of_sem he
    refine ⟨m', hrun, ?_⟩
    rw [hv]
    simp only [Isa.write, Function.update_self, Isa.bit, if_true, Bool.false_eq_true, if_false]
  · have he : Isa.sem (.U32StoreEqFpImm a lo hi d) s.pc s.fp m.view =
        some ⟨[s.fp + a, s.fp + a + 1], [(s.fp + d, Isa.bit (x = y))], s.pc + 2, s.fp⟩ := by
      dsimp only [Isa.sem]
      rw [hy, Option.bind_eq_bind, Option.bind_some, hx, Option.bind_some]
      exact done_pos (hr _)
    obtain ⟨m', hrun, hv⟩ := run_of_sem he
    refine ⟨m', hrun, ?_⟩
    rw [hv]
    simp only [Isa.write, Function.update_self, Isa.bit, if_true, Bool.false_eq_true, if_false]

/-- Operands with a wrap-around result. -/
example : Isa.u32 (Memory.ofWords [⟨65535, 0, 0, 0⟩, ⟨65535, 0, 0, 0⟩, ⟨2, 0, 0, 0⟩, ⟨0, 0, 0, 0⟩]).view 0 =
      some (2 ^ 32 - 1) ∧
    (U32Op.eval .add (BitVec.ofNat 32 (2 ^ 32 - 1)) (BitVec.ofNat 32 2)).toNat = 1 := by decide

end CairoM
