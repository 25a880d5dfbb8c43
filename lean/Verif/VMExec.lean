import Verif.VMLemmas

/-! The VM's instruction handlers refine the reference semantics (helper theorem `exec_agrees`). -/

namespace CairoM

open Memory


theorem bit_eq (p : Prop) [Decidable p] : M31.ofU32 (if p then 1 else 0) = Isa.bit p := by
  by_cases h : p <;> simp [Isa.bit, h, M31.ofU32]

theorem split_ofLimbs {lo hi : M31} {n : ℕ} (h : Isa.ofLimbs lo hi = some n) (a : M31) :
    Isa.split a n = [(a, lo), (a + 1, hi)] := by
  unfold Isa.ofLimbs at h
  split_ifs at h with hc
  simp only [Option.some.injEq] at h
  have h1 : n % 2 ^ 16 = lo.val := by omega
  have h2 : n / 2 ^ 16 = hi.val := by omega
  unfold Isa.split
  rw [h1, h2, ZMod.natCast_zmod_val, ZMod.natCast_zmod_val]

theorem agrees_insert_insert_done {m m' : Memory} {a b v w : M31} {s : State} {reads : List M31} {pc fp : M31}
    {es : List MemoryEntry} (hm : m' = m.log es)
    (hes : es = reads.map (fun a => ⟨a, m.view a⟩)) (hs : s = ⟨pc, fp⟩) :
    Agrees ((insert a (QM31.ofM31 v) >>= fun _ => insert b (QM31.ofM31 w) >>= fun _ => pure s) m') m
      (Isa.done reads [(a, v), (b, w)] pc fp) := by
  subst hm hes hs
  apply agrees_done
  · intro h
    rw [bind_ok (insert_ok _ (h (a, v) (by simp))), bind_ok (insert_ok _ (h (b, w) (by simp))), pure_eq]
    simp [storeAll, logOf, store_log]
  · intro h
    by_cases h1 : Isa.InRange a
    · rw [bind_ok (insert_ok _ h1)]
      refine bind_isErr (insert_err _ fun h2 => h ?_)
      intro x hx
      simp at hx
      rcases hx with rfl | rfl
      · exact h1
      · exact h2
    · exact bind_isErr (insert_err _ h1)

theorem agrees_throw {m m' : Memory} {e : VMError} : Agrees ((throw e : MemM State) m') m none :=
  .fault (throw_isErr _ _)

theorem adv1 {i : Instruction} (s : State) (h : i.sizeInQM31s = 1) :
    s.advanceBy i.sizeInQM31s = ⟨s.pc + 1, s.fp⟩ := by simp [State.advanceBy, h, ofU32_one]

theorem adv2 {i : Instruction} (s : State) (h : i.sizeInQM31s = 2) :
    s.advanceBy i.sizeInQM31s = ⟨s.pc + 2, s.fp⟩ := by simp [State.advanceBy, h, ofU32_two]

theorem agrees_storeBin {m : Memory} {i : Instruction} {s : State} {a b d : M31}
    {op : M31 → M31 → Option M31} {f : M31 → M31 → M31} (hi : i.sizeInQM31s = 1)
    (hop : ∀ x y, op x y = some (f x y)) :
    Agrees (storeBinFpFp i s a b d op m) m
      (do let x ← Isa.felt m.view (s.fp + a); let y ← Isa.felt m.view (s.fp + b)
          Isa.done [s.fp + a, s.fp + b] [(s.fp + d, f x y)] (s.pc + 1) s.fp) := by
  unfold storeBinFpFp
  refine agrees_bind_felt (es := []) (by simp) fun x hx => ?_
  refine agrees_bind_felt rfl fun y hy => ?_
  rw [hop]
  exact agrees_insert_done rfl (by simp) (adv1 _ hi)

theorem agrees_storeBinImm {m : Memory} {i : Instruction} {s : State} {a imm d : M31}
    {op : M31 → M31 → M31} (hi : i.sizeInQM31s = 1) :
    Agrees (storeBinFpImm i s a imm d op m) m
      (do let x ← Isa.felt m.view (s.fp + a)
          Isa.done [s.fp + a] [(s.fp + d, op x imm)] (s.pc + 1) s.fp) := by
  unfold storeBinFpImm
  refine agrees_bind_felt (es := []) (by simp) fun x hx => ?_
  exact agrees_insert_done rfl (by simp) (adv1 _ hi)

/-- Sizes of all instructions in words. -/
theorem sizeInQM31s_eq (i : Instruction) : i.sizeInQM31s = if i.sizeInM31s ≤ 4 then 1 else 2 := by
  cases i <;> simp [Instruction.sizeInQM31s, Instruction.divCeil4, Instruction.sizeInM31s]

/-- Every handler agrees with the reference semantics. -/
theorem exec_agrees (i : Instruction) (s : State) (m : Memory) :
    Agrees (execInstr i s m) m (Isa.sem i s.pc s.fp m.view) := by
  have h1 : i.sizeInM31s ≤ 4 → i.sizeInQM31s = 1 := fun h => by rw [sizeInQM31s_eq, if_pos h]
  have h2 : ¬ i.sizeInM31s ≤ 4 → i.sizeInQM31s = 2 := fun h => by rw [sizeInQM31s_eq, if_neg h]
  cases i <;> dsimp only [execInstr, Isa.sem, Instruction.sizeInM31s] at h1 h2 ⊢
  case StoreAddFpFp => exact agrees_storeBin (h1 (by decide)) fun _ _ => rfl
  case StoreSubFpFp => exact agrees_storeBin (h1 (by decide)) fun _ _ => rfl
  case StoreMulFpFp => exact agrees_storeBin (h1 (by decide)) fun _ _ => rfl
  case StoreDivFpFp a b d =>
    unfold storeBinFpFp
    refine agrees_bind_felt (es := []) (by simp) fun x hx => ?_
    refine agrees_bind_felt rfl fun y hy => ?_
    by_cases h : y = 0
    · rw [feltDiv, if_pos h, if_pos h]
      exact agrees_throw
    · rw [feltDiv, if_neg h, if_neg h, div_eq_mul_inv]
      exact agrees_insert_done rfl (by simp) (adv1 _ (h1 (by decide)))
  case StoreAddFpImm => exact agrees_storeBinImm (h1 (by decide))
  case StoreMulFpImm => exact agrees_storeBinImm (h1 (by decide))
  case StoreLeFpImm a imm d =>
    unfold storeLeFpImm
    refine agrees_bind_felt (es := []) (by simp) fun x hx => ?_
    simp only [bit_eq]
    exact agrees_insert_done rfl (by simp) (adv1 _ (h1 (by decide)))
  case AssertEqFpImm a imm =>
    unfold assertEqFpImm
    refine agrees_bind_felt (es := []) (by simp) fun x hx => ?_
    by_cases h : x = imm
    · rw [if_neg (not_not.2 h), if_pos h]
      exact agrees_pure rfl (by simp) (adv1 _ (h1 (by decide)))
    · rw [if_pos h, if_neg h]
      exact agrees_throw
  case StoreDoubleDerefFp b imm d =>
    unfold storeDoubleDerefFp
    exact agrees_bind_felt (es := []) (by simp) fun x hx => agrees_bind_felt rfl fun y hy =>
      agrees_insert_done rfl (by simp) (adv1 _ (h1 (by decide)))
  case StoreDoubleDerefFpFp b o d =>
    unfold storeDoubleDerefFpFp
    exact agrees_bind_felt (es := []) (by simp) fun x hx => agrees_bind_felt rfl fun y hy =>
      agrees_bind_felt rfl fun z hz => agrees_insert_done rfl (by simp) (adv1 _ (h1 (by decide)))
  case StoreToDoubleDerefFpImm b imm src =>
    unfold storeToDoubleDerefFpImm
    exact agrees_bind_felt (es := []) (by simp) fun x hx => agrees_bind_felt rfl fun y hy =>
      agrees_insert_done rfl (by simp) (adv1 _ (h1 (by decide)))
  case StoreToDoubleDerefFpFp b o src =>
    unfold storeToDoubleDerefFpFp
    exact agrees_bind_felt (es := []) (by simp) fun x hx => agrees_bind_felt rfl fun y hy =>
      agrees_bind_felt rfl fun z hz => agrees_insert_done rfl (by simp) (adv1 _ (h1 (by decide)))
  case StoreImm imm d =>
    exact agrees_insert_done (es := []) (by simp) (by simp) (adv1 _ (h1 (by decide)))
  case StoreFramePointer imm d =>
    exact agrees_insert_done (es := []) (by simp) (by simp) (adv1 _ (h1 (by decide)))
  case CallAbsImm f t =>
    unfold callAbsImm
    rw [h1 (by decide), ofU32_one]
    exact agrees_insert_insert_done (es := []) (by simp) (by simp) (by simp [State.callAbs, add_assoc])
  case Ret =>
    unfold retHandler
    exact agrees_bind_felt (es := []) (by simp) fun x hx => agrees_bind_felt rfl fun y hy =>
      agrees_pure rfl (by simp) rfl
  case JmpAbsImm t => exact agrees_pure (es := []) (by simp) (by simp) rfl
  case JmpRelImm o => exact agrees_pure (es := []) (by simp) (by simp) rfl
  case JnzFpImm c o =>
    unfold jnzFpImm
    refine agrees_bind_felt (es := []) (by simp) fun x hx => ?_
    by_cases h : x = 0
    · rw [if_neg (not_not.2 h), if_pos h]
      exact agrees_pure rfl (by simp) (adv1 _ (h1 (by decide)))
    · rw [if_pos h, if_neg h]
      exact agrees_pure rfl (by simp) rfl
  case U32StoreAddFpFp =>
    exact agrees_u32BinFpFp (h1 (by decide)) (fun _ _ _ _ => rfl) (fun x y _ _ => wrappingAdd_lt x y)
  case U32StoreSubFpFp =>
    exact agrees_u32BinFpFp (h1 (by decide)) (fun x y _ _ => by unfold wrappingSub; congr 1; omega)
      (fun x y _ _ => wrappingSub_lt x y)
  case U32StoreMulFpFp =>
    exact agrees_u32BinFpFp (h1 (by decide)) (fun _ _ _ _ => rfl) (fun x y _ _ => wrappingMul_lt x y)
  case U32StoreDivRemFpFp a b d r =>
    unfold u32DivRemFpFp
    refine agrees_bind_u32 (es := []) (by simp) fun x hx => agrees_bind_u32 rfl fun y hy => ?_
    by_cases h : y = 0
    · rw [if_pos h, if_pos h]; exact agrees_throw
    · rw [if_neg h, if_neg h]
      exact agrees_insertU32_insertU32_done rfl (lt_of_le_of_lt (Nat.div_le_self _ _) (u32_lt hx))
        (lt_of_le_of_lt (Nat.mod_le _ _) (u32_lt hx)) (by simp) (adv2 _ (h2 (by decide)))
  case U32StoreAddFpImm =>
    exact agrees_u32BinFpImm (h2 (by decide)) (fun _ _ _ _ => rfl) (fun x y _ _ => wrappingAdd_lt x y)
  case U32StoreMulFpImm =>
    exact agrees_u32BinFpImm (h2 (by decide)) (fun _ _ _ _ => rfl) (fun x y _ _ => wrappingMul_lt x y)
  case U32StoreDivRemFpImm a lo hi d r =>
    unfold u32DivRemFpImm
    refine agrees_bind_imm fun y hy hyv => ?_
    rw [hyv]
    by_cases h : y = 0
    · rw [if_pos h]
      cases hx : Isa.u32 m.view (s.fp + a) with
      | none =>
        rw [Option.bind_eq_bind, Option.bind_none]
        exact agrees_throw
      | some x =>
        rw [Option.bind_eq_bind, Option.bind_some, if_pos h]
        exact agrees_throw
    · simp_rw [if_neg h]
      refine agrees_bind_u32 (es := []) (by simp) fun x hx => ?_
      exact agrees_insertU32_insertU32_done rfl (lt_of_le_of_lt (Nat.div_le_self _ _) (u32_lt hx))
        (lt_of_le_of_lt (Nat.mod_le _ _) (u32_lt hx)) (by simp) (adv2 _ (h2 (by decide)))
  case U32StoreImm lo hi d =>
    unfold u32StoreImm
    refine agrees_bind_imm fun y hy hyv => ?_
    rw [split_ofLimbs hy]
    exact agrees_insert_insert_done (es := []) (by simp) (by simp) (adv1 _ (h1 (by decide)))
  case U32StoreEqFpFp => exact agrees_u32CmpFpFp (h1 (by decide))
  case U32StoreLtFpFp => exact agrees_u32CmpFpFp (h1 (by decide))
  case U32StoreEqFpImm => exact agrees_u32CmpFpImm (h2 (by decide))
  case U32StoreLtFpImm => exact agrees_u32CmpFpImm (h2 (by decide))
  case U32StoreAndFpFp =>
    exact agrees_u32BinFpFp (h1 (by decide)) (fun _ _ _ _ => rfl) (fun x y _ hy => Nat.and_lt_two_pow x hy)
  case U32StoreOrFpFp =>
    exact agrees_u32BinFpFp (h1 (by decide)) (fun _ _ _ _ => rfl) (fun x y hx hy => Nat.or_lt_two_pow hx hy)
  case U32StoreXorFpFp =>
    exact agrees_u32BinFpFp (h1 (by decide)) (fun _ _ _ _ => rfl) (fun x y hx hy => Nat.xor_lt_two_pow hx hy)
  case U32StoreAndFpImm =>
    exact agrees_u32BinFpImm (h2 (by decide)) (fun _ _ _ _ => rfl) (fun x y _ hy => Nat.and_lt_two_pow x hy)
  case U32StoreOrFpImm =>
    exact agrees_u32BinFpImm (h2 (by decide)) (fun _ _ _ _ => rfl) (fun x y hx hy => Nat.or_lt_two_pow hx hy)
  case U32StoreXorFpImm =>
    exact agrees_u32BinFpImm (h2 (by decide)) (fun _ _ _ _ => rfl) (fun x y hx hy => Nat.xor_lt_two_pow hx hy)
  case PrintM31 o =>
    unfold printM31
    cases hf : Isa.felt m.view (s.fp + o) with
    | none =>
      rw [Option.bind_eq_bind, Option.bind_none]
      exact .fault (bind_isErr (getDataNoTrace_none hf))
    | some x =>
      rw [Option.bind_eq_bind, Option.bind_some, bind_ok (getDataNoTrace_some hf)]
      exact agrees_pure (es := []) (by simp) (by simp) (adv1 _ (h1 (by decide)))
  case PrintU32 o =>
    unfold printU32
    cases hf : Isa.u32 m.view (s.fp + o) with
    | none =>
      rw [Option.bind_eq_bind, Option.bind_none]
      exact .fault (bind_isErr (getU32NoTrace_none hf))
    | some x =>
      rw [Option.bind_eq_bind, Option.bind_some, bind_ok (getU32NoTrace_some hf)]
      exact agrees_pure (es := []) (by simp) (by simp) (adv1 _ (h1 (by decide)))

end CairoM
