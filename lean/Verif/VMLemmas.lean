import Verif.MemoryLemmas
import Verif.IsaSpec

/-! Helper lemmas: the VM instruction handlers against the reference semantics. -/

namespace CairoM

open Memory

/-- All writes of an effect, as `store`s. -/
def Memory.storeAll (m : Memory) : List (M31 × M31) → Memory
  | [] => m
  | (a, v) :: ws => (m.store a (QM31.ofM31 v)).storeAll ws

theorem storeAll_log (m : Memory) (es) (ws) : (m.log es).storeAll ws = (m.storeAll ws).log es := by
  induction ws generalizing m with
  | nil => rfl
  | cons w ws ih => simp only [storeAll, store_log, ih]

theorem storeAll_append (m : Memory) (ws ws') : m.storeAll (ws ++ ws') = (m.storeAll ws).storeAll ws' := by
  induction ws generalizing m with
  | nil => rfl
  | cons w ws ih => simp [storeAll, ih]

theorem inRange_iff (a : M31) : Isa.InRange a ↔ a.val ≤ MAX_ADDRESS := by
  unfold Isa.InRange MAX_ADDRESS; omega

theorem view_storeAll (m : Memory) (ws : List (M31 × M31)) (h : ∀ w ∈ ws, Isa.InRange w.1) :
    (m.storeAll ws).view = Isa.write m.view ws := by
  induction ws generalizing m with
  | nil => rfl
  | cons w ws ih =>
    simp only [storeAll, Isa.write]
    rw [ih _ (fun w hw => h w (List.mem_cons_of_mem _ hw))]
    congr 1
    funext b
    rw [view_store _ _ _ _ ((inRange_iff _).1 (h w (by simp))), Function.update_apply]
    rfl

@[simp] theorem trace_storeAll (m : Memory) (ws) : (m.storeAll ws).trace = m.trace := by
  induction ws generalizing m with
  | nil => rfl
  | cons w ws ih => simp [storeAll, ih]

theorem WF_storeAll {m : Memory} (hm : m.WF) (ws : List (M31 × M31)) (h : ∀ w ∈ ws, Isa.InRange w.1) :
    (m.storeAll ws).WF := by
  induction ws generalizing m with
  | nil => exact hm
  | cons w ws ih =>
    exact ih (WF_store hm ((inRange_iff _).1 (h w (by simp))) _) fun w hw => h w (List.mem_cons_of_mem _ hw)

theorem length_locals_storeAll (m : Memory) (ws) : m.locals.length ≤ (m.storeAll ws).locals.length := by
  induction ws generalizing m with
  | nil => exact le_rfl
  | cons w ws ih => exact le_trans (length_locals_store _ _ _) (ih _)

/-! ### felt and u32 accesses -/

theorem getData_some {m : Memory} {a x : M31} (h : Isa.felt m.view a = some x) :
    getData a m = .ok x (m.log [⟨a, m.view a⟩]) := by
  unfold Isa.felt at h
  split_ifs at h with hc
  rw [getData_eq, if_pos ((inRange_iff a).1 hc.1), if_pos (show (m.view a).isBase from hc.2)]
  simp only [Option.some.injEq] at h
  rw [h]

theorem getData_none {m : Memory} {a : M31} (h : Isa.felt m.view a = none) : IsErr (getData a m) := by
  unfold Isa.felt at h
  split_ifs at h with hc
  rw [getData_eq]
  split_ifs with h1 h2
  · exact absurd ⟨(inRange_iff a).2 h1, h2⟩ hc
  · exact ⟨_, _, rfl⟩
  · exact ⟨_, _, rfl⟩

theorem getDataNoTrace_some {m : Memory} {a x : M31} (h : Isa.felt m.view a = some x) :
    getDataNoTrace a m = .ok x m := by
  unfold Isa.felt at h
  split_ifs at h with hc
  rw [getDataNoTrace_eq, if_pos ((inRange_iff a).1 hc.1), if_pos (show (m.view a).isBase from hc.2)]
  simp only [Option.some.injEq] at h
  rw [h]

theorem getDataNoTrace_none {m : Memory} {a : M31} (h : Isa.felt m.view a = none) :
    IsErr (getDataNoTrace a m) := by
  unfold Isa.felt at h
  split_ifs at h with hc
  rw [getDataNoTrace_eq]
  split_ifs with h1 h2
  · exact absurd ⟨(inRange_iff a).2 h1, h2⟩ hc
  · exact ⟨_, _, rfl⟩
  · exact ⟨_, _, rfl⟩

theorem shiftOr_eq {lo hi : ℕ} (hlo : lo < 2 ^ 16) : (hi <<< 16) ||| lo = lo + 2 ^ 16 * hi := by
  rw [Nat.shiftLeft_eq, Nat.mul_comm, ← Nat.two_pow_add_eq_or_of_lt hlo]; omega

theorem combineU32_some {lo hi : M31} {n : ℕ} (h : Isa.ofLimbs lo hi = some n) (m : Memory) :
    combineU32 lo hi m = .ok n m := by
  unfold Isa.ofLimbs at h
  split_ifs at h with hc
  simp only [Option.some.injEq] at h
  rw [combineU32, if_neg (by unfold U32_LIMB_MASK; omega), pure_eq, shiftOr_eq hc.1, h]

theorem combineU32_none {lo hi : M31} (h : Isa.ofLimbs lo hi = none) (m : Memory) :
    IsErr (combineU32 lo hi m) := by
  unfold Isa.ofLimbs at h
  split_ifs at h with hc
  rw [combineU32, if_pos (by unfold U32_LIMB_MASK; omega)]
  exact throw_isErr _ _

theorem getU32_some {m : Memory} {a : M31} {n : ℕ} (h : Isa.u32 m.view a = some n) :
    getU32 a m = .ok n (m.log [⟨a, m.view a⟩, ⟨a + 1, m.view (a + 1)⟩]) := by
  unfold Isa.u32 at h
  cases h1 : Isa.felt m.view a with
  | none => simp [h1] at h
  | some lo =>
    cases h2 : Isa.felt m.view (a + 1) with
    | none => simp [h1, h2] at h
    | some hi =>
      simp only [h1, h2, Option.bind_eq_bind, Option.bind_some] at h
      unfold getU32
      rw [bind_ok (getData_some h1), bind_ok (getData_some (by simpa using h2)), combineU32_some h]
      simp

theorem getU32_none {m : Memory} {a : M31} (h : Isa.u32 m.view a = none) : IsErr (getU32 a m) := by
  unfold Isa.u32 at h
  unfold getU32
  cases h1 : Isa.felt m.view a with
  | none => exact bind_isErr (getData_none h1)
  | some lo =>
    rw [bind_ok (getData_some h1)]
    cases h2 : Isa.felt m.view (a + 1) with
    | none => exact bind_isErr (getData_none (by simpa using h2))
    | some hi =>
      rw [bind_ok (getData_some (by simpa using h2))]
      simp only [h1, h2, Option.bind_eq_bind, Option.bind_some] at h
      exact combineU32_none h _

theorem getU32NoTrace_some {m : Memory} {a : M31} {n : ℕ} (h : Isa.u32 m.view a = some n) :
    getU32NoTrace a m = .ok n m := by
  unfold Isa.u32 at h
  cases h1 : Isa.felt m.view a with
  | none => simp [h1] at h
  | some lo =>
    cases h2 : Isa.felt m.view (a + 1) with
    | none => simp [h1, h2] at h
    | some hi =>
      simp only [h1, h2, Option.bind_eq_bind, Option.bind_some] at h
      unfold getU32NoTrace
      rw [bind_ok (getDataNoTrace_some h1), bind_ok (getDataNoTrace_some h2), combineU32_some h]

theorem getU32NoTrace_none {m : Memory} {a : M31} (h : Isa.u32 m.view a = none) :
    IsErr (getU32NoTrace a m) := by
  unfold Isa.u32 at h
  unfold getU32NoTrace
  cases h1 : Isa.felt m.view a with
  | none => exact bind_isErr (getDataNoTrace_none h1)
  | some lo =>
    rw [bind_ok (getDataNoTrace_some h1)]
    cases h2 : Isa.felt m.view (a + 1) with
    | none => exact bind_isErr (getDataNoTrace_none h2)
    | some hi =>
      rw [bind_ok (getDataNoTrace_some h2)]
      simp only [h1, h2, Option.bind_eq_bind, Option.bind_some] at h
      exact combineU32_none h _

/-- Effect of a list of writes on the log. -/
def logOf (ws : List (M31 × M31)) : List MemoryEntry := ws.map fun w => ⟨w.1, QM31.ofM31 w.2⟩

theorem insert_ok {m : Memory} {a : M31} (v : M31) (h : Isa.InRange a) :
    insert a (QM31.ofM31 v) m = .ok () ((m.storeAll [(a, v)]).log (logOf [(a, v)])) := by
  rw [insert_eq, if_pos ((inRange_iff a).1 h)]; rfl

theorem insert_err {m : Memory} {a : M31} (v : QM31) (h : ¬ Isa.InRange a) :
    IsErr (insert a v m) := by
  rw [insert_eq, if_neg (by rwa [inRange_iff] at h)]; exact ⟨_, _, rfl⟩

theorem land_mask (n : ℕ) : n &&& U32_LIMB_MASK = n % 2 ^ 16 := Nat.and_two_pow_sub_one_eq_mod n 16

theorem shr_land_mask {n : ℕ} (h : n < 2 ^ 32) : (n >>> 16) &&& U32_LIMB_MASK = n / 2 ^ 16 := by
  rw [land_mask, Nat.shiftRight_eq_div_pow]; omega

theorem insertU32_ok {m : Memory} {a : M31} {n : ℕ} (hn : n < 2 ^ 32)
    (h : ∀ w ∈ Isa.split a n, Isa.InRange w.1) :
    insertU32 a n m = .ok () ((m.storeAll (Isa.split a n)).log (logOf (Isa.split a n))) := by
  have h0 : Isa.InRange a := h _ (List.mem_cons_self ..)
  have h1 : Isa.InRange (a + 1) := h _ (List.mem_cons_of_mem _ (List.mem_cons_self ..))
  unfold insertU32
  rw [bind_ok (insert_ok _ h0), insert_ok _ h1, storeAll_log, log_log, ← storeAll_append,
    land_mask, shr_land_mask hn]
  rfl

theorem insertU32_err {m : Memory} {a : M31} {n : ℕ}
    (h : ¬ ∀ w ∈ Isa.split a n, Isa.InRange w.1) : IsErr (insertU32 a n m) := by
  unfold insertU32
  by_cases h0 : Isa.InRange a
  · by_cases h1 : Isa.InRange (a + 1)
    · exact absurd (by intro w hw; simp [Isa.split] at hw; rcases hw with rfl | rfl <;> assumption) h
    · rw [bind_ok (insert_ok _ h0)]
      exact insert_err _ h1
  · exact bind_isErr (insert_err _ h0)

theorem u32_lt {mem : Isa.Mem} {a : M31} {n : ℕ} (h : Isa.u32 mem a = some n) : n < 2 ^ 32 := by
  unfold Isa.u32 at h
  cases h1 : Isa.felt mem a with
  | none => simp [h1] at h
  | some lo =>
    cases h2 : Isa.felt mem (a + 1) with
    | none => simp [h1, h2] at h
    | some hi =>
      simp only [h1, h2, Option.bind_eq_bind, Option.bind_some, Isa.ofLimbs] at h
      split_ifs at h
      simp only [Option.some.injEq] at h
      omega

theorem ofLimbs_lt {lo hi : M31} {n : ℕ} (h : Isa.ofLimbs lo hi = some n) : n < 2 ^ 32 := by
  unfold Isa.ofLimbs at h
  split_ifs at h
  simp only [Option.some.injEq] at h
  omega

theorem checkImm_some {lo hi : M31} {n : ℕ} (h : Isa.ofLimbs lo hi = some n) (m : Memory) :
    checkImm lo hi m = .ok () m ∧ immValue lo hi = n := by
  unfold Isa.ofLimbs at h
  split_ifs at h with hc
  simp only [Option.some.injEq] at h
  constructor
  · rw [checkImm, if_neg (by unfold U32_LIMB_MASK; omega), pure_eq]
  · rw [immValue, shiftOr_eq hc.1, h]

theorem checkImm_none {lo hi : M31} (h : Isa.ofLimbs lo hi = none) (m : Memory) :
    IsErr (checkImm lo hi m) := by
  unfold Isa.ofLimbs at h
  split_ifs at h with hc
  rw [checkImm, if_pos (by unfold U32_LIMB_MASK; omega)]
  exact throw_isErr _ _

/-! ### Handlers -/

/-- The result of running an instruction handler agrees with a (possibly faulty) effect. -/
inductive Agrees (r : EStateM.Result VMError Memory State) (m : Memory) : Option Isa.Effect → Prop
  | fault : IsErr r → Agrees r m none
  | ok (e : Isa.Effect) : r = .ok ⟨e.pc, e.fp⟩ ((m.storeAll e.writes).log (e.log m.view)) →
      (∀ w ∈ e.writes, Isa.InRange w.1) → Agrees r m (some e)

theorem agrees_bind_felt {m m' : Memory} {a : M31} {g : M31 → MemM State} {k : M31 → Option Isa.Effect}
    {es : List MemoryEntry} (hm : m' = m.log es)
    (h : ∀ x, Isa.felt m.view a = some x → Agrees (g x (m.log (es ++ [⟨a, m.view a⟩]))) m (k x)) :
    Agrees ((getData a >>= g) m') m (Isa.felt m.view a >>= k) := by
  subst hm
  cases hf : Isa.felt m.view a with
  | none => exact .fault (bind_isErr (getData_none (by simpa using hf)))
  | some x =>
    rw [bind_ok (getData_some (m := m.log es) (by simpa using hf))]
    simpa using h x hf

theorem agrees_bind_u32 {m m' : Memory} {a : M31} {g : ℕ → MemM State} {k : ℕ → Option Isa.Effect}
    {es : List MemoryEntry} (hm : m' = m.log es)
    (h : ∀ x, Isa.u32 m.view a = some x →
      Agrees (g x (m.log (es ++ [⟨a, m.view a⟩, ⟨a + 1, m.view (a + 1)⟩]))) m (k x)) :
    Agrees ((getU32 a >>= g) m') m (Isa.u32 m.view a >>= k) := by
  subst hm
  cases hf : Isa.u32 m.view a with
  | none => exact .fault (bind_isErr (getU32_none (by simpa using hf)))
  | some x =>
    rw [bind_ok (getU32_some (m := m.log es) (by simpa using hf))]
    simpa using h x hf

theorem agrees_bind_imm {m m' : Memory} {lo hi : M31} {g : Unit → MemM State} {k : ℕ → Option Isa.Effect}
    (h : ∀ x, Isa.ofLimbs lo hi = some x → immValue lo hi = x → Agrees (g () m') m (k x)) :
    Agrees ((checkImm lo hi >>= g) m') m (Isa.ofLimbs lo hi >>= k) := by
  cases hf : Isa.ofLimbs lo hi with
  | none => exact .fault (bind_isErr (checkImm_none hf _))
  | some x =>
    rw [bind_ok (checkImm_some hf _).1]
    simpa using h x hf (checkImm_some hf m').2

/-- Final writes: `g` performs the stores of `ws` and returns the new registers. -/
theorem agrees_done {m : Memory} {r : EStateM.Result VMError Memory State} {reads : List M31} {ws : List (M31 × M31)} {pc fp : M31}
    (hok : (∀ w ∈ ws, Isa.InRange w.1) →
      r = .ok ⟨pc, fp⟩ ((m.storeAll ws).log (reads.map (fun a => ⟨a, m.view a⟩) ++ logOf ws)))
    (herr : (¬ ∀ w ∈ ws, Isa.InRange w.1) → IsErr r) :
    Agrees r m (Isa.done reads ws pc fp) := by
  unfold Isa.done
  rcases Classical.em (∀ w ∈ ws, Isa.InRange w.1) with h | h
  · rw [if_pos h]
    exact .ok _ (hok h) h
  · rw [if_neg h]
    exact .fault (herr h)

theorem ofU32_one : M31.ofU32 1 = 1 := by simp [M31.ofU32]
theorem ofU32_two : M31.ofU32 2 = 2 := by simp [M31.ofU32]

theorem agrees_insert_done {m m' : Memory} {a v : M31} {s : State} {reads : List M31} {pc fp : M31}
    {es : List MemoryEntry} (hm : m' = m.log es)
    (hes : es = reads.map (fun a => ⟨a, m.view a⟩)) (hs : s = ⟨pc, fp⟩) :
    Agrees ((insert a (QM31.ofM31 v) >>= fun _ => pure s) m') m (Isa.done reads [(a, v)] pc fp) := by
  subst hm hes hs
  apply agrees_done
  · intro h
    rw [bind_ok (insert_ok _ (h (a, v) (by simp))), pure_eq, storeAll_log, log_log]
  · intro h
    exact bind_isErr (insert_err _ (by simpa using h))

theorem agrees_insertU32_done {m m' : Memory} {a : M31} {n : ℕ} {s : State} {reads : List M31} {pc fp : M31}
    {es : List MemoryEntry} (hm : m' = m.log es) (hn : n < 2 ^ 32)
    (hes : es = reads.map (fun a => ⟨a, m.view a⟩)) (hs : s = ⟨pc, fp⟩) :
    Agrees ((insertU32 a n >>= fun _ => pure s) m') m (Isa.done reads (Isa.split a n) pc fp) := by
  subst hm hes hs
  apply agrees_done
  · intro h
    rw [bind_ok (insertU32_ok hn h), pure_eq, storeAll_log, log_log]
  · intro h
    exact bind_isErr (insertU32_err h)

theorem agrees_insertU32_insertU32_done {m m' : Memory} {a b : M31} {n k : ℕ} {s : State} {reads : List M31}
    {pc fp : M31} {es : List MemoryEntry} (hm : m' = m.log es) (hn : n < 2 ^ 32) (hk : k < 2 ^ 32)
    (hes : es = reads.map (fun a => ⟨a, m.view a⟩)) (hs : s = ⟨pc, fp⟩) :
    Agrees ((insertU32 a n >>= fun _ => insertU32 b k >>= fun _ => pure s) m') m
      (Isa.done reads (Isa.split a n ++ Isa.split b k) pc fp) := by
  subst hm hes hs
  apply agrees_done
  · intro h
    rw [bind_ok (insertU32_ok hn fun w hw => h w (List.mem_append_left _ hw)),
      bind_ok (insertU32_ok hk fun w hw => h w (List.mem_append_right _ hw)), pure_eq,
      storeAll_append]
    simp [storeAll_log, logOf]
  · intro h
    rcases Classical.em (∀ w ∈ Isa.split a n, Isa.InRange w.1) with h1 | h1
    · rw [bind_ok (insertU32_ok hn h1)]
      refine bind_isErr (insertU32_err fun h2 => h ?_)
      intro w hw
      rcases List.mem_append.1 hw with hw | hw
      · exact h1 w hw
      · exact h2 w hw
    · exact bind_isErr (insertU32_err h1)

theorem agrees_pure {m m' : Memory} {s : State} {reads : List M31} {pc fp : M31}
    {es : List MemoryEntry} (hm : m' = m.log es)
    (hes : es = reads.map (fun a => ⟨a, m.view a⟩)) (hs : s = ⟨pc, fp⟩) :
    Agrees ((pure s : MemM State) m') m (Isa.done reads [] pc fp) := by
  subst hm hes hs
  apply agrees_done
  · intro _; simp [pure_eq, storeAll, logOf]
  · intro h; simp at h

theorem wrappingAdd_lt (a b : ℕ) : wrappingAdd a b < 2 ^ 32 := Nat.mod_lt _ (by decide)
theorem wrappingSub_lt (a b : ℕ) : wrappingSub a b < 2 ^ 32 := Nat.mod_lt _ (by decide)
theorem wrappingMul_lt (a b : ℕ) : wrappingMul a b < 2 ^ 32 := Nat.mod_lt _ (by decide)

theorem agrees_u32BinFpFp {m : Memory} {i : Instruction} {s : State} {a b d : M31} {f g : ℕ → ℕ → ℕ}
    (hi : i.sizeInQM31s = 1)
    (hfg : ∀ x y, x < 2 ^ 32 → y < 2 ^ 32 → f x y = g x y)
    (hlt : ∀ x y, x < 2 ^ 32 → y < 2 ^ 32 → f x y < 2 ^ 32) :
    Agrees (u32BinFpFp i s a b d f m) m (Isa.bin32 s.pc s.fp m.view a b d g) := by
  unfold u32BinFpFp Isa.bin32
  refine agrees_bind_u32 (es := []) (by simp) fun x hx => ?_
  refine agrees_bind_u32 rfl fun y hy => ?_
  rw [← hfg x y (u32_lt hx) (u32_lt hy)]
  exact agrees_insertU32_done rfl (hlt x y (u32_lt hx) (u32_lt hy)) (by simp)
    (by simp [State.advanceBy, hi, ofU32_one])

theorem agrees_u32BinFpImm {m : Memory} {i : Instruction} {s : State} {a lo hi d : M31} {f g : ℕ → ℕ → ℕ}
    (hsz : i.sizeInQM31s = 2)
    (hfg : ∀ x y, x < 2 ^ 32 → y < 2 ^ 32 → f x y = g x y)
    (hlt : ∀ x y, x < 2 ^ 32 → y < 2 ^ 32 → f x y < 2 ^ 32) :
    Agrees (u32BinFpImm i s a lo hi d f m) m (Isa.bin32Imm s.pc s.fp m.view a lo hi d g) := by
  unfold u32BinFpImm Isa.bin32Imm
  refine agrees_bind_imm fun y hy hyv => ?_
  refine agrees_bind_u32 (es := []) (by simp) fun x hx => ?_
  rw [hyv, ← hfg x y (u32_lt hx) (ofLimbs_lt hy)]
  exact agrees_insertU32_done rfl (hlt x y (u32_lt hx) (ofLimbs_lt hy)) (by simp)
    (by simp [State.advanceBy, hsz, ofU32_two])

theorem bool_ite (p : Prop) [Decidable p] :
    (if decide p = true then QM31.ofM31 1 else QM31.ofM31 0) = QM31.ofM31 (Isa.bit p) := by
  by_cases h : p <;> simp [Isa.bit, h]

theorem agrees_u32CmpFpFp {m : Memory} {i : Instruction} {s : State} {a b d : M31}
    {p : ℕ → ℕ → Prop} [∀ x y, Decidable (p x y)] (hi : i.sizeInQM31s = 1) :
    Agrees (u32CmpFpFp i s a b d (fun x y => decide (p x y)) m) m
      (do let x ← Isa.u32 m.view (s.fp + a); let y ← Isa.u32 m.view (s.fp + b)
          Isa.done [s.fp + a, s.fp + a + 1, s.fp + b, s.fp + b + 1] [(s.fp + d, Isa.bit (p x y))]
            (s.pc + 1) s.fp) := by
  unfold u32CmpFpFp
  refine agrees_bind_u32 (es := []) (by simp) fun x hx => ?_
  refine agrees_bind_u32 rfl fun y hy => ?_
  rw [bool_ite]
  exact agrees_insert_done rfl (by simp) (by simp [State.advanceBy, hi, ofU32_one])

theorem agrees_u32CmpFpImm {m : Memory} {i : Instruction} {s : State} {a lo hi d : M31}
    {p : ℕ → ℕ → Prop} [∀ x y, Decidable (p x y)] (hsz : i.sizeInQM31s = 2) :
    Agrees (u32CmpFpImm i s a lo hi d (fun x y => decide (p x y)) m) m
      (do let y ← Isa.ofLimbs lo hi; let x ← Isa.u32 m.view (s.fp + a)
          Isa.done [s.fp + a, s.fp + a + 1] [(s.fp + d, Isa.bit (p x y))] (s.pc + 2) s.fp) := by
  unfold u32CmpFpImm
  refine agrees_bind_imm fun y hy hyv => ?_
  refine agrees_bind_u32 (es := []) (by simp) fun x hx => ?_
  rw [hyv, bool_ite]
  exact agrees_insert_done rfl (by simp) (by simp [State.advanceBy, hsz, ofU32_two])

end CairoM
