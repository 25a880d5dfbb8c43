import Verif.ProgramLink
import Verif.AbiProps
import Verif.CodegenRun
import Verif.LegalizeProps

/-!
# Helper lemmas: linked programs on the virtual machine
-/

namespace CairoM
namespace Codegen

open Mir Lang Relation Abi

variable {is : List Instruction} {fp : M31} {m m' : Isa.Mem}

/-! ### Steps -/

/-- The registers and the memory of a machine. -/
def config (vm : VM) : Config := ⟨vm.state.pc, vm.state.fp, vm.memory.view⟩

theorem go_step {vm : VM} {s : Config} (hm : vm.memory.WF) (hlen : place is is.length ≤ vm.memory.locals.length)
    (hfin : place is is.length ≤ vm.finalPc.val) (h : Go is (config vm) s) :
    vm.state.pc ≠ vm.finalPc ∧ ∃ vm', vm.step = .ok vm' ∧ config vm' = s ∧ vm'.memory.WF ∧
      vm.memory.locals.length ≤ vm'.memory.locals.length ∧ vm'.finalPc = vm.finalPc := by
  obtain ⟨i, ins, e, h1, h2, h3, h4, rfl⟩ := h
  have hst : Isa.Stored vm.memory.view vm.state.pc ins := by
    have := h3 i ins h1
    rw [← h2] at this
    exact this
  have hend := place_end h1
  have hpos : 0 < ins.sizeInQM31s := by
    have := (Instruction.C05_words ins).1
    have : 0 < ins.encode.length := by cases ins <;> exact Nat.succ_pos _
    omega
  have hP : P = 2147483647 := rfl
  have hlt : vm.finalPc.val < P := ZMod.val_lt _
  have hpc : vm.state.pc.val = place is i := by
    have h2' : vm.state.pc = (place is i : ℕ) := h2
    rw [h2', ZMod.val_natCast_of_lt (by omega)]
  refine ⟨fun e' => by rw [e'] at hpc; omega, ?_⟩
  obtain ⟨g1, g2⟩ := step_some hm hst (by omega) h4
  refine ⟨_, g1, ?_, WF_step hm g1, length_locals_storeAll _ _, rfl⟩
  simp only [config, Memory.view_log, view_storeAll _ _ g2]
  rfl

theorem go_steps {s s' : Config} (h : ReflTransGen (Go is) s s') : ∀ {vm : VM}, config vm = s → vm.memory.WF →
    place is is.length ≤ vm.memory.locals.length → place is is.length ≤ vm.finalPc.val →
    ∃ n vm', Steps n vm vm' ∧ config vm' = s' ∧ vm'.memory.WF ∧ vm'.finalPc = vm.finalPc := by
  induction h using ReflTransGen.head_induction_on with
  | refl => intro vm h1 h2 _ _; exact ⟨0, vm, .refl _, h1, h2, rfl⟩
  | head h _ ih =>
    intro vm h1 h2 h3 h4
    subst h1
    obtain ⟨g0, vm1, g1, g2, g3, g4, g5⟩ := go_step h2 h3 h4 h
    obtain ⟨n, vm2, k1, k2, k3, k4⟩ := ih g2 g3 (by omega) (by rw [g5]; exact h4)
    exact ⟨n + 1, vm2, .cons g0 g1 k1, k2, k3, k4.trans g5⟩

/-! ### Scalars as words -/

/-- The ABI type of a scalar type. -/
def abiType : MirType → AbiType
  | .Felt => .felt
  | .Bool => .bool
  | .U32 => .u32
  | _ => .unit

/-- A scalar as the runner shows it. -/
def shown : Val → CairoMValue
  | .felt x => .felt x
  | .bool b => .bool b
  | .u32 n => .u32 n
  | .unit => .unit

/-- The words of a scalar. -/
def wordsOf : Val → List M31
  | .felt x => [x]
  | .bool b => [if b then 1 else 0]
  | .u32 n => [((n % 2 ^ 16 : ℕ) : M31), ((n / 2 ^ 16 : ℕ) : M31)]
  | .unit => []

theorem wordsOf_length (v : Val) : (wordsOf v).length = width v := by cases v <;> rfl

theorem wordsOf_all_length (vs : List Val) : (vs.flatMap wordsOf).length = widths vs := by
  rw [List.length_flatMap, widths]
  congr 1
  exact List.map_congr_left fun v _ => wordsOf_length v

theorem ofLimbs_some {lo hi : M31} {n : ℕ} (h : Isa.ofLimbs lo hi = some n) :
    lo = ((n % 2 ^ 16 : ℕ) : M31) ∧ hi = ((n / 2 ^ 16 : ℕ) : M31) ∧ lo.val < 2 ^ 16 ∧ hi.val < 2 ^ 16 ∧
      n = lo.val + 2 ^ 16 * hi.val := by
  unfold Isa.ofLimbs at h
  split_ifs at h with hc
  injection h with h
  subst h
  have h1 : (lo.val + 2 ^ 16 * hi.val) % 2 ^ 16 = lo.val := by omega
  have h2 : (lo.val + 2 ^ 16 * hi.val) / 2 ^ 16 = hi.val := by omega
  refine ⟨?_, ?_, hc.1, hc.2, rfl⟩
  · rw [h1, ZMod.natCast_zmod_val]
  · rw [h2, ZMod.natCast_zmod_val]

theorem holds_words {off : ℤ} {v : Val} (h : Holds m fp off v) (i : ℕ) (hi : i < (wordsOf v).length) :
    Isa.felt m (adr fp (off + i)) = some (wordsOf v)[i] := by
  cases v with
  | felt x =>
    have : i = 0 := by simpa [wordsOf] using hi
    subst this
    simpa [wordsOf, Holds] using h
  | bool b =>
    have : i = 0 := by simpa [wordsOf] using hi
    subst this
    simpa [wordsOf, Holds] using h
  | u32 n =>
    simp only [Holds, Isa.u32, Option.bind_eq_bind, Option.bind_eq_some_iff] at h
    obtain ⟨lo, h1, hi', h2, h3⟩ := h
    obtain ⟨e1, e2, -⟩ := ofLimbs_some h3
    have : i = 0 ∨ i = 1 := by simp [wordsOf] at hi; omega
    rcases this with rfl | rfl
    · simpa [wordsOf, e1] using h1
    · rw [← adr_succ] at h2
      simpa [wordsOf, e2] using h2
  | unit => simp [wordsOf] at hi

theorem holdsAll_words : ∀ {vs : List Val} {off : ℤ}, HoldsAll m fp off vs → ∀ (i : ℕ) (hi : i < (vs.flatMap wordsOf).length),
    Isa.felt m (adr fp (off + i)) = some (vs.flatMap wordsOf)[i]
  | [], _, _, i, hi => by simp at hi
  | v :: vs, off, h, i, hi => by
    simp only [List.flatMap_cons] at hi ⊢
    by_cases hlt : i < (wordsOf v).length
    · rw [List.getElem_append_left hlt]
      exact holds_words h.1 i hlt
    · rw [List.getElem_append_right (by omega)]
      have := holdsAll_words h.2 (i - (wordsOf v).length) (by rw [List.length_append] at hi; omega)
      rw [← this, wordsOf_length]
      congr 2
      rw [wordsOf_length] at hlt
      omega

/-! ### Results -/

theorem readFrame_ok {mem : Memory} {k : ℕ} {ws : List M31} (hk : ws.length = k)
    (h : ∀ i (hi : i < ws.length), Isa.felt mem.view (adr fp (-(k : ℤ) - 2 + i)) = some ws[i]) :
    ∀ n, n ≤ k → readFrame mem fp k n = .ok (ws.drop (k - n))
  | 0, _ => by simp [readFrame, ← hk]
  | n + 1, hn => by
    have hlt : k - (n + 1) < ws.length := by omega
    have e : fp - M31.ofU32 (k + 2 - (k - (n + 1))) + M31.ofU32 0 = adr fp (-(k : ℤ) - 2 + (k - (n + 1) : ℕ)) := by
      rw [adr]
      have : (-(k : ℤ) - 2 + (k - (n + 1) : ℕ)) = -((k + 2 - (k - (n + 1)) : ℕ) : ℤ) := by omega
      rw [this]
      simp [M31.ofU32, sub_eq_add_neg]
    have h1 : memReader mem (fp - M31.ofU32 (k + 2 - (k - (n + 1)))) 0 = .ok ws[k - (n + 1)] := by
      unfold memReader
      rw [e, getDataNoTrace_some (h _ hlt)]
    unfold readFrame
    rw [h1, readFrame_ok hk h n (by omega)]
    dsimp only
    rw [show ws.drop (k - n) = ws.drop (k - (n + 1) + 1) by congr 1; omega, ← List.drop_eq_getElem_cons hlt]

theorem decode_words {mem : Memory} {v : Val} {t : MirType} (hv : ValTy v (some t)) {ws : List M31} {off : ℕ}
    (h : ∀ i (hi : i < (wordsOf v).length), ws[off + i]? = some (wordsOf v)[i]) :
    decode mem (abiType t) (slotReader ws) off = .ok (shown v, width v) := by
  obtain ⟨mt, ty, e, h1, h2⟩ := hv
  injection e with e
  subst e
  have hP : P = 2147483647 := rfl
  cases v with
  | felt x =>
    simp only [Val.HasTy] at h2
    subst h2
    have h0 : ws[off]? = some x := by simpa [wordsOf] using h 0 (by simp [wordsOf])
    cases t <;> simp only [scalarTy, Option.some.injEq, reduceCtorEq] at h1
    simp [abiType, decode, slotReader, h0, shown, width]
  | bool b =>
    simp only [Val.HasTy] at h2
    subst h2
    have h0 : ws[off]? = some (if b then 1 else 0) := by simpa [wordsOf] using h 0 (by simp [wordsOf])
    cases t <;> simp only [scalarTy, Option.some.injEq, reduceCtorEq] at h1
    cases b
    · simp [abiType, decode, slotReader, h0, shown, width, m31ToBool]
    · have : (1 : M31).val = 1 := rfl
      simp [abiType, decode, slotReader, h0, shown, width, m31ToBool, this]
  | u32 n =>
    obtain ⟨rfl, hn⟩ := h2
    have hn : n < 2 ^ 32 := hn
    have h0 : ws[off]? = some ((n % 2 ^ 16 : ℕ) : M31) := by simpa [wordsOf] using h 0 (by simp [wordsOf])
    have h1' : ws[off + 1]? = some ((n / 2 ^ 16 : ℕ) : M31) := by simpa [wordsOf] using h 1 (by simp [wordsOf])
    have a1 : (((n % 2 ^ 16 : ℕ) : M31)).val = n % 2 ^ 16 := by
      rw [ZMod.val_natCast, Nat.mod_eq_of_lt]; omega
    have a2 : (((n / 2 ^ 16 : ℕ) : M31)).val = n / 2 ^ 16 := by
      rw [ZMod.val_natCast, Nat.mod_eq_of_lt]; omega
    cases t <;> simp only [scalarTy, Option.some.injEq, reduceCtorEq] at h1
    simp only [abiType, decode, slotReader, h0, h1', reconstructU32, a1, a2]
    rw [if_neg (by omega)]
    have : n % 2 ^ 16 ||| (n / 2 ^ 16) <<< 16 = n := by
      rw [Nat.or_comm, ← Nat.shiftLeft_add_eq_or_of_lt (Nat.mod_lt _ (by norm_num)), Nat.shiftLeft_eq]
      omega
    rw [this]
    rfl
  | unit =>
    simp only [Val.HasTy] at h2
    subst h2
    cases t <;> simp only [scalarTy, Option.some.injEq, reduceCtorEq] at h1
    simp [abiType, decode, shown, width]

theorem decodeTuple_words {mem : Memory} : ∀ {vs : List Val} {ts : List MirType},
    List.Forall₂ (fun y (t : MirType) => ValTy y (some t)) vs ts → ∀ {ws : List M31} {off : ℕ},
    (∀ i (hi : i < (vs.flatMap wordsOf).length), ws[off + i]? = some (vs.flatMap wordsOf)[i]) →
    decodeTuple mem (ts.map abiType) (slotReader ws) off = .ok (vs.map shown, widths vs)
  | [], [], .nil, ws, off, _ => by simp [decodeTuple, widths]
  | v :: vs, t :: ts, .cons hv hvs, ws, off, h => by
    simp only [List.flatMap_cons] at h
    have h1 := decode_words (mem := mem) (off := off) hv (ws := ws) (fun i hi => by
      rw [h i (by rw [List.length_append]; omega), List.getElem_append_left hi])
    have h2 := decodeTuple_words (mem := mem) hvs (ws := ws) (off := off + width v) (fun i hi => by
      have := h ((wordsOf v).length + i) (by rw [List.length_append]; omega)
      rw [List.getElem_append_right (Nat.le_add_right _ _)] at this
      simp only [Nat.add_sub_cancel_left] at this
      rw [← this, wordsOf_length, Nat.add_assoc])
    simp only [List.map_cons, decodeTuple, h1, h2]
    simp [widths]

/-! ### Arguments -/

theorem memReader_felt {mem : Memory} {a x : M31} {off : ℕ} (h : memReader mem a off = .ok x) :
    Isa.felt mem.view (a + M31.ofU32 off) = some x := by
  unfold memReader at h
  rw [Memory.getDataNoTrace_eq] at h
  unfold Isa.felt
  split_ifs at h with h1 h2
  · simp only [Except.ok.injEq] at h
    rw [if_pos ⟨(inRange_iff _).2 h1, h2⟩, h]
  all_goals cases h

theorem memReader_adr {mem : Memory} {o : ℤ} {x : M31} {off : ℕ} (h : memReader mem (adr fp o) off = .ok x) :
    Isa.felt mem.view (adr fp (o + off)) = some x := by
  have := memReader_felt h
  rwa [show adr fp o + M31.ofU32 off = adr fp (o + off) by simp [adr, M31.ofU32, add_assoc]] at this

theorem decode_holds {mem : Memory} {v : Val} {t : MirType} (hv : ValTy v (some t)) {o : ℤ} {off n : ℕ}
    (h : decode mem (abiType t) (memReader mem (adr fp o)) off = .ok (shown v, n)) :
    n = width v ∧ Holds mem.view fp (o + off) v := by
  obtain ⟨mt, ty, e, h1, h2⟩ := hv
  injection e with e
  subst e
  cases v with
  | felt x =>
    simp only [Val.HasTy] at h2
    subst h2
    cases t <;> simp only [scalarTy, Option.some.injEq, reduceCtorEq] at h1
    simp only [abiType, decode] at h
    cases hr : memReader mem (adr fp o) off with
    | error e => rw [hr] at h; cases h
    | ok y =>
      rw [hr] at h
      simp only [shown, Except.ok.injEq, Prod.mk.injEq, CairoMValue.felt.injEq] at h
      obtain ⟨rfl, rfl⟩ := h
      exact ⟨rfl, memReader_adr hr⟩
  | bool b =>
    simp only [Val.HasTy] at h2
    subst h2
    cases t <;> simp only [scalarTy, Option.some.injEq, reduceCtorEq] at h1
    simp only [abiType, decode] at h
    cases hr : memReader mem (adr fp o) off with
    | error e => rw [hr] at h; cases h
    | ok y =>
      rw [hr] at h
      simp only [m31ToBool] at h
      split_ifs at h with hc
      · simp only [shown, Except.ok.injEq, Prod.mk.injEq, CairoMValue.bool.injEq] at h
        obtain ⟨rfl, rfl⟩ := h
        refine ⟨rfl, ?_⟩
        have := memReader_adr hr
        simp only [Holds]
        rw [this]
        congr 1
        push_neg at hc
        by_cases h0 : y.val = 0
        · have : y = 0 := (ZMod.val_eq_zero y).mp h0
          subst this
          rfl
        · have h1 := hc h0
          have : y = 1 := ZMod.val_injective P (by rw [h1]; rfl)
          subst this
          rfl
  | u32 k =>
    obtain ⟨rfl, hn⟩ := h2
    cases t <;> simp only [scalarTy, Option.some.injEq, reduceCtorEq] at h1
    simp only [abiType, decode] at h
    cases hr : memReader mem (adr fp o) off with
    | error e => rw [hr] at h; cases h2 : memReader mem (adr fp o) (off + 1) <;> rw [h2] at h <;> cases h
    | ok lo =>
      cases hr' : memReader mem (adr fp o) (off + 1) with
      | error e => rw [hr, hr'] at h; cases h
      | ok hi =>
        rw [hr, hr'] at h
        simp only [reconstructU32] at h
        split_ifs at h with hc
        · simp only [shown, Except.ok.injEq, Prod.mk.injEq, CairoMValue.u32.injEq] at h
          obtain ⟨rfl, rfl⟩ := h
          refine ⟨rfl, ?_⟩
          have e1 := memReader_adr hr
          have e2 := memReader_adr hr'
          push_cast at e2
          rw [← add_assoc, adr_succ] at e2
          simp only [Holds, Isa.u32, e1, e2, Option.bind_eq_bind, Option.bind_some]
          unfold Isa.ofLimbs
          rw [if_pos (by omega)]
          congr 1
          rw [Nat.or_comm, ← Nat.shiftLeft_add_eq_or_of_lt (by omega), Nat.shiftLeft_eq]
          omega
  | unit =>
    simp only [Val.HasTy] at h2
    subst h2
    cases t <;> simp only [scalarTy, Option.some.injEq, reduceCtorEq] at h1
    simp only [abiType, decode, shown, Except.ok.injEq, Prod.mk.injEq, true_and] at h
    exact ⟨h.symm, trivial⟩

theorem decodeTuple_holds {mem : Memory} : ∀ {vs : List Val} {ts : List MirType},
    List.Forall₂ (fun y (t : MirType) => ValTy y (some t)) vs ts → ∀ {o : ℤ} {off n : ℕ},
    decodeTuple mem (ts.map abiType) (memReader mem (adr fp o)) off = .ok (vs.map shown, n) →
    HoldsAll mem.view fp (o + off) vs
  | [], [], .nil, o, off, n, _ => trivial
  | v :: vs, t :: ts, .cons hv hvs, o, off, n, h => by
    simp only [List.map_cons, decodeTuple] at h
    cases h1 : decode mem (abiType t) (memReader mem (adr fp o)) off with
    | error e => rw [h1] at h; cases h
    | ok r =>
      obtain ⟨x, k⟩ := r
      rw [h1] at h
      dsimp only at h
      cases h2 : decodeTuple mem (ts.map abiType) (memReader mem (adr fp o)) (off + k) with
      | error e => rw [h2] at h; cases h
      | ok r =>
        obtain ⟨xs, k'⟩ := r
        rw [h2] at h
        simp only [Except.ok.injEq, Prod.mk.injEq, List.cons.injEq] at h
        obtain ⟨⟨rfl, rfl⟩, -⟩ := h
        obtain ⟨rfl, hh⟩ := decode_holds hv h1
        refine ⟨hh, ?_⟩
        have := decodeTuple_holds hvs h2
        rw [show o + off + (width v : ℤ) = o + ((off + width v : ℕ) : ℤ) by push_cast; ring]
        exact this

theorem callSlotSizes_scalars : ∀ {vs : List Val} {ts : List MirType},
    List.Forall₂ (fun y (t : MirType) => ValTy y (some t)) vs ts → callSlotSizes (ts.map abiType) = widths vs
  | [], [], .nil => rfl
  | v :: vs, t :: ts, .cons hv hvs => by
    rw [List.map_cons, callSlotSizes, callSlotSizes_scalars hvs, widths_cons]
    congr 1
    obtain ⟨mt, ty, e, h1, h2⟩ := hv
    injection e with e
    subst e
    cases v <;> simp only [Val.HasTy] at h2
    all_goals first | subst h2 | obtain ⟨rfl, -⟩ := h2
    all_goals cases t <;> simp only [scalarTy, Option.some.injEq, reduceCtorEq] at h1
    all_goals rfl

theorem abiType_cases (t : MirType) : abiType t = .felt ∨ abiType t = .bool ∨ abiType t = .u32 ∨ abiType t = .unit := by
  cases t <;> simp [abiType]

theorem allSized_scalars : ∀ ts : List MirType, AllSized (ts.map abiType)
  | [] => trivial
  | t :: ts => ⟨by rcases abiType_cases t with h | h | h | h <;> rw [h] <;> trivial, allSized_scalars ts⟩

theorem allPlain_scalars : ∀ ts : List MirType, AllPlain (ts.map abiType)
  | [] => trivial
  | t :: ts => ⟨by rcases abiType_cases t with h | h | h | h <;> rw [h] <;> trivial, allPlain_scalars ts⟩

theorem cellsZip_scalars : ∀ (vs : List InputValue) (ts : List MirType), cellsZip vs (ts.map abiType) = 0
  | [], _ => by simp [cellsZip]
  | _ :: _, [] => by simp [cellsZip]
  | v :: vs, t :: ts => by
    rw [List.map_cons, cellsZip, cellsZip_scalars vs ts]
    rcases abiType_cases t with h | h | h | h <;> rw [h] <;> cases v <;> simp [Abi.cells]

/-! ### Runs of a prepared machine -/

theorem runCairoProgram_of_halts {prog : List ProgramData} {entry : Abi.Entry} {args : List InputValue} {vm0 vf : VM}
    (hp : prepare prog entry args = .ok vm0) (hf : Fresh vm0) (h0 : vm0.finalPc ≠ 0) (hh : Halts vm0 vf)
    {vs : List Val} {ts : List MirType} (hr : entry.returns = ts.map abiType)
    (hty : List.Forall₂ (fun y (t : MirType) => ValTy y (some t)) vs ts)
    (hvs : HoldsAll vf.memory.view vf.state.fp (-(widths vs : ℤ) - 2) vs) {k : ℕ} (hk : 1 ≤ k) :
    ∃ fuel out, runCairoProgram fuel k prog entry args = some (.ok out) ∧ out.returnValues = vs.map shown := by
  obtain ⟨fuel, vm', segs, g1, g2, g3, g4, -⟩ := (C14_is_unsegmented vm0 hf h0 k hk).1 vf hh
  have hview : vm'.memory.view = vf.memory.view := by
    funext a
    simp only [Memory.view, g3, g4]
  have hsz : callSlotSizes entry.returns = widths vs := by rw [hr, callSlotSizes_scalars hty]
  have hlen := wordsOf_all_length vs
  have hframe := readFrame_ok (mem := vm'.memory) (fp := vm'.state.fp) hlen (fun i hi => by
    rw [hview, g2]
    exact holdsAll_words hvs i hi) (widths vs) le_rfl
  rw [Nat.sub_self, List.drop_zero] at hframe
  have hdec := decodeTuple_words (mem := vm'.memory) hty (ws := vs.flatMap wordsOf) (off := 0) (fun i hi => by
    rw [Nat.zero_add, List.getElem?_eq_getElem hi])
  unfold prepare at hp
  split at hp
  · cases hp
  · rename_i vm fpOffset ws henc
    split at hp
    · cases hp
    · rename_i vm1 hset
      injection hp with hp
      subst hp
      refine ⟨fuel, ⟨vs.map shown, vm', PublicAddressRanges.new vm'.programLength.val ws.length (widths vs)⟩, ?_, rfl⟩
      unfold runCairoProgram
      rw [henc]
      dsimp only
      have hrun : vm.runFromEntrypoint fuel k entry.pc fpOffset ws (callSlotSizes entry.returns) = some (.ok vm') := by
        unfold VM.runFromEntrypoint
        rw [hset]
        exact g1
      rw [hrun]
      dsimp only
      rw [hsz, hframe]
      dsimp only
      unfold decodeReturns
      rw [hr, hdec]
      dsimp only
      rw [hlen, if_neg (by simp)]

/-! ### Modules -/

theorem callTable_legal {md : Module} {n : ℕ} (h : ∀ f ∈ md, Numbered f) :
    ∀ d, callTable (md.map legalFunction) n d = callTable md n d
  | 0 => rfl
  | d + 1 => by
    funext k args
    simp only [callTable, List.getElem?_map, callTable_legal h d]
    cases hk : md[k]? with
    | none => rfl
    | some f => simp only [Option.map_some, C47_legalize _ f (h f (List.mem_of_getElem? hk))]

theorem genFunction_entries {md : Module} {g g' : Gen} {f : Function} (h : genFunction md g f = .ok g') :
    g'.entries = g.entries ++ [(f.name, g.instrs.length)] := by
  unfold genFunction at h
  split at h
  · cases h
  split at h
  · split at h
    · cases h
    · rename_i g1 b hb
      have k := keeps_genBlocks hb
      simp only [Except.ok.injEq] at h
      subst h
      exact k.entries
  · cases h

theorem genFunctions_entries {md : Module} : ∀ {fs : List Function} {g g' : Gen}, genFunctions md fs g = .ok g' →
    g'.entries.map Prod.fst = g.entries.map Prod.fst ++ fs.map Function.name
  | [], g, g', h => by cases h; simp
  | f :: fs, g, g', h => by
    simp only [genFunctions] at h
    split at h
    · cases h
    · rename_i g1 h1
      rw [genFunctions_entries h, genFunction_entries h1]
      simp

theorem lookup_of_nodup {α β : Type} [BEq α] [LawfulBEq α] : ∀ {l : List (α × β)}, (l.map Prod.fst).Nodup → ∀ {a : α} {b : β},
    (a, b) ∈ l → l.lookup a = some b
  | [], _, a, b, h => by cases h
  | (x, y) :: l, hn, a, b, h => by
    rw [List.map_cons, List.nodup_cons] at hn
    rcases List.mem_cons.mp h with h' | h'
    · cases h'; simp
    · have : a ≠ x := by
        intro e
        exact hn.1 (List.mem_map.mpr ⟨(a, b), h', e⟩)
      rw [List.lookup_cons, beq_false_of_ne this]
      exact lookup_of_nodup hn.2 h'

end Codegen
end CairoM
