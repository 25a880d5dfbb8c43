import Mathlib.Data.ZMod.Basic
import Mathlib.SetTheory.Cardinal.Finite
import Verif.MerkleRun

/-!
# C28 and C29: the memory commitment

`contents`, `leaf`, `subtree`, `fullRoot` and `Collision` (in `Merkle`) are the specification: the complete binary tree over
the four limbs of the 2^28 zero-defaulted cells.
-/

namespace CairoM

open Abi Memory

namespace Adapter

/-- A memory map that can be committed to: one entry per key, keys in the address space. -/
structure Committable (m : CellMap) : Prop where
  nodup : (m.map Prod.fst).Nodup
  inRange : ∀ p ∈ m, p.1.val < 2 ^ 28
  nonempty : m ≠ []
  small : m.length < 2 ^ 28

/-- The root of the tree built for a map: `none` when the builder panics, `some none` when it returns no root. -/
def root (H : M31 → M31 → M31) (isPublic : M31 → Bool) (m : CellMap) : Option (Option M31) :=
  (buildTree H isPublic m).map Prod.snd

/-- C28: the sparse tree has the root of the complete tree over the zero-defaulted contents, whichever cells are public. -/
theorem C28_root_of_contents (H : M31 → M31 → M31) (isPublic : M31 → Bool) (m : CellMap) (hm : Committable m) :
    root H isPublic m = some (some (fullRoot H (contents m))) := by
  unfold root
  rw [buildTree_fullRoot H isPublic hm.nonempty hm.inRange hm.nodup hm.small]
  rfl

/-- C28: the root depends only on the zero-defaulted contents — neither on which zero cells are listed, nor on the order of
the entries, nor on clocks, multiplicities or public ranges. -/
theorem C28_root_determined (H : M31 → M31 → M31) (pub1 pub2 : M31 → Bool) (m1 m2 : CellMap) (h1 : Committable m1)
    (h2 : Committable m2) (h : ∀ a < 2 ^ 28, contents m1 a = contents m2 a) : root H pub1 m1 = root H pub2 m2 := by
  rw [C28_root_of_contents H pub1 m1 h1, C28_root_of_contents H pub2 m2 h2, fullRoot_congr h]

/-- C28, binding: if two memories have the same root but differ at an address, then at some inner node of the two trees the
compression function maps two different pairs to the same value. -/
theorem C28_binding (H : M31 → M31 → M31) (pub1 pub2 : M31 → Bool) (m1 m2 : CellMap) (h1 : Committable m1)
    (h2 : Committable m2) (h : root H pub1 m1 = root H pub2 m2) (a : ℕ) (ha : a < 2 ^ 28)
    (hne : contents m1 a ≠ contents m2 a) :
    ∃ height j, height < 30 ∧ Collision H (contents m1) (contents m2) height j := by
  rw [C28_root_of_contents H pub1 m1 h1, C28_root_of_contents H pub2 m2 h2] at h
  injection h with h
  injection h with h
  by_contra hc
  apply hne
  apply leaf_eq_of
  intro i hi
  by_contra hl
  obtain ⟨k, j, hk, hcol⟩ := collision_of_ne 30 0 (4 * a + i) (by omega) h (by
    rw [Nat.zero_mul, Nat.zero_add]; exact hl)
  exact hc ⟨k, j, hk, hcol⟩

/-- C28, refusal: a map with `2^28` entries or more has no root, although `2^28` different cells fit in the tree. -/
theorem C28_full_refused (H : M31 → M31 → M31) (isPublic : M31 → Bool) (m : CellMap) (h : 2 ^ 28 ≤ m.length) :
    root H isPublic m = none := by
  have hne : m.isEmpty = false := by
    cases m with
    | nil => norm_num at h
    | cons a m => rfl
  simp only [root, buildTree, hne, Bool.false_eq_true, if_false, ge_iff_le, h, if_true, Option.map_none]

/-- C28 without a computational assumption is false: the digest is a single field element, so whatever the compression
function, two different one-cell memories have the same root. -/
theorem C28_violated_binding (H : M31 → M31 → M31) (isPublic : M31 → Bool) : ∃ m1 m2 : CellMap, Committable m1 ∧
    Committable m2 ∧ root H isPublic m1 = root H isPublic m2 ∧ contents m1 0 ≠ contents m2 0 := by
  let mem : M31 × M31 → CellMap := fun p => [(0, ⟨⟨p.1, p.2, 0, 0⟩, 0, 0⟩)]
  have hc : ∀ p, Committable (mem p) := by
    intro p
    refine ⟨by simp [mem], ?_, by simp [mem], by simp [mem]⟩
    intro q hq
    simp only [mem, List.mem_singleton] at hq
    rw [hq]
    show (0 : M31).val < 2 ^ 28
    decide
  have hcon : ∀ p, contents (mem p) 0 = ⟨p.1, p.2, 0, 0⟩ := by
    intro p
    unfold contents CellMap.get
    simp [mem, M31.ofU32]
  have hni : ¬ Function.Injective fun p => fullRoot H (contents (mem p)) := by
    intro hinj
    have hcard := Nat.card_le_card_of_injective _ hinj
    rw [Nat.card_prod, Nat.card_zmod] at hcard
    have hP : P = 2147483647 := rfl
    rw [hP] at hcard
    norm_num at hcard
  rw [Function.Injective] at hni
  push Not at hni
  obtain ⟨p, q, heq, hne⟩ := hni
  refine ⟨mem p, mem q, hc p, hc q, ?_, ?_⟩
  · rw [C28_root_of_contents H isPublic _ (hc p), C28_root_of_contents H isPublic _ (hc q)]
    rw [heq]
  · rw [hcon, hcon]
    intro h
    injection h with e1 e2
    exact hne (Prod.ext e1 e2)

/-- C28 is false of the empty map: it has the contents of a map listing one zero cell, but no root. -/
theorem C28_violated_empty (H : M31 → M31 → M31) (isPublic : M31 → Bool) : ∃ m : CellMap, Committable m ∧
    (∀ a < 2 ^ 28, contents m a = contents [] a) ∧ root H isPublic m ≠ root H isPublic [] := by
  have hc : Committable [(5, ⟨QM31.zero, 0, 0⟩)] := by
    refine ⟨by simp, ?_, by simp, by simp⟩
    intro p hp
    rw [List.mem_singleton] at hp
    subst hp
    decide
  refine ⟨_, hc, ?_, ?_⟩
  · intro a _
    unfold contents CellMap.get
    rw [List.find?_cons]
    split <;> rfl
  · rw [C28_root_of_contents H isPublic _ hc]
    intro h
    injection h with h
    cases h

/-- Two maps with the same contents, listed differently. -/
example : Committable [(3, ⟨QM31.ofM31 7, 0, 0⟩), (4, ⟨QM31.zero, 0, 1⟩)] ∧
    Committable [(9, ⟨QM31.zero, 2, 0⟩), (3, ⟨QM31.ofM31 7, 5, 1⟩)] := by
  constructor
  · exact ⟨by decide, by decide, by decide, by simp⟩
  · exact ⟨by decide, by decide, by decide, by simp⟩

/-! ### C29 -/

/-- No cell outside a segment's initial memory is first touched with a nonzero value. -/
def TouchesZeroFirst (t : Segment) : Prop :=
  ∀ a, segmentInitialMemory t a = none → ∀ e, t.memoryTrace.find? (fun e => e.addr = a) = some e → e.value = QM31.zero

theorem contents_eq (m : CellMap) (a : ℕ) : contents m a = (valueAt m (M31.ofU32 a)).getD QM31.zero := rfl

/-- The final memory of an imported segment is the memory after its last step. -/
theorem C29_final_contents {s : Segment} {w w' : VM} {xs : List StepInfo} (h : IsRecordOf s w w' xs)
    (hp : ∀ x ∈ xs, ¬ x.instr.IsPrint) (r : PublicAddressRanges) (p : Input) (hi : importSegment s r = .ok p) (a : ℕ) :
    contents p.memory.final a = w'.memory.view (M31.ofU32 a) := by
  obtain ⟨p', h1, -, h2, -⟩ := import_values h hp r
  rw [hi] at h1
  injection h1 with h1
  subst h1
  obtain ⟨-, -, hlog, hview, -⟩ := h.history.record h.wf
  rw [h.fresh.log, List.nil_append] at hlog
  rw [contents_eq, h2, hview, ← hlog, ← h.log, replay_last, ← segmentInitialMemory_eq h.wf h.locals h.heap]
  cases s.memoryTrace.reverse.find? (fun e => decide (e.addr = M31.ofU32 a)) <;> rfl

/-- The initial memory of an imported segment is the memory before its first step, except that a cell outside the runner's
initial memory gets the first value it is accessed with. -/
theorem C29_initial_contents {t : Segment} {w w' : VM} {xs : List StepInfo} (h : IsRecordOf t w w' xs)
    (hp : ∀ x ∈ xs, ¬ x.instr.IsPrint) (r : PublicAddressRanges) (q : Input) (hi : importSegment t r = .ok q) (a : ℕ) :
    contents q.memory.initial a = match segmentInitialMemory t (M31.ofU32 a) with
      | some _ => w.memory.view (M31.ofU32 a)
      | none => ((t.memoryTrace.find? fun e => e.addr = M31.ofU32 a).map MemoryEntry.value).getD QM31.zero := by
  obtain ⟨q', h1, -, -, h2⟩ := import_values h hp r
  rw [hi] at h1
  injection h1 with h1
  subst h1
  rw [contents_eq, h2, ← segmentInitialMemory_eq h.wf h.locals h.heap]
  cases segmentInitialMemory t (M31.ofU32 a) <;> rfl

/-- C29, partial: for consecutive segments of a print-free run, the final memory of the one, as seen by the prover, agrees at
every address with the initial memory of the next, so that the two roots coincide — provided the next segment does not first
touch a cell outside its initial memory by writing a nonzero value. Missing: that case, in which the claim is false
(`C29_violated`). -/
theorem C29_roots_chain_partial (s t : Segment) (ws ws' wt wt' : VM) (xs ys : List StepInfo)
    (hs : IsRecordOf s ws ws' xs) (ht : IsRecordOf t wt wt' ys) (hf : Follows s t)
    (hp : ∀ x ∈ xs, ¬ x.instr.IsPrint) (hq : ∀ y ∈ ys, ¬ y.instr.IsPrint) (hz : TouchesZeroFirst t)
    (r r' : PublicAddressRanges) :
    ∃ p q, importSegment s r = .ok p ∧ importSegment t r' = .ok q ∧
      (∀ a < 2 ^ 28, contents p.memory.final a = contents q.memory.initial a) ∧
      (p.memory.final ≠ [] → q.memory.initial ≠ [] → p.memory.final.length < 2 ^ 28 → q.memory.initial.length < 2 ^ 28 →
        ∀ H pub1 pub2, root H pub1 p.memory.final = root H pub2 q.memory.initial) := by
  obtain ⟨p, p1, p2, p3, -⟩ := import_values hs hp r
  obtain ⟨q, q1, q2, -, q4⟩ := import_values ht hq r'
  have hcont : ∀ a < 2 ^ 28, contents p.memory.final a = contents q.memory.initial a := by
    intro a ha
    have e1 := C29_final_contents hs hp r p p1 a
    have e2 := C29_initial_contents ht hq r' q q1 a
    have e3 := hf.2 (M31.ofU32 a)
    rw [segmentInitialMemory_eq ht.wf ht.locals ht.heap] at e3
    obtain ⟨-, -, hlog, hview, -⟩ := hs.history.record hs.wf
    rw [hs.fresh.log, List.nil_append] at hlog
    have hv : (fun b => (segmentInitialMemory s b).getD QM31.zero) = ws.memory.view :=
      funext fun b => segmentInitialMemory_eq hs.wf hs.locals hs.heap b
    rw [hv, hs.log, hlog, ← hview] at e3
    rw [e1, ← e3, e2]
    cases hn : segmentInitialMemory t (M31.ofU32 a) with
    | some v => rfl
    | none =>
      have hv0 : wt.memory.view (M31.ofU32 a) = QM31.zero := by
        rw [← segmentInitialMemory_eq ht.wf ht.locals ht.heap, hn]; rfl
      simp only
      rw [hv0]
      cases hf : t.memoryTrace.find? (fun e => decide (e.addr = M31.ofU32 a)) with
      | none => rfl
      | some e => exact (hz _ hn e hf).symm
  refine ⟨p, q, p1, q1, hcont, ?_⟩
  intro n1 n2 l1 l2 H pub1 pub2
  refine C28_root_determined H pub1 pub2 _ _ ⟨p2.final, ?_, n1, l1⟩ ⟨q2.initial, ?_, n2, l2⟩ hcont
  · refine import_inRange hs ?_
    intro a ha
    rw [p3] at ha
    cases hf : s.memoryTrace.reverse.find? (fun e => decide (e.addr = a)) with
    | some e =>
      right
      refine ⟨e, List.mem_reverse.1 (List.mem_of_find?_eq_some hf), ?_⟩
      simpa using List.find?_some hf
    | none => rw [hf] at ha; exact .inl ha
  · refine import_inRange ht ?_
    intro a ha
    rw [q4] at ha
    cases hi : segmentInitialMemory t a with
    | some v => exact .inl rfl
    | none =>
      right
      rw [hi] at ha
      cases hf : t.memoryTrace.find? (fun e => decide (e.addr = a)) with
      | some e =>
        refine ⟨e, List.mem_of_find?_eq_some hf, ?_⟩
        simpa using List.find?_some hf
      | none => rw [hf] at ha; cases ha

/-- C29, partial, for every pair of consecutive segments of a finished run. -/
theorem C29_consecutive_partial (vm : VM) (hidle : Idle vm) (hprog : vm.finalPc ≠ 0)
    (pcEntry fpOffset numRet : ℕ) (args : List M31) (k : ℕ) (hk : 1 ≤ k) (fuel : ℕ) (vm' vm0 : VM)
    (hset : vm.setupEntrypoint pcEntry fpOffset args numRet = .ok vm0) (hwf : vm0.memory.WF)
    (h : vm.runFromEntrypoint fuel k pcEntry fpOffset args numRet = some (.ok vm'))
    (pre post : List Segment) (s t : Segment) (hsegs : vm'.segments = pre ++ s :: t :: post) :
    ∃ ws ws' xs wt wt' ys, IsRecordOf s ws ws' xs ∧ IsRecordOf t wt wt' ys ∧
      ((∀ x ∈ xs ++ ys, ¬ x.instr.IsPrint) → TouchesZeroFirst t → ∀ r r', ∃ p q, importSegment s r = .ok p ∧
        importSegment t r' = .ok q ∧ ∀ a < 2 ^ 28, contents p.memory.final a = contents q.memory.initial a) := by
  have hrec := C25_recovers_execution vm hidle hprog pcEntry fpOffset numRet args k fuel vm' vm0 hset hwf h
    ⟨(0, 0), (0, 0), (0, 0)⟩
  obtain ⟨-, -, -, -, hch, -⟩ := C15_segments_chain vm hidle hprog pcEntry fpOffset numRet args k hk fuel vm' vm0 hset
    hwf h
  rw [hsegs] at hrec hch
  obtain ⟨ws, ws', xs, hs, -⟩ := hrec s (by simp)
  obtain ⟨wt, wt', ys, ht, -⟩ := hrec t (by simp)
  have hf : Follows s t := by
    have := List.isChain_append.1 hch
    exact (List.isChain_cons_cons.1 this.2.1).1
  refine ⟨ws, ws', xs, wt, wt', ys, hs, ht, fun hp hz r r' => ?_⟩
  obtain ⟨p, q, h1, h2, h3, -⟩ := C29_roots_chain_partial s t ws ws' wt wt' xs ys hs ht hf
    (fun x hx => hp x (List.mem_append_left _ hx)) (fun x hx => hp x (List.mem_append_right _ hx)) hz r r'
  exact ⟨p, q, h1, h2, h3⟩

theorem touchesZeroFirst_of_check {t : Segment}
    (h : (t.memoryTrace.all fun e => (segmentInitialMemory t e.addr).isSome || e.value == QM31.zero) = true) :
    TouchesZeroFirst t := by
  intro a ha e he
  have h1 := List.all_eq_true.1 h e (List.mem_of_find?_eq_some he)
  have h2 : e.addr = a := by simpa using List.find?_some he
  rw [h2, ha] at h1
  simpa using h1

/-- The segments of a run of a program from entry point 0. -/
def segmentsOf (words : List ProgramData) (k : ℕ) : List Segment :=
  match (VM.load words).runFromEntrypoint 50 k 0 2 [] 0 with
  | some (.ok v) => v.segments
  | _ => []

/-- A program that first writes its highest local cell. -/
def highFirst : List ProgramData := [.instruction (.StoreImm 3 5), .instruction (.StoreImm 4 1),
  .instruction (.StoreImm 7 2), .instruction .Ret]

/-- It runs in two segments, the second of which meets the hypothesis of C29. -/
example : ∃ s t, segmentsOf highFirst 2 = [s, t] ∧ TouchesZeroFirst t ∧ t.memoryTrace.length = 5 := by
  have h : (match segmentsOf highFirst 2 with
    | [_, t] => (t.memoryTrace.all fun e => (segmentInitialMemory t e.addr).isSome || e.value == QM31.zero) &&
        t.memoryTrace.length == 5
    | _ => false) = true := by decide +kernel
  split at h
  · next s t hst =>
    rw [Bool.and_eq_true] at h
    exact ⟨s, t, hst, touchesZeroFirst_of_check h.1, by simpa using h.2⟩
  · cases h

/-- The program storing 7 in its first two local cells, run two steps per segment. -/
def twoStores : List ProgramData := [.instruction (.StoreImm 7 0), .instruction (.StoreImm 7 1),
  .instruction (.StoreImm 7 2), .instruction .Ret]

/-- The contents at address 8 on both sides of the first segment boundary. -/
def boundary : Option (QM31 × QM31) :=
  match (segmentsOf twoStores 2).map fun s => importSegment s ⟨(0, 4), (0, 0), (0, 0)⟩ with
  | [.ok p, .ok q] => some (contents p.memory.final 8, contents q.memory.initial 8)
  | _ => none

/-- C29 is false in general: the second segment of this run stores 7 in a cell beyond its initial memory. The adapter takes
the stored value for the initial one, whereas the cell is zero in the final memory of the first segment. -/
theorem C29_violated : boundary = some (QM31.zero, QM31.ofM31 7) := by decide +kernel

end Adapter
end CairoM
