import Verif.CopyProps
import Verif.ProgramViolations

/-!
# C69: elimination of common subexpressions preserves results

The pass replaces a second computation of the same expression in a block by the first one, then removes the
instructions of the block whose result is not used.
-/

namespace CairoM
namespace Lang

open Mir Codegen Abi

variable {f : Function} {calls : Calls}

theorem destination_some {i : Instr} {d : ValueId} (h : i.destination = some d) : i.destinations = [d] := by
  unfold Instr.destination at h
  split at h
  · rename_i x hx; injection h with h; subst h; exact hx
  · cases h

theorem defOf_key {i : Instr} {k : Key} {d : ValueId} (hk : keyOf i = some k) (hd : i.destination = some d) :
    DefOf i d := by
  refine ⟨destination_some hd, ?_, ?_⟩
  · cases i <;> first | rfl | simp [keyOf] at hk
  · rintro ds c args sig rfl; simp [keyOf] at hk

/-- Two instructions with the same key define the same value. -/
theorem same_key_value {i j : Instr} {k k' : Key} {d v : ValueId} (hi : keyOf i = some k) (hj : keyOf j = some k')
    (hk : k'.same k = true) (hd : i.destination = some d) (hv : j.destination = some v) {e : Env}
    (he : evalInstr calls i e = some e) (he' : evalInstr calls j e = some e) : e d = e v := by
  rw [still_iff (defOf_key hi hd)] at he
  rw [still_iff (defOf_key hj hv)] at he'
  rw [← he.2, ← he'.2]
  have h1 := he.1
  have h2 := he'.1
  rw [← he.2] at h1
  rw [← he'.2] at h2
  unfold keyOf at hi hj
  split at hi <;> simp only [rhs, Option.isSome_none, reduceCtorEq] at h1
  · injection hi with hi; subst hi
    split at hj <;> simp only [rhs, Option.isSome_none, reduceCtorEq] at h2
    · injection hj with hj; subst hj
      simp only [Key.same, decide_eq_true_eq] at hk
      obtain ⟨rfl, rfl, rfl⟩ := hk
      rfl
    · injection hj with hj; subst hj; simp [Key.same] at hk
    · simp at hj
  · injection hi with hi; subst hi
    split at hj <;> simp only [rhs, Option.isSome_none, reduceCtorEq] at h2
    · injection hj with hj; subst hj; simp [Key.same] at hk
    · injection hj with hj; subst hj
      simp only [Key.same, decide_eq_true_eq] at hk
      obtain ⟨rfl, rfl⟩ := hk
      rfl
    · simp at hj
  · simp at hi

/-- `d` is computed by a later instruction with the key of the one that computes `v`. -/
def Repeats (is : List Instr) (d v : ValueId) : Prop :=
  ∃ p j q i r k k', is = p ++ j :: (q ++ i :: r) ∧ keyOf i = some k ∧ keyOf j = some k' ∧ k'.same k = true ∧
    i.destination = some d ∧ j.destination = some v

theorem lookupKey_mem {k : Key} {t : List (Key × ValueId)} {v : ValueId} (h : lookupKey k t = some v) :
    ∃ k', (k', v) ∈ t ∧ k'.same k = true := by
  induction t with
  | nil => simp [lookupKey] at h
  | cons c t ih =>
    obtain ⟨k', w⟩ := c
    simp only [lookupKey] at h
    split_ifs at h with hs
    · injection h with h; subst h; exact ⟨k', by simp, hs⟩
    · obtain ⟨k'', h1, h2⟩ := ih h
      exact ⟨k'', by simp [h1], h2⟩

theorem cseFind_repeats {all : List Instr} (is : List Instr) (table : List (Key × ValueId)) (pre : List Instr)
    (hp : all = pre ++ is)
    (ht : ∀ k v, (k, v) ∈ table → ∃ p j q, pre = p ++ j :: q ∧ keyOf j = some k ∧ j.destination = some v)
    {d v : ValueId} (h : (d, v) ∈ cseFind is table) : Repeats all d v := by
  induction is generalizing table pre with
  | nil => simp [cseFind] at h
  | cons i is ih =>
    have hp' : all = (pre ++ [i]) ++ is := by rw [hp]; simp
    have hext : ∀ k v, (k, v) ∈ table → ∃ p j q, pre ++ [i] = p ++ j :: q ∧ keyOf j = some k ∧
        j.destination = some v := by
      intro k v hm
      obtain ⟨p, j, q, rfl, h1, h2⟩ := ht k v hm
      exact ⟨p, j, q ++ [i], by simp, h1, h2⟩
    simp only [cseFind] at h
    split at h
    · rename_i k d' hk hd
      split at h
      · rename_i v' hl
        rcases List.mem_cons.1 h with heq | h
        · simp only [Prod.mk.injEq] at heq
          obtain ⟨rfl, rfl⟩ := heq
          obtain ⟨k', hm, hs⟩ := lookupKey_mem hl
          obtain ⟨p, j, q, rfl, h1, h2⟩ := ht k' v hm
          exact ⟨p, j, q, i, is, k, k', by rw [hp]; simp, hk, h1, hs, hd, h2⟩
        · exact ih table _ hp' hext h
      · refine ih ((k, d') :: table) _ hp' (fun k1 v1 hm => ?_) h
        rcases List.mem_cons.1 hm with heq | hm
        · simp only [Prod.mk.injEq] at heq
          obtain ⟨rfl, rfl⟩ := heq
          exact ⟨pre, i, [], rfl, hk, hd⟩
        · exact hext k1 v1 hm
    · exact ih table _ hp' hext h

theorem cseFind_keys (is : List Instr) (table : List (Key × ValueId)) (hn : (defs is).Nodup)
    (hd : ∀ v ∈ table.map Prod.snd, v ∉ defs is) :
    (∀ d ∈ (cseFind is table).map Prod.fst, d ∈ defs is) ∧
    (∀ v ∈ (cseFind is table).map Prod.snd, v ∈ table.map Prod.snd ∨ v ∈ defs is) ∧
    ((cseFind is table).map Prod.fst).Nodup ∧
    ∀ v ∈ (cseFind is table).map Prod.snd, v ∉ (cseFind is table).map Prod.fst := by
  induction is generalizing table with
  | nil => simp [cseFind]
  | cons i is ih =>
    rw [defs_cons] at hn
    obtain ⟨hn1, hn2, hn3⟩ := List.nodup_append.1 hn
    have hd' : ∀ v ∈ table.map Prod.snd, v ∉ defs is := fun v hv hm =>
      hd v hv (by rw [defs_cons]; exact List.mem_append_right _ hm)
    simp only [cseFind]
    split
    · rename_i k d hk hdest
      have hds := destination_some hdest
      have hdis : d ∉ defs is := fun hm => hn3 d (by rw [hds]; simp) d hm rfl
      have hdi : d ∈ defs (i :: is) := by rw [defs_cons, hds]; simp
      split
      · rename_i v hl
        obtain ⟨g1, g2, g3, g4⟩ := ih table hn2 hd'
        obtain ⟨k', hm, _⟩ := lookupKey_mem hl
        have hvt : v ∈ table.map Prod.snd := List.mem_map.2 ⟨(k', v), hm, rfl⟩
        refine ⟨?_, ?_, ?_, ?_⟩
        · intro x hx
          rw [List.map_cons, List.mem_cons] at hx
          rcases hx with rfl | hx
          · exact hdi
          · rw [defs_cons]; exact List.mem_append_right _ (g1 x hx)
        · intro x hx
          rw [List.map_cons, List.mem_cons] at hx
          rcases hx with rfl | hx
          · exact Or.inl hvt
          · rw [defs_cons]; exact (g2 x hx).imp_right (List.mem_append_right _)
        · rw [List.map_cons]
          exact List.nodup_cons.2 ⟨fun hx => hdis (g1 d hx), g3⟩
        · intro x hx hx'
          rw [List.map_cons, List.mem_cons] at hx hx'
          rcases hx with rfl | hx
          · rcases hx' with rfl | hx'
            · exact hd _ hvt hdi
            · exact hd' _ hvt (g1 _ hx')
          · rcases hx' with rfl | hx'
            · rcases g2 _ hx with h | h
              · exact hd _ h hdi
              · exact hdis h
            · exact g4 x hx hx'
      · obtain ⟨g1, g2, g3, g4⟩ := ih ((k, d) :: table) hn2 (by
          intro x hx
          rw [List.map_cons, List.mem_cons] at hx
          rcases hx with rfl | hx
          · exact hdis
          · exact hd' x hx)
        refine ⟨fun x hx => ?_, fun x hx => ?_, g3, g4⟩
        · rw [defs_cons]; exact List.mem_append_right _ (g1 x hx)
        · rcases g2 x hx with h | h
          · rw [List.map_cons, List.mem_cons] at h
            rcases h with rfl | h
            · exact Or.inr hdi
            · exact Or.inl h
          · rw [defs_cons]; exact Or.inr (List.mem_append_right _ h)
    · obtain ⟨g1, g2, g3, g4⟩ := ih table hn2 hd'
      refine ⟨fun x hx => ?_, fun x hx => ?_, g3, g4⟩
      · rw [defs_cons]; exact List.mem_append_right _ (g1 x hx)
      · rw [defs_cons]; exact (g2 x hx).imp_right (List.mem_append_right _)

/-- The instructions kept when block `id` is processed. -/
def cseKeepAt (id : BlockId) (counts : ValueId → ℕ) (b : BlockId) (i : Instr) : Bool :=
  if b = id then cseKeep counts i else true

theorem cseKeep_rename (counts : ValueId → ℕ) (τ : ValueId → ValueId) (i : Instr) :
    cseKeep counts (Instr.rename τ i) = cseKeep counts i := by
  unfold cseKeep Instr.destination
  rw [rename_dests]

theorem cse_renames (calls : Calls) (hs : Ssa f) {id : BlockId} {blk0 : Block} (h0 : f.blocks[id]? = some blk0)
    {rs : List (ValueId × ValueId)} (hrs : rs = cseFind blk0.instrs []) :
    Renames calls f { replaceList rs f with blocks := (replaceList rs f).blocks.modify id fun b =>
        { b with instrs := b.instrs.filter (cseKeep (useCount (replaceList rs f).blocks)) } }
      (renamed rs) (cseKeepAt id (useCount (replaceList rs f).blocks)) := by
  obtain ⟨k1, k2, k3, k4⟩ := cseFind_keys blk0.instrs [] (hs.nodup h0) (by simp)
  rw [← hrs] at k1 k2 k3 k4
  have hdef : ∀ v, v ∈ defs blk0.instrs → v ∈ defs (f.blocks.flatMap Block.instrs) := fun v hv => by
    rw [defs_flatMap]; exact List.mem_flatMap.2 ⟨blk0, List.mem_of_getElem? h0, hv⟩
  have hget : ∀ b : ℕ, (replaceList rs f).blocks[b]? = (f.blocks[b]?).map fun blk =>
      ⟨blk.instrs.map (Instr.rename (renamed rs)), Terminator.rename (renamed rs) blk.term⟩ := fun b => by
    rw [replaceList_blocks, List.getElem?_map]
  -- what is used after the renaming is kept
  have hkept : ∀ w, 0 < useCount (replaceList rs f).blocks w →
      ¬ Dropped f (cseKeepAt id (useCount (replaceList rs f).blocks)) w := by
    rintro w hw ⟨b, blk, hb, i, hi, hk, hd⟩
    unfold cseKeepAt at hk
    split_ifs at hk
    unfold cseKeep at hk
    split at hk
    · rename_i d hdest
      rw [destination_some hdest, List.mem_singleton] at hd
      subst hd
      simp only [decide_eq_false_iff_not] at hk
      exact hk hw
    · cases hk
  have huse : ∀ (b : ℕ) blk, f.blocks[b]? = some blk → ∀ i ∈ blk.instrs, ∀ v ∈ i.uses,
      0 < useCount (replaceList rs f).blocks (renamed rs v) := by
    intro b blk hb i hi v hv
    refine useCount_pos_instr (b := ⟨blk.instrs.map (Instr.rename (renamed rs)), Terminator.rename (renamed rs) blk.term⟩)
      (i := Instr.rename (renamed rs) i) ?_ (List.mem_map_of_mem hi) (by rw [rename_uses]; exact List.mem_map_of_mem hv)
    exact List.mem_of_getElem? (by rw [hget b, hb]; rfl)
  refine ⟨?_, ?_, ?_, ?_, ?_, ?_, ?_, ?_⟩
  · refine replaceList_params (rs := rs) (f := f) fun p hp hm => ?_
    exact (List.nodup_append.1 hs.single).2.2 p hp p (hdef p (k1 p hm)) rfl
  · exact replaceList_returns (rs := rs) (f := f) fun p hp hm => hs.returns p hp (hdef p (k1 p hm))
  · intro r hr
    refine replaceList_types (rs := rs) (f := f) (fun hm => hs.returns r hr (hdef r (k1 r hm))) (Or.inr fun hm => ?_)
    rcases k2 r hm with h | h
    · simp at h
    · exact hs.returns r hr (hdef r h)
  · intro b
    simp only [List.getElem?_modify]
    rw [hget b]
    cases hb : f.blocks[b]? with
    | none => rfl
    | some blk =>
      simp only [Option.map_eq_map, Option.map_some, Option.some.injEq]
      by_cases hid : id = b
      · subst hid
        simp only [if_true]
        congr 1
        rw [List.filter_map]
        congr 1
        refine List.filter_congr fun i _ => ?_
        simp only [cseKeepAt, if_true, Function.comp_apply]
        exact cseKeep_rename _ _ i
      · simp only [if_neg hid]
        congr 1
        have : blk.instrs.filter (cseKeepAt id (useCount (replaceList rs f).blocks) b) = blk.instrs :=
          List.filter_eq_self.2 fun i _ => by simp [cseKeepAt, Ne.symm hid]
        rw [this]
  · intro b blk pre post hr hb hp v hav
    by_cases hv : v ∈ rs.map Prod.fst
    · obtain ⟨⟨d, w⟩, hm, rfl⟩ := List.mem_map.1 hv
      have hw : w ∈ rs.map Prod.snd := List.mem_map.2 ⟨(d, w), hm, rfl⟩
      rw [renamed_of_mem k3 hm (k4 w hw)]
      obtain ⟨p, j, q, i, r, k, k', hsplit, hi, hj, hsame, hd, hdw⟩ :=
        cseFind_repeats (all := blk0.instrs) blk0.instrs [] [] rfl (by simp) (hrs ▸ hm)
      have hdi := defOf_key hi hd
      have hdj := defOf_key hj hdw
      have hsi : blk0.instrs = (p ++ j :: q) ++ i :: r := by rw [hsplit]; simp
      have hwav : Avail f b pre w := hs.avail_trans h0 hsi hdi.mem (fun _ => by
        rw [defs_append, defs_cons]; simp [hdj.mem]) hb hp hav
      refine ⟨hwav, fun e he => ?_⟩
      exact same_key_value (calls := calls) hi hj hsame hd hdw (he id blk0 _ i r d h0 hsi hdi hav)
        (he id blk0 p j _ w h0 hsplit hdj hwav)
    · rw [renamed_of_not_mem hv]
      exact ⟨hav, fun e _ => rfl⟩
  · intro b blk hr hb i hi hk hphi v hv
    exact hkept _ (huse b blk hb i hi v hv)
  · intro b blk hb d ty ss hi hk p v hv bp hr hbp ht
    refine hkept _ (huse b blk hb _ hi v ?_)
    simp only [Instr.uses, valuesIds, List.mem_flatMap, List.mem_map]
    exact ⟨.Operand v, ⟨_, hv, rfl⟩, by simp [Value.ids]⟩
  · intro b blk hr hb v hv
    refine hkept _ (useCount_pos_term (b := ⟨blk.instrs.map (Instr.rename (renamed rs)),
      Terminator.rename (renamed rs) blk.term⟩) ?_ (by rw [rename_term_uses]; exact List.mem_map_of_mem hv))
    exact List.mem_of_getElem? (by rw [hget b, hb]; rfl)

theorem cseBlock_run (calls : Calls) (hs : Ssa f) (id : BlockId) (n : ℕ) {args : List Val}
    (hf : run calls f n args ≠ .fault) :
    run calls (cseBlock id f) n args = run calls f n args ∧ Ssa (cseBlock id f) := by
  unfold cseBlock
  split
  · exact ⟨rfl, hs⟩
  · rename_i blk0 h0
    split
    · exact ⟨rfl, hs⟩
    · have h := cse_renames calls hs h0 rfl
      exact ⟨rename_run hs h n hf, rename_ssa hs h⟩

/-- **C69** (results): elimination of common subexpressions in a function in static single assignment form keeps the
results of runs that do not fault, and the form.

Missing: runs that fault; the pass also removes calls whose result is not used (`C69_violated_call`). -/
theorem C69_common_subexpressions_partial (calls : Calls) (f : Function) (hs : Ssa f) (n : ℕ) (args : List Val)
    (hf : run calls f n args ≠ .fault) :
    run calls (localCse f) n args = run calls f n args ∧ Ssa (localCse f) := by
  unfold localCse
  generalize List.range f.blocks.length = ids
  induction ids generalizing f with
  | nil => exact ⟨rfl, hs⟩
  | cons id ids ih =>
    rw [List.foldl_cons]
    obtain ⟨h1, h2⟩ := cseBlock_run calls hs id n hf
    obtain ⟨g1, g2⟩ := ih (cseBlock id f) h2 (by rw [h1]; exact hf)
    exact ⟨g1.trans h1, g2⟩

/-- A loop that adds `(x + k) * (x + k)` to an accumulator `n` times, writing `x + k` twice. -/
def cseLoop : Function :=
  ⟨['m'],
    [⟨[.Assign 2 (.Literal (.Integer 0)) .Felt], .Jump 1⟩,
     ⟨[.Phi 3 .Felt [(0, .Operand 2), (2, .Operand 8)], .Phi 4 .Felt [(0, .Operand 1), (2, .Operand 9)],
       .BinaryOp .Neq 5 (.Operand 4) (.Literal (.Integer 0))], .If (.Operand 5) 2 3⟩,
     ⟨[.BinaryOp .Add 6 (.Operand 0) (.Operand 4), .BinaryOp .Add 7 (.Operand 0) (.Operand 4),
       .BinaryOp .Mul 10 (.Operand 6) (.Operand 7), .BinaryOp .Add 8 (.Operand 3) (.Operand 10),
       .BinaryOp .Sub 9 (.Operand 4) (.Literal (.Integer 1))], .Jump 1⟩,
     ⟨[], .Return [.Operand 3]⟩],
    [0, 1], [12], 13, types [(0, .Felt), (1, .Felt), (2, .Felt), (3, .Felt), (4, .Felt), (5, .Bool), (6, .Felt),
      (7, .Felt), (8, .Felt), (9, .Felt), (10, .Felt), (12, .Felt)]⟩

theorem cseLoop_ssa : Ssa cseLoop :=
  ssaCheck_sound (cert := [[0, 1], [0, 1], [0, 1, 3, 4], [0, 1, 3, 4]]) (by decide +kernel)

/-- The hypotheses of `C69_common_subexpressions_partial` are met by a loop; one instruction is removed. -/
example : run (fun _ _ => none) cseLoop 20 [.felt 1, .felt 3] = .returned [.felt 29] ∧
    run (fun _ _ => none) (localCse cseLoop) 20 [.felt 1, .felt 3] = .returned [.felt 29] ∧
    ((localCse cseLoop).blocks.map fun b => b.instrs.length) = [1, 3, 4, 0] := by
  have h := (C69_common_subexpressions_partial (fun _ _ => none) cseLoop cseLoop_ssa 20
    [.felt 1, .felt 3] (by decide +kernel)).1
  refine ⟨by decide +kernel, h.trans (by decide +kernel), by decide +kernel⟩

/-- `fn check(x: felt) -> felt { assert x == 1; return x; }` -/
def checkFn : Function :=
  ⟨['c', 'h', 'e', 'c', 'k'], [⟨[.AssertEq (.Operand 0) (.Literal (.Integer 1))], .Return [.Operand 0]⟩], [0], [0], 1,
    types [(0, .Felt)]⟩

/-- `fn f(x: felt) -> felt { check(x); return (x + x) * (x + x); }` -/
def guardFn : Function :=
  ⟨['f'], [⟨[.Call [1] 0 [.Operand 0] ⟨[.Felt], [.Felt]⟩, .BinaryOp .Add 2 (.Operand 0) (.Operand 0),
     .BinaryOp .Add 3 (.Operand 0) (.Operand 0), .BinaryOp .Mul 4 (.Operand 2) (.Operand 3)], .Return [.Operand 4]⟩],
    [0], [4], 5, types [(0, .Felt), (1, .Felt), (2, .Felt), (3, .Felt), (4, .Felt)]⟩

/-- Optimising the functions of a module with the standard pipeline, compiling it and running it. -/
def optRunAll (md : List Function) (name : Name) (params returns : List AbiType) (args : List InputValue) :
    Option (List M31) :=
  match md.mapM (fun f => (standardPipeline id id f).toOption) with
  | some md => feltsOf (compileRun 1000 md name params returns args)
  | none => none

/-- **C69 violated** for runs that fail: when a block contains a repeated expression, calls in it whose result is not
used are removed. `f(2)` fails the assertion in `check`; the optimised program returns 16. Without optimisation the
compiled program fails, and the removal of dead code alone keeps the call. -/
theorem C69_violated_call :
    callTable [checkFn, guardFn] 5 5 1 [.felt 2] = none ∧
    feltsOf (compileRun 1000 ([checkFn, guardFn].map (noOptPipeline id)) ['f'] [.felt] [.felt] [.number 2]) = none ∧
    feltsOf (compileRun 1000 ([checkFn, guardFn].map (noOptPipeline id)) ['f'] [.felt] [.felt] [.number 1]) =
      some [4] ∧
    ((deadCode guardFn).blocks.map fun b => b.instrs.length) = [4] ∧
    optRunAll [checkFn, guardFn] ['f'] [.felt] [.felt] [.number 2] = some [16] := by
  refine ⟨by decide +kernel, by decide +kernel, by decide +kernel, by decide +kernel, by decide +kernel⟩

/-- `fn m(x: felt, y: felt, i: felt) -> felt { let a = [x, y]; let b = [x, y]; a[i] = 5; return b[i]; }` -/
def twoArrays : Function :=
  ⟨['m'], [⟨[.MakeFixedArray 3 [.Operand 0, .Operand 1] .Felt false,
     .MakeFixedArray 4 [.Operand 0, .Operand 1] .Felt false,
     .Store ⟨3, [.Index (.Operand 2)]⟩ (.Literal (.Integer 5)) .Felt,
     .Load 5 ⟨4, [.Index (.Operand 2)]⟩ .Felt], .Return [.Operand 5]⟩], [0, 1, 2], [6], 7,
    types [(0, .Felt), (1, .Felt), (2, .Felt), (3, .FixedArray .Felt 2), (4, .FixedArray .Felt 2), (5, .Felt),
      (6, .Felt)]⟩

/-- **C69 violated** for arrays: two arrays made of the same elements become one, so an assignment to one of them is
seen in the other. `b[0]` is `x`, here 1; the optimised program returns 5. -/
theorem C69_violated_arrays :
    feltsOf (compileRun 1000 [noOptPipeline id twoArrays] ['m'] [.felt, .felt, .felt] [.felt]
      [.number 1, .number 2, .number 0]) = some [1] ∧
    optRun twoArrays [.felt, .felt, .felt] [.felt] [.number 1, .number 2, .number 0] = some [5] := by
  refine ⟨by decide +kernel, by decide +kernel⟩

end Lang
end CairoM
