import Verif.SsaSubst
import Verif.SsaCheck
import Verif.MirBranchProps

/-!
# C68: copy propagation preserves results

The pass replaces every copy by its ultimate source, everywhere, and removes the copies. For a function in static
single assignment form this keeps the results, for every order in which the copies are replaced.
-/

namespace CairoM
namespace Lang

open Mir Codegen

variable {f : Function} {calls : Calls}

theorem directCopies_mem {d s : ValueId} (h : (d, s) ∈ directCopies f) :
    ∃ (b : ℕ) (blk : Block) (pre post : List Instr) (ty : MirType), f.blocks[b]? = some blk ∧
      blk.instrs = pre ++ .Assign d (.Operand s) ty :: post ∧ (f.types s).isSome := by
  simp only [directCopies, List.mem_reverse, List.mem_filterMap, List.mem_flatMap] at h
  obtain ⟨i, ⟨blk, hm, hi⟩, hc⟩ := h
  obtain ⟨b, hb⟩ := List.getElem?_of_mem hm
  obtain ⟨pre, post, hp⟩ := List.append_of_mem hi
  unfold copyOf at hc
  split at hc
  · rename_i d' s' ty
    split at hc
    · rename_i t1 t2 h1 h2
      split_ifs at hc
      simp only [Option.some.injEq, Prod.mk.injEq] at hc
      obtain ⟨rfl, rfl⟩ := hc
      exact ⟨b, blk, pre, post, ty, hb, hp, by rw [h2]; rfl⟩
    · cases hc
  · cases hc

theorem defOf_assign (d : ValueId) (v : Value) (ty : MirType) : DefOf (.Assign d v ty) d :=
  ⟨rfl, rfl, fun _ _ _ _ h => by cases h⟩

/-- The source of an available copy is available and has the same value. -/
theorem copy_link (hs : Ssa f) {d s : ValueId} (h : (d, s) ∈ directCopies f) {b : ℕ} {blk : Block} {pre post : List Instr}
    (hb : f.blocks[b]? = some blk) (hp : blk.instrs = pre ++ post) (hav : Avail f b pre d) :
    Avail f b pre s ∧ ∀ e, Facts calls f b pre e → e d = e s := by
  obtain ⟨b0, blk0, pre0, post0, ty, h0, hi, _⟩ := directCopies_mem h
  have hd := defOf_assign d (.Operand s) ty
  refine ⟨hs.avail_trans h0 hi hd.mem (hs.avail_use h0 hi rfl (by simp [Instr.uses, Value.ids])) hb hp hav,
    fun e hf => ?_⟩
  obtain ⟨h1, h2⟩ := (still_iff hd e).1 (hf b0 blk0 pre0 _ post0 d h0 hi hd hav)
  rw [← h2] at h1 ⊢
  simp only [rhs] at h1 ⊢
  cases hty : scalarTy ty with
  | none => rw [hty] at h1; simp at h1
  | some t => rfl

/-- A copy of a copy … of `u`. -/
def Above (f : Function) (u v : ValueId) : Prop :=
  Relation.TransGen (fun d s => (directCopies f).lookup d = some s) u v

theorem no_cycle (hs : Ssa f) {u : ValueId} (h : Above f u u) {b : ℕ} {blk : Block} {pre post : List Instr}
    (hr : Reaches f b) (hb : f.blocks[b]? = some blk) (hp : blk.instrs = pre ++ post) (hav : Avail f b pre u) : False := by
  obtain ⟨s, h1, h2⟩ := Relation.TransGen.head'_iff.1 h
  obtain ⟨b0, blk0, pre0, post0, ty, h0, hi, _⟩ := directCopies_mem (mem_lookup h1)
  have hs0 : Avail f b0 pre0 s := hs.avail_use h0 hi rfl (by simp [Instr.uses, Value.ids])
  have hall : Avail f b0 pre0 u := by
    have key : ∀ w, Relation.ReflTransGen (fun d s => (directCopies f).lookup d = some s) s w → Avail f b0 pre0 w := by
      intro w hw
      induction hw with
      | refl => exact hs0
      | tail _ hl ih => exact (copy_link (calls := fun _ _ => none) hs (mem_lookup hl) h0 hi ih).1
    exact key u h2
  have hmem : u ∈ (Instr.Assign u (.Operand s) ty).destinations := by simp [Instr.destinations]
  have hu0 : u ∈ defs blk0.instrs := by rw [hi, defs_append, defs_cons]; simp [hmem]
  exact not_mem_pre (hs.nodup h0) hi hmem (hall (hs.avoids_own h0 hu0 (hs.avail_reaches h0 hu0 hr hb hp hav)))

theorem lookup_isSome {v : ValueId} {l : List (ValueId × ValueId)} : (l.lookup v).isSome ↔ v ∈ l.map Prod.fst := by
  induction l with
  | nil => simp
  | cons c l ih =>
    obtain ⟨k, w⟩ := c
    simp only [List.lookup_cons, List.map_cons, List.mem_cons]
    by_cases h : v = k
    · subst h; simp
    · have : (v == k) = false := by simpa using h
      simp [this, h, ih]

/-- The ultimate source of an available name. -/
theorem resolve_spec (hs : Ssa f) {b : ℕ} {blk : Block} {pre post : List Instr} (hr : Reaches f b)
    (hb : f.blocks[b]? = some blk) (hp : blk.instrs = pre ++ post) (n : ℕ) (seen : List ValueId) (v : ValueId)
    (hav : Avail f b pre v) (habove : ∀ u ∈ seen, Above f u v) (hn : seen.Nodup)
    (hk : ∀ u ∈ seen, u ∈ (directCopies f).map Prod.fst) (hlen : (directCopies f).length + 1 ≤ n + seen.length) :
    Avail f b pre (resolveCopy (directCopies f) n seen v) ∧
    (∀ e, Facts calls f b pre e → e v = e (resolveCopy (directCopies f) n seen v)) ∧
    (directCopies f).lookup (resolveCopy (directCopies f) n seen v) = none := by
  induction n generalizing seen v with
  | zero =>
    have := (List.subperm_of_subset hn hk).length_le
    rw [List.length_map] at this
    omega
  | succ n ih =>
    simp only [resolveCopy]
    cases hl : (directCopies f).lookup v with
    | none => exact ⟨hav, fun e _ => rfl, hl⟩
    | some w =>
      have hseen : v ∉ seen := fun hm => no_cycle hs (habove v hm) hr hb hp hav
      simp only [if_neg hseen]
      obtain ⟨hav', heq⟩ := copy_link (calls := calls) hs (mem_lookup hl) hb hp hav
      obtain ⟨g1, g2, g3⟩ := ih (v :: seen) w hav' (fun u hu => by
          rcases List.mem_cons.1 hu with rfl | hu
          · exact Relation.TransGen.single hl
          · exact (habove u hu).tail hl)
        (List.nodup_cons.2 ⟨hseen, hn⟩)
        (fun u hu => by
          rcases List.mem_cons.1 hu with rfl | hu
          · exact lookup_isSome.1 (by rw [hl]; rfl)
          · exact hk u hu)
        (by rw [List.length_cons]; omega)
      exact ⟨g1, fun e he => (heq e he).trans (g2 e he), g3⟩

theorem resolved_keys (f : Function) : (resolvedCopies f).map Prod.fst = ((directCopies f).map Prod.fst).dedup := by
  simp [resolvedCopies, Function.comp_def]

theorem key_def {v : ValueId} (h : v ∈ (directCopies f).map Prod.fst) :
    v ∈ defs (f.blocks.flatMap Block.instrs) := by
  obtain ⟨⟨d, s⟩, hm, rfl⟩ := List.mem_map.1 h
  obtain ⟨b, blk, pre, post, ty, hb, hi, _⟩ := directCopies_mem hm
  rw [defs_flatMap]
  refine List.mem_flatMap.2 ⟨blk, List.mem_of_getElem? hb, ?_⟩
  rw [hi, defs_append, defs_cons]; simp [Instr.destinations]

/-- An instruction kept by the pass. -/
def notCopy (f : Function) (i : Instr) : Bool := !isRemovedCopy (resolvedCopies f) i

theorem notCopy_rename (τ : ValueId → ValueId) (i : Instr) : notCopy f (Instr.rename τ i) = notCopy f i := by
  cases i <;> try rfl
  case Assign d v ty => cases v <;> rfl

theorem copyProp_blocks (order : List (ValueId × ValueId) → List (ValueId × ValueId)) (b : ℕ) :
    (copyProp order f).blocks[b]? = (f.blocks[b]?).map fun blk =>
      ⟨(blk.instrs.filter (notCopy f)).map (Instr.rename (renamed (order (resolvedCopies f)))),
        Terminator.rename (renamed (order (resolvedCopies f))) blk.term⟩ := by
  have h := replaceList_blocks (order (resolvedCopies f)) f
  simp only [copyProp]
  rw [show List.foldl (fun g c => replaceAllUses c.1 c.2 g) f (order (resolvedCopies f)) =
    replaceList (order (resolvedCopies f)) f from rfl, h, List.map_map, List.getElem?_map]
  congr 1
  funext blk
  simp only [Function.comp_apply]
  congr 1
  rw [List.filter_map]
  congr 1
  refine List.filter_congr fun i _ => ?_
  exact notCopy_rename _ i

theorem copyProp_renames (calls : Calls) (hs : Ssa f) {order : List (ValueId × ValueId) → List (ValueId × ValueId)}
    (ho : ∀ l, (order l).Perm l) :
    Renames calls f (copyProp order f) (renamed (order (resolvedCopies f))) fun _ => notCopy f := by
  have hkeys : ∀ v, v ∈ (order (resolvedCopies f)).map Prod.fst ↔ v ∈ (directCopies f).map Prod.fst := by
    intro v
    rw [((ho (resolvedCopies f)).map Prod.fst).mem_iff, resolved_keys, List.mem_dedup]
  have hnodup : ((order (resolvedCopies f)).map Prod.fst).Nodup := by
    rw [((ho (resolvedCopies f)).map Prod.fst).nodup_iff, resolved_keys]
    exact List.nodup_dedup _
  -- the new name of an available name
  have hnew : ∀ (b : ℕ) (blk : Block) pre post, Reaches f b → f.blocks[b]? = some blk → blk.instrs = pre ++ post →
      ∀ v, Avail f b pre v → Avail f b pre (renamed (order (resolvedCopies f)) v) ∧
        (∀ e, Facts calls f b pre e → e v = e (renamed (order (resolvedCopies f)) v)) ∧
        renamed (order (resolvedCopies f)) v ∉ (directCopies f).map Prod.fst := by
    intro b blk pre post hr hb hp v hav
    by_cases hv : v ∈ (directCopies f).map Prod.fst
    · obtain ⟨s, hl⟩ := Option.isSome_iff_exists.1 (lookup_isSome.2 hv)
      obtain ⟨hav', heq⟩ := copy_link (calls := calls) hs (mem_lookup hl) hb hp hav
      obtain ⟨g1, g2, g3⟩ := resolve_spec (calls := calls) hs hr hb hp ((directCopies f).length + 1) [] s hav'
        (by simp) (by simp) (by simp) (by simp)
      have hw : resolveCopy (directCopies f) ((directCopies f).length + 1) [] s ∉ (directCopies f).map Prod.fst :=
        fun hm => by rw [← lookup_isSome, g3] at hm; simp at hm
      have hmem : (v, resolveCopy (directCopies f) ((directCopies f).length + 1) [] s) ∈ order (resolvedCopies f) := by
        rw [(ho _).mem_iff]
        simp only [resolvedCopies, List.mem_map, List.mem_dedup]
        refine ⟨v, by simpa using hv, ?_⟩
        rw [hl]; rfl
      rw [renamed_of_mem hnodup hmem (by rw [hkeys]; exact hw)]
      exact ⟨g1, fun e he => (heq e he).trans (g2 e he), hw⟩
    · rw [renamed_of_not_mem (by rw [hkeys]; exact hv)]
      exact ⟨hav, fun e _ => rfl, hv⟩
  have hdrop : ∀ v, v ∉ (directCopies f).map Prod.fst → ¬ Dropped f (fun _ => notCopy f) v := by
    rintro v hv ⟨b, blk, hb, i, hi, hk, hd⟩
    simp only [notCopy, Bool.not_eq_false'] at hk
    unfold isRemovedCopy at hk
    split at hk
    · rename_i d s ty
      simp only [Instr.destinations, List.mem_singleton] at hd
      subst hd
      rw [lookup_isSome, resolved_keys, List.mem_dedup] at hk
      exact hv hk
    · cases hk
  refine ⟨?_, ?_, ?_, copyProp_blocks order, ?_, ?_, ?_, ?_⟩
  · refine replaceList_params (rs := order (resolvedCopies f)) (f := f) fun p hp hm => ?_
    exact (List.nodup_append.1 hs.single).2.2 p hp p (key_def ((hkeys p).1 hm)) rfl
  · refine replaceList_returns (rs := order (resolvedCopies f)) (f := f) fun p hp hm => ?_
    exact hs.returns p hp (key_def ((hkeys p).1 hm))
  · intro r hr
    have hrk : r ∉ (directCopies f).map Prod.fst := fun hm => hs.returns r hr (key_def hm)
    refine replaceList_types (rs := order (resolvedCopies f)) (f := f) (by rw [hkeys]; exact hrk) ?_
    by_cases hsnd : r ∈ (order (resolvedCopies f)).map Prod.snd
    · refine Or.inl ?_
      rw [((ho (resolvedCopies f)).map Prod.snd).mem_iff] at hsnd
      simp only [resolvedCopies, List.map_map, List.mem_map, List.mem_dedup, Function.comp_apply] at hsnd
      obtain ⟨d, hd, rfl⟩ := hsnd
      have htyped : ∀ n seen v, (f.types v).isSome → (f.types (resolveCopy (directCopies f) n seen v)).isSome := by
        intro n
        induction n with
        | zero => intro seen v hv; exact hv
        | succ n ih =>
          intro seen v hv
          simp only [resolveCopy]
          cases hl : (directCopies f).lookup v with
          | none => exact hv
          | some w =>
            simp only
            split_ifs
            · exact hv
            · obtain ⟨_, _, _, _, _, _, _, hw⟩ := directCopies_mem (mem_lookup hl)
              exact ih _ w hw
      refine htyped _ _ _ ?_
      have hd' : d ∈ (directCopies f).map Prod.fst := by simpa using hd
      obtain ⟨s, hl⟩ := Option.isSome_iff_exists.1 (lookup_isSome.2 hd')
      rw [hl]
      obtain ⟨_, _, _, _, _, _, _, hw⟩ := directCopies_mem (mem_lookup hl)
      exact hw
    · exact Or.inr hsnd
  · intro b blk pre post hr hb hp v hav
    obtain ⟨g1, g2, _⟩ := hnew b blk pre post hr hb hp v hav
    exact ⟨g1, g2⟩
  · intro b blk hr hb i hi hk hphi v hv
    obtain ⟨pre, post, hp⟩ := List.append_of_mem hi
    exact hdrop _ (hnew b blk pre (i :: post) hr hb hp v (hs.avail_use hb hp hphi hv)).2.2
  · intro b blk hb d ty ss hi hk p v hv bp hr hbp ht
    exact hdrop _ (hnew p bp bp.instrs [] hr hbp (by simp) v (hs.phis b blk hb d ty ss hi p v hv bp hbp ht)).2.2
  · intro b blk hr hb v hv
    exact hdrop _ (hnew b blk blk.instrs [] hr hb (by simp) v (hs.term b blk hb v hv)).2.2

/-- **C68**: copy propagation of a function in static single assignment form keeps its results, whatever the order
in which the copies are replaced, and the result is in static single assignment form again. -/
theorem C68_copy_propagation (calls : Calls) (f : Function) (hs : Ssa f)
    (order : List (ValueId × ValueId) → List (ValueId × ValueId)) (ho : ∀ l, (order l).Perm l) (n : ℕ)
    (args : List Val) (hf : run calls f n args ≠ .fault) :
    run calls (copyProp order f) n args = run calls f n args ∧ Ssa (copyProp order f) :=
  ⟨rename_run hs (copyProp_renames calls hs ho) n hf, rename_ssa hs (copyProp_renames calls hs ho)⟩

/-- A loop that computes `2^n`: the doubled value and the counter go through chains of copies, one of which crosses a
block and feeds the phi instructions. -/
def copyLoop : Function :=
  ⟨['m'],
    [⟨[.Assign 1 (.Literal (.Integer 1)) .Felt, .Assign 2 (.Operand 1) .Felt, .Assign 3 (.Operand 0) .Felt], .Jump 1⟩,
     ⟨[.Phi 4 .Felt [(0, .Operand 2), (2, .Operand 9)], .Phi 5 .Felt [(0, .Operand 3), (2, .Operand 10)],
       .Assign 6 (.Operand 4) .Felt, .BinaryOp .Neq 7 (.Operand 5) (.Literal (.Integer 0))], .If (.Operand 7) 2 3⟩,
     ⟨[.BinaryOp .Add 8 (.Operand 6) (.Operand 4), .Assign 9 (.Operand 8) .Felt,
       .BinaryOp .Sub 10 (.Operand 5) (.Literal (.Integer 1))], .Jump 1⟩,
     ⟨[.Assign 11 (.Operand 6) .Felt], .Return [.Operand 11]⟩],
    [0], [12], 13, types [(0, .Felt), (1, .Felt), (2, .Felt), (3, .Felt), (4, .Felt), (5, .Felt), (6, .Felt), (7, .Bool),
      (8, .Felt), (9, .Felt), (10, .Felt), (11, .Felt), (12, .Felt)]⟩

theorem copyLoop_ssa : Ssa copyLoop :=
  ssaCheck_sound (cert := [[0], [0], [0, 4, 5, 6], [0, 4, 5, 6]]) (by decide +kernel)

/-- The hypotheses of `C68_copy_propagation` are met by a loop; five copies are removed. -/
example : run (fun _ _ => none) copyLoop 20 [.felt 5] = .returned [.felt 32] ∧
    run (fun _ _ => none) (copyProp List.reverse copyLoop) 20 [.felt 5] = .returned [.felt 32] ∧
    ((copyProp List.reverse copyLoop).blocks.map fun b => b.instrs.length) = [1, 3, 2, 0] := by
  have h := (C68_copy_propagation (fun _ _ => none) copyLoop copyLoop_ssa List.reverse List.reverse_perm 20
    [.felt 5] (by decide +kernel)).1
  refine ⟨by decide +kernel, h.trans (by decide +kernel), by decide +kernel⟩

/-- Without static single assignment form the pass is not correct: `x` is copied, then overwritten. -/
example :
    let f : Function := ⟨['m'], [⟨[.Assign 1 (.Operand 0) .Felt, .Assign 0 (.Literal (.Integer 7)) .Felt],
      .Return [.Operand 1]⟩], [0], [2], 3, types [(0, .Felt), (1, .Felt), (2, .Felt)]⟩
    run (fun _ _ => none) f 2 [.felt 5] = .returned [.felt 5] ∧
      run (fun _ _ => none) (copyProp id f) 2 [.felt 5] = .returned [.felt 7] := by decide +kernel

end Lang
end CairoM
