import Verif.SsaLemmas

/-!
# A check of static single assignment form

Used to show that concrete functions meet the hypotheses of the theorems about passes. The certificate lists, for
every block, names that are defined on all paths to it.
-/

namespace CairoM
namespace Lang

open Mir

/-- The names certified for a block. -/
def certAt (cert : List (List ValueId)) (b : BlockId) : List ValueId := (cert[b]?).getD []

/-- The operands of the instructions that are not phi instructions are among the names known so far. -/
def usesOk : List ValueId → List Instr → Bool
  | _, [] => true
  | known, i :: is => (isPhi i || i.uses.all fun v => decide (v ∈ known)) && usesOk (known ++ i.destinations) is

/-- The phi instructions come first. -/
def phisFirst : List Instr → Bool
  | [] => true
  | i :: is => if isPhi i then phisFirst is else is.all fun j => !isPhi j

/-- The operands of the phi instructions of a block, for one predecessor, are among the names known there. -/
def phiOk (known : List ValueId) (p : BlockId) : Instr → Bool
  | .Phi _ _ ss => ss.all fun s => if s.1 = p then s.2.ids.all fun v => decide (v ∈ known) else true
  | _ => true

/-- The check of one block. -/
def blockOk (f : Function) (cert : List (List ValueId)) (b : BlockId) (blk : Block) : Bool :=
  phisFirst blk.instrs && usesOk (certAt cert b) blk.instrs &&
    (blk.term.uses.all fun v => decide (v ∈ certAt cert b ++ defs blk.instrs)) &&
    blk.term.targets.all fun t =>
      ((certAt cert t).all fun v => decide (v ∈ certAt cert b ++ defs blk.instrs)) &&
      match f.blocks[t]? with
      | none => true
      | some bt => bt.instrs.all (phiOk (certAt cert b ++ defs blk.instrs) b)

/-- The check of a function. -/
def ssaCheck (f : Function) (cert : List (List ValueId)) : Bool :=
  decide ((f.params ++ defs (f.blocks.flatMap Block.instrs)).Nodup) &&
    (f.returns.all fun r => decide (r ∉ defs (f.blocks.flatMap Block.instrs))) &&
    ((certAt cert 0).all fun v => decide (v ∈ f.params)) &&
    (List.range f.blocks.length).all fun b =>
      match f.blocks[b]? with
      | none => true
      | some blk => blockOk f cert b blk

theorem phisFirst_spec {is : List Instr} (h : phisFirst is = true) :
    ∃ phis rest, is = phis ++ rest ∧ (∀ i ∈ phis, isPhi i = true) ∧ ∀ i ∈ rest, isPhi i = false := by
  induction is with
  | nil => exact ⟨[], [], rfl, by simp, by simp⟩
  | cons i is ih =>
    simp only [phisFirst] at h
    split_ifs at h with hi
    · obtain ⟨phis, rest, rfl, h1, h2⟩ := ih h
      exact ⟨i :: phis, rest, rfl, fun j hj => (List.mem_cons.1 hj).elim (fun hj => hj ▸ hi) (h1 j), h2⟩
    · refine ⟨[], i :: is, rfl, by simp, fun j hj => ?_⟩
      rcases List.mem_cons.1 hj with rfl | hj
      · simpa using hi
      · simpa using List.all_eq_true.1 h j hj

theorem usesOk_spec {is : List Instr} {known : List ValueId} (h : usesOk known is = true) {pre post : List Instr}
    {i : Instr} (hp : is = pre ++ i :: post) (hi : isPhi i = false) {v : ValueId} (hv : v ∈ i.uses) :
    v ∈ known ++ defs pre := by
  induction pre generalizing is known with
  | nil =>
    subst hp
    simp only [List.nil_append, usesOk, hi, Bool.false_or, Bool.and_eq_true] at h
    have := List.all_eq_true.1 h.1 v hv
    simpa [defs_nil] using this
  | cons j pre ih =>
    subst hp
    simp only [List.cons_append, usesOk, Bool.and_eq_true] at h
    have := ih h.2 rfl
    rwa [List.append_assoc, ← defs_cons] at this

theorem ssaCheck_sound {f : Function} {cert : List (List ValueId)} (h : ssaCheck f cert = true) : Ssa f := by
  simp only [ssaCheck, Bool.and_eq_true, decide_eq_true_eq] at h
  obtain ⟨⟨⟨h1, h2⟩, h3⟩, h4⟩ := h
  have hblk : ∀ (b : ℕ) blk, f.blocks[b]? = some blk → blockOk f cert b blk = true := by
    intro b blk hb
    have hlt : b < f.blocks.length := (List.getElem?_eq_some_iff.1 hb).1
    have := List.all_eq_true.1 h4 b (List.mem_range.2 hlt)
    rw [hb] at this; exact this
  have hav : ∀ v b, Avoids f v b → v ∉ certAt cert b := by
    intro v b ha
    induction ha with
    | entry hp => exact fun hc => hp (by simpa using List.all_eq_true.1 h3 v hc)
    | @step b blk t _ hb hn ht ih =>
      intro hc
      have := hblk b blk hb
      simp only [blockOk, Bool.and_eq_true] at this
      have := List.all_eq_true.1 this.2 t ht
      simp only [Bool.and_eq_true] at this
      have := List.all_eq_true.1 this.1 v hc
      simp only [List.mem_append, decide_eq_true_eq] at this
      rcases this with h | h
      · exact ih h
      · exact hn h
  refine ⟨h1, ?_, ?_, ?_, ?_, fun r hr => by simpa using List.all_eq_true.1 h2 r hr⟩
  · intro blk hm
    obtain ⟨b, hb⟩ := List.getElem?_of_mem hm
    have := hblk b blk hb
    simp only [blockOk, Bool.and_eq_true] at this
    exact phisFirst_spec this.1.1.1
  · intro b blk hb pre i post hp hi v hv ha
    have := hblk b blk hb
    simp only [blockOk, Bool.and_eq_true] at this
    have := usesOk_spec this.1.1.2 hp hi hv
    exact (List.mem_append.1 this).resolve_left (hav v b ha)
  · intro b blk hb d ty ss hm p v hv bp hbp ht ha
    have := hblk p bp hbp
    simp only [blockOk, Bool.and_eq_true] at this
    have := List.all_eq_true.1 this.2 b ht
    simp only [hb, Bool.and_eq_true] at this
    have := List.all_eq_true.1 this.2 _ hm
    simp only [phiOk] at this
    have := List.all_eq_true.1 this _ hv
    simp only [if_true] at this
    have := List.all_eq_true.1 this v (by simp [Value.ids])
    simp only [List.mem_append, decide_eq_true_eq] at this
    exact this.resolve_left (hav v p ha)
  · intro b blk hb v hv ha
    have := hblk b blk hb
    simp only [blockOk, Bool.and_eq_true] at this
    have := List.all_eq_true.1 this.1.2 v hv
    simp only [List.mem_append, decide_eq_true_eq] at this
    exact this.resolve_left (hav v b ha)

end Lang
end CairoM
