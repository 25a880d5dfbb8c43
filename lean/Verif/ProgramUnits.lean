import Verif.ProgramPasses
import Verif.LinkProps

/-!
# Helper lemmas: the functions of a module in the linked program
-/

namespace CairoM
namespace Codegen

open Mir Lang Relation

variable {code : List IB} {tgt tgt' : Name → Option ℕ} {fp pc : M31} {m m' m₂ : Isa.Mem} {b b' : Builder} {lo hi fr F : ℤ}
  {f : Function} {L : Layout} {ts : List MirType} {md : Module} {g g' g₁ : Gen} {ins : Instruction}
  {live : BlockId → ValueId → Prop} {calls : Calls} {C : CallRel} {Q : ℕ → Isa.Mem → Prop} {e : Isa.Effect} {base : ℕ}

/-! ### Generation of functions -/

/-- The code so far is untouched. -/
structure Keeps (g g' : Gen) : Prop where
  instrs : g'.instrs = g.instrs
  labels : g'.labels = g.labels
  entries : g'.entries = g.entries

theorem Keeps.refl : Keeps g g := ⟨rfl, rfl, rfl⟩

theorem Keeps.trans (h : Keeps g g') (h' : Keeps g' g₁) : Keeps g g₁ :=
  ⟨h'.instrs.trans h.instrs, h'.labels.trans h.labels, h'.entries.trans h.entries⟩

theorem keeps_pure {x : Except Err Builder} (h : (do let b ← x; pure (g, b)) = Except.ok (g', b')) : Keeps g g' := by
  cases x with
  | error => cases h
  | ok b => cases h; exact Keeps.refl

theorem keeps_genArray {d : ValueId} {vs : List Value} {ty : MirType} {c : Bool} (h : genArray g b d vs ty c = .ok (g', b')) :
    Keeps g g' := by
  unfold genArray at h
  split at h
  · split at h
    · cases h
    · simp only [Except.ok.injEq, Prod.mk.injEq] at h
      obtain ⟨rfl, -⟩ := h
      unfold registerBlob
      split
      · exact Keeps.refl
      · exact ⟨rfl, rfl, rfl⟩
  · split at h
    · cases h
    · cases h; exact Keeps.refl

theorem keeps_genInstr {term : Terminator} {i : Instr} {next : Option Instr} (h : genInstr md f term g b i next = .ok (g', b')) :
    Keeps g g' := by
  cases i <;> simp only [genInstr] at h
  case MakeFixedArray => exact keeps_genArray h
  case HeapAllocCells d cells =>
    cases hx : lowerHeap b d cells with
    | error => rw [hx] at h; cases h
    | ok b1 => rw [hx] at h; cases h; exact ⟨rfl, rfl, rfl⟩
  case Assign d v ty =>
    cases hx : placement f d next term b with
    | error => rw [hx] at h; cases h
    | ok t => rw [hx] at h; exact keeps_pure h
  case UnaryOp op d v =>
    cases hx : placement f d next term b with
    | error => rw [hx] at h; cases h
    | ok t => rw [hx] at h; exact keeps_pure h
  case BinaryOp op d l r =>
    have key : ∀ {t : Except Err (Option ℤ)}, (do let t ← t; let b ← b.binaryOp op d l r t; pure (g, b)) = Except.ok (g', b') →
        Keeps g g' := by
      intro t ht
      cases t with
      | error => cases ht
      | ok t => exact keeps_pure ht
    split at h
    · exact key h
    · split_ifs at h
      · exact key h
      · exact key h
  case Call ds c args sig =>
    split at h
    · cases h
    · exact keeps_pure h
  case Debug => cases h
  case Phi => cases h
  case Nop => cases h; exact Keeps.refl
  all_goals exact keeps_pure h

theorem keeps_genInstrs {term : Terminator} : ∀ {is : List Instr} {g g' : Gen} {b b' : Builder},
    genInstrs md f term is g b = .ok (g', b') → Keeps g g'
  | [], g, g', b, b', h => by cases h; exact Keeps.refl
  | i :: is, g, g', b, b', h => by
    simp only [genInstrs] at h
    split at h
    · cases h
    · rename_i h1
      exact (keeps_genInstr h1).trans (keeps_genInstrs h)

theorem keeps_genBlocks : ∀ {bs : List Block} {i : BlockId} {g g' : Gen} {b b' : Builder},
    genBlocks md f bs i g b = .ok (g', b') → Keeps g g'
  | [], i, g, g', b, b', h => by cases h; exact Keeps.refl
  | blk :: bs, i, g, g', b, b', h => by
    simp only [genBlocks] at h
    split at h
    · cases h
    · rename_i h1
      split at h
      · cases h
      · exact (keeps_genInstrs h1).trans (keeps_genBlocks h)

/-- The code of a function and where it is in the program. -/
structure Piece (md : Module) (g : Gen) (f : Function) (L : Layout) (b : Builder) (base : ℕ) : Prop where
  layout : Layout.new f = .ok L
  gen : ∃ cnt g0 g1, genBlocks md f f.blocks 0 g0 ((Builder.new L cnt).addLabel f.name) = .ok (g1, b)
  code : ∀ (i : ℕ) ib, (runPasses b).instrs[i]? = some ib → g.instrs[base + i]? = some ib
  labels : ∀ l ∈ (runPasses b).labels, (⟨l.name, l.addr + base⟩ : Label) ∈ g.labels
  entry : (f.name, base) ∈ g.entries

/-- The program grows by whole functions. -/
structure Extends (g g' : Gen) : Prop where
  instrs : g.instrs <+: g'.instrs
  labels : g.labels ⊆ g'.labels
  entries : g.entries <+: g'.entries

theorem Extends.trans (h : Extends g g') (h' : Extends g' g₁) : Extends g g₁ :=
  ⟨h.instrs.trans h'.instrs, fun _ hl => h'.labels (h.labels hl), h.entries.trans h'.entries⟩

theorem Piece.mono (h : Piece md g f L b base) (h' : Extends g g') : Piece md g' f L b base :=
  ⟨h.layout, h.gen, fun i ib hi => by
    obtain ⟨t, ht⟩ := h'.instrs
    rw [← ht]
    have := h.code i ib hi
    rw [List.getElem?_append_left (List.getElem?_eq_some_iff.mp this).1]
    exact this, fun l hl => h'.labels (h.labels l hl), h'.entries.subset h.entry⟩

/-- Number of slots of the frame of a function, with the temporaries of the peephole passes (`layout.frame_size`
after `generator.rs:356-434`). -/
def frameOf (md : Module) (g : Gen) (f : Function) : ℕ :=
  match Layout.new f with
  | .error _ => 0
  | .ok l =>
    match genBlocks md f f.blocks 0 { g with entries := g.entries ++ [(f.name, g.instrs.length)] }
        ((Builder.new l g.counter).addLabel f.name) with
    | .error _ => 0
    | .ok (_, b) => (runPasses b).layout.frame

/-- Frame sizes of the functions of a module. -/
def frameSizes (md : Module) : List Function → Gen → List ℕ
  | [], _ => []
  | f :: fs, g =>
    frameOf md g f ::
      match genFunction md g f with
      | .error _ => []
      | .ok g => frameSizes md fs g

theorem genFunction_piece (h : genFunction md g f = .ok g') :
    Extends g g' ∧ ∃ L b, Piece md g' f L b g.instrs.length ∧ (runPasses b).layout.frame = frameOf md g f := by
  unfold genFunction at h
  split at h
  · cases h
  rename_i L hL
  split at h
  · split at h
    · cases h
    · rename_i g1 b hb
      have k := keeps_genBlocks hb
      simp only [Except.ok.injEq] at h
      subst h
      have e1 : g1.instrs = g.instrs := k.instrs
      have e2 : g1.labels = g.labels := k.labels
      have e3 : g1.entries = g.entries ++ [(f.name, g.instrs.length)] := k.entries
      refine ⟨⟨⟨_, by rw [e1]⟩, fun l hl => ?_, ⟨_, e3.symm⟩⟩, L, b, ⟨hL, ⟨_, _, _, hb⟩, fun i ib hi => ?_, fun l hl => ?_, ?_⟩, ?_⟩
      · dsimp only
        rw [e2]; exact List.mem_append_left _ hl
      · dsimp only
        rw [e1, List.getElem?_append_right (Nat.le_add_right _ _), Nat.add_sub_cancel_left]
        exact hi
      · dsimp only
        rw [e1]
        exact List.mem_append_right _ (List.mem_map_of_mem hl)
      · dsimp only
        rw [e3]; simp
      · simp only [frameOf, hL, hb]
  · cases h

theorem genFunctions_pieces : ∀ {fs : List Function} {g g' : Gen}, genFunctions md fs g = .ok g' →
    Extends g g' ∧ ∀ f ∈ fs, ∃ L b base, Piece md g' f L b base ∧ (runPasses b).layout.frame ∈ frameSizes md fs g
  | [], g, g', h => by
    cases h
    exact ⟨⟨List.prefix_refl _, fun _ h => h, List.prefix_refl _⟩, by simp⟩
  | f :: fs, g, g', h => by
    simp only [genFunctions] at h
    split at h
    · cases h
    · rename_i g1 h1
      obtain ⟨x1, L, b, p, hfr⟩ := genFunction_piece h1
      obtain ⟨x2, ps⟩ := genFunctions_pieces h
      refine ⟨x1.trans x2, fun f' hf' => ?_⟩
      rcases List.mem_cons.mp hf' with rfl | hf'
      · exact ⟨L, b, _, p.mono x2, by simp [frameSizes, hfr]⟩
      · obtain ⟨L', b', base', p', hfr'⟩ := ps f' hf'
        exact ⟨L', b', base', p', by simp [frameSizes, h1, hfr']⟩

/-! ### One function, after the passes -/

theorem lastLabel_mem : ∀ {ls : List Label} {n : Name} {j : ℕ}, lastLabel ls n = some j → (⟨n, j⟩ : Label) ∈ ls := by
  have key : ∀ {ls : List Label} {n : Name} {j : ℕ} {acc : Option ℕ},
      ls.foldl (fun acc l => if l.name = n then some l.addr else acc) acc = some j → acc = some j ∨ (⟨n, j⟩ : Label) ∈ ls := by
    intro ls
    induction ls with
    | nil => intro n j acc h; exact .inl h
    | cons l ls ih =>
      intro n j acc h
      rw [List.foldl_cons] at h
      rcases ih h with h | h
      · split_ifs at h with hn
        · injection h with h
          subst h hn
          exact .inr (by simp)
        · exact .inl h
      · exact .inr (by simp [h])
  intro ls n j h
  rcases key h with h | h
  · cases h
  · exact h

theorem lastLabel_unique {ls : List Label} (hu : ∀ l ∈ ls, ∀ l' ∈ ls, l.name = l'.name → l.addr = l'.addr) {l : Label}
    (hl : l ∈ ls) : lastLabel ls l.name = some l.addr :=
  lastLabel_foldl (fun l' h hn => hu l' h l hl hn) (.inr ⟨l, hl, rfl⟩)

/-- The function does not end in a block without a terminator. -/
def EndsProperly (f : Function) : Prop := ∀ blk, f.blocks.getLast? = some blk → blk.term ≠ .Unreachable

theorem dedup_frame : b.layout.frame ≤ (dedup b).layout.frame := by
  have := dedupChunks_le b.instrs b.layout.frame
  unfold dedup
  exact this

/-- Execution of the code of one function of the program. -/
theorem Piece.runs (p : Piece md g f L b base) (hd : Distinct g) (hs : Calling f live) (hend : EndsProperly f)
    (hco : ∀ blk ∈ f.blocks, CallsOk md blk calls C) {args vs : List Val}
    (hargs : List.Forall₂ (fun x p => ValTy x (f.types p)) args f.params)
    (hhi : ((runPasses b).layout.frame : ℤ) ≤ hi)
    (w : Window fp (-(widths args : ℤ) - widths vs - 2) hi)
    (hm : HoldsAll m fp (-(widths args : ℤ) - widths vs - 2) args)
    {n : ℕ} (hrun : run calls f n args = .returned vs) (hrts : f.returns.map f.types = ts.map some) :
    List.Forall₂ (fun y (t : MirType) => ValTy y (some t)) vs ts ∧
    (⟨f.name, base⟩ : Label) ∈ g.labels ∧
    (∀ ib ∈ (runPasses b).instrs, InFrame (-(widths args : ℤ) - widths vs - 2) (runPasses b).layout.frame ib.inner) ∧
    ∃ tgt : Name → Option ℕ, (∀ n j, tgt n = some j → (⟨n, j + base⟩ : Label) ∈ g.labels) ∧
      Ev (runPasses b).instrs tgt fp (-(widths args : ℤ) - widths vs - 2) b.layout.frame hi C
        (fun i m' => (runPasses b).instrs[i]? = some ⟨.Ret, none⟩ ∧ HoldsAll m' fp (-(widths vs : ℤ) - 2) vs ∧
          SameExcept fp (Body (-(widths vs : ℤ) - 2) hi) m m') 0 m := by
  have hF : ((dedup b).layout.frame : ℤ) ≤ hi := hhi
  have hfr : (b.layout.frame : ℤ) ≤ hi := le_trans (by exact_mod_cast dedup_frame) hF
  obtain ⟨cnt, g0, g1, hgen⟩ := p.gen
  -- facts about the emitted code
  obtain ⟨us, hc, -, hz, -⟩ := base_of_layout (m := m) (fp := fp) p.layout hargs
  have hkn : Knows f L := fun v hv => hc.laid v (.inr hv)
  have hsp := spread_init hc hz
  obtain ⟨-, gr, -, hall, -, -⟩ := gen_blocks_calls hc.sig hs hkn (b := (Builder.new L cnt).addLabel f.name) (i := 0) rfl hsp
    (track_init cnt f.name hsp) hgen
  have hgood0 : Good (-(widths args : ℤ) - L.retSlots - 2) ((Builder.new L cnt).addLabel f.name) := by
    refine ⟨fun ib hib => ?_, fun l hl => ?_⟩
    · simp [Builder.addLabel, Builder.new] at hib
    · simp only [Builder.addLabel, Builder.new, List.nil_append, List.mem_singleton] at hl
      subst hl
      simp
  have hgood := gr.good hgood0
  have hne : f.blocks ≠ [] := by
    intro e
    unfold run at hrun
    cases hb : Lang.bind (fun _ => none) f.params args with
    | none => rw [hb] at hrun; cases hrun
    | some env =>
      rw [hb] at hrun
      cases n with
      | zero => cases hrun
      | succ n => simp [exec, e] at hrun
  have hclosed : ∀ l ∈ b.labels, l.addr < b.instrs.length := by
    have hpos : 0 < f.blocks.length := List.length_pos_iff.mpr hne
    obtain ⟨k, hk⟩ : ∃ k, f.blocks.length = k + 1 := ⟨f.blocks.length - 1, by omega⟩
    have hlt : k < f.blocks.length := by omega
    have hk' : f.blocks[k]? = some f.blocks[k] := List.getElem?_eq_getElem hlt
    obtain ⟨b0, b1, b2, nx, pl, -, gr0, gr1⟩ := hall k _ (Nat.zero_le _) hk'
    obtain ⟨rfl, rfl⟩ := pl.last hk
    have hblk : f.blocks[k] ∈ f.blocks := List.getElem_mem hlt
    have hu : f.blocks[k].term ≠ .Unreachable := by
      refine hend _ ?_
      rw [List.getLast?_eq_getElem?, hk]
      exact hk'
    obtain ⟨b₁, i, em, e1, e2⟩ := term_last hc.sig (hs.terms _ hblk) hu pl.spread1.shape pl.term
    have hg1 := (em.good (gr1.good (gr0.good hgood0))).labels
    intro l hl
    rw [e1] at hl
    rw [e2, List.length_append]
    have := hg1 l hl
    simp only [List.length_cons, List.length_nil]
    omega
  -- labels
  have hlen : (dedupChunks b.layout.frame b.instrs).2.length = b.instrs.length := dedupChunks_length _ _
  have hmap : ∀ l ∈ b.labels, (⟨l.name, position b l.addr⟩ : Label) ∈ (dedup b).labels := by
    intro l hl
    refine List.mem_map.mpr ⟨l, hl, ?_⟩
    unfold remapLabel
    rw [hlen, if_pos (hclosed l hl)]
    rfl
  have hu' : ∀ l ∈ (dedup b).labels, ∀ l' ∈ (dedup b).labels, l.name = l'.name → l.addr = l'.addr := by
    intro l hl l' hl' hn
    have := hd.unique _ (p.labels l hl) _ (p.labels l' hl') hn
    simpa using this
  have hu : ∀ l ∈ b.labels, ∀ l' ∈ b.labels, l.name = l'.name → l.addr = l'.addr := by
    intro l hl l' hl' hn
    exact position_inj (hclosed l hl).le (hclosed l' hl').le (hu' _ (hmap l hl) _ (hmap l' hl') hn)
  have hfit : Fits b.instrs (lastLabel b.labels) b := ⟨List.prefix_refl _, fun l hl => lastLabel_unique hu hl⟩
  obtain ⟨hvs, ev⟩ := run_function hs p.layout hgen hco hfit hargs le_rfl hfr w hm hrun hrts
  have hw : widths vs = L.retSlots := by
    have hus : us = ts := by
      have := returnTys_eq hc.rts
      rw [hrts] at this
      exact (List.map_injective_iff.mpr (Option.some_injective _) this).symm
    subst hus
    rw [widths_typed hvs, hc.ret]
  rw [← hw] at hgood
  have hlo : (-(widths args : ℤ) - widths vs - 2) ≤ 0 := by omega
  have hname : (⟨f.name, 0⟩ : Label) ∈ b.labels := gr.labels.subset (by simp [Builder.addLabel, Builder.new])
  have hname' := p.labels _ (hmap _ hname)
  simp only [position_zero, Nat.zero_add] at hname'
  refine ⟨hvs, hname', inFrame_passes hgood.instrs hlo, lastLabel (dedup b).labels,
    fun n j hj => p.labels _ (lastLabel_mem hj), ?_⟩
  have e2 := (ev.dedup w hlo hF hgood.instrs ⟨fun n j hj => ⟨hclosed _ (lastLabel_mem hj), lastLabel_mem hj⟩⟩
    (fun l hl => lastLabel_unique hu' hl) (SameExcept.refl (m := m))).canonImm
  rw [position_zero] at e2
  refine e2.mono ?_
  rintro i' m₂ ⟨i, m', ⟨q1, q2, q3⟩, rfl, q4⟩
  refine ⟨?_, ?_, ?_⟩
  · obtain ⟨h1, -⟩ := dedup_keep q1 (fun _ => rfl)
    show ((dedup b).instrs.map canonImm)[position b i]? = _
    rw [List.getElem?_map, h1]
    rfl
  · refine q2.same q4 w (by omega) (by omega) (fun t ht => ⟨by omega, by omega⟩) fun o h1 h2 ho => ?_
    omega
  · refine q3.trans (q4.mono fun o ho => ⟨by omega, by omega, by omega, by omega⟩)

end Codegen
end CairoM
