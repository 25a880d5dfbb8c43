import Verif.ProgramCall

/-!
# Helper lemmas: code generation for the blocks of a function with calls
-/

namespace CairoM
namespace Codegen

open Mir Lang Relation

variable {b b' b₁ : Builder} {lo : ℤ} {f : Function} {L l : Layout} {ts : List MirType} {blk : Block} {md : Module}
  {g g' : Gen} {i : Instr} {next : Option Instr} {d : ValueId} {live : BlockId → ValueId → Prop}

theorem Grows.map {o : ℤ} : Grows lo b (b.mapValue d o) := by
  obtain ⟨h1, -⟩ := mapValue_frame b.layout d o
  refine ⟨List.prefix_refl _, List.prefix_refl _, h1, mapValue_ret _ _ _, fun gd => ⟨fun ib hib => ?_, gd.labels⟩⟩
  exact (gd.instrs ib hib).mono (by simp only [Builder.mapValue]; exact_mod_cast h1)

theorem argPlacement_spec {o : ℤ} (h : argPlacement d next b = some o) :
    (b.layout.frame : ℤ) ≤ o ∧ ∃ ds c args sig, next = some (.Call ds c args sig) ∧ .Operand d ∈ args := by
  unfold argPlacement at h
  split at h
  · rename_i ds c args sig
    split at h
    · rename_i j hj
      injection h with h
      refine ⟨by omega, ds, c, args, sig, rfl, ?_⟩
      obtain ⟨hlt, h1, -⟩ := List.findIdx?_eq_some_iff_getElem.mp hj
      simp only [decide_eq_true_eq] at h1
      rw [← h1]
      exact List.getElem_mem hlt
    · cases h
  · cases h

theorem mem_locals (hb : blk ∈ f.blocks) (hi : i ∈ blk.instrs) (hd : d ∈ i.destinations) : d ∈ Layout.locals f := by
  simp only [Layout.locals, List.mem_flatMap]
  exact ⟨blk, hb, i, hi, hd⟩

/-- The layout after the slot of a result is chosen. -/
theorem Choice.spread {pre post : List Instr} (hc : Sig f lo ts) (hs : Calling f live) (hb : blk ∈ f.blocks)
    (hsplit : blk.instrs = pre ++ i :: post) (hd : d ∈ i.destinations) (hsp : Spread f L lo ts b.layout)
    (hn : ∀ ds c args sig, i ≠ .Call ds c args sig) (htr : Track (some i) b) {s1 : Slot}
    (hs1 : b.layout.values d = some s1) (h : Choice ts blk.term post.head? b i d b₁) :
    Grows lo b b₁ ∧ b₁.instrs = b.instrs ∧ Spread f L lo ts b₁.layout ∧ Track post.head? b₁ ∧
      (∀ v, ¬ Moves blk.term i post.head? v → b₁.layout.values v = b.layout.values v) ∧
      ∀ v, v ≠ d → b₁.layout.values v = b.layout.values v := by
  have hp : d ∉ f.params := hs.ordered.params d (mem_locals hb (by rw [hsplit]; simp) hd)
  have hwith : ∀ v s, b.layout.values v = some s → s.off + s.size ≤ b.maxWritten + 1 := by
    intro v s h
    rcases htr.within v s h with h | ⟨ds, c, args, sig, e, -⟩
    · exact h
    · injection e with e; exact absurd e (hn _ _ _ _)
  have other : ∀ {o : ℤ} {v : ValueId}, v ≠ d → (b.mapValue d o).layout.values v = b.layout.values v := by
    intro o v hv
    simp only [Builder.mapValue, mapValue_values]
    exact Function.update_of_ne hv _ _
  have moved : ∀ {o : ℤ}, Moves blk.term i post.head? d →
      ∀ v, ¬ Moves blk.term i post.head? v → (b.mapValue d o).layout.values v = b.layout.values v := by
    intro o hm v hv
    exact other (fun e => hv (e ▸ hm))
  cases h with
  | same => exact ⟨Grows.refl, rfl, hsp, ⟨htr.low, htr.high, fun v s h => .inl (hwith v s h)⟩, fun _ _ => rfl, fun _ _ => rfl⟩
  | @arg o h =>
    obtain ⟨h1, ds, c, args, sig, h2, h3⟩ := argPlacement_spec h
    have hfr := mapValue_frame b.layout d o
    refine ⟨Grows.map, rfl, hsp.map hs1 (by have := hc.low; omega) (.inr (.inl ⟨hp, by rw [slot_of_off]; omega⟩)) (fun _ v s h => ?_), ?_, 
      moved ⟨hd, .inr (.inl ⟨ds, c, args, sig, h2, h3⟩)⟩, fun v hv => other hv⟩
    · have := hsp.ends v s h
      omega
    · refine ⟨htr.low, ?_, fun v s h => ?_⟩
      · have := htr.high
        simp only [Builder.mapValue]
        omega
      · by_cases e : v = d
        · subst e
          exact .inr ⟨ds, c, args, sig, h2, h3⟩
        · rw [other e] at h
          exact .inl (hwith v s h)
  | ret h =>
    obtain ⟨vs, t, e1, e2, e3, e4, e5, e6⟩ := firstIdx_spec hc (hs.terms blk hb) h
    obtain ⟨r1, r2⟩ := retOff_range e4
    have hm : Moves blk.term i post.head? d := ⟨hd, .inr (.inr h)⟩
    have hlow := hc.low
    have hsz : s1.size = t.memSize := by
      obtain ⟨t', q1, q2⟩ := hsp.shape.sized d s1 hs1
      rw [e5] at q1; injection q1 with q1; subst q1
      exact q2
    refine ⟨Grows.map, rfl, hsp.map hs1 (by omega) (.inr (.inr ⟨hp, blk, hb, ⟨pre, i, post, hsplit, hm⟩, h, ?_, ?_⟩)) (fun h0 => ?_), ?_, 
      moved hm, fun v hv => other hv⟩
    · rw [slot_of_off]
    · rw [slot_of_off, slot_of_size, hsz]; exact r2
    · omega
    · have hfr := mapValue_frame b.layout d (retOff ts (firstIdx blk.term d))
      refine ⟨htr.low, ?_, fun v s h => .inl ?_⟩
      · have := htr.high
        simp only [Builder.mapValue]
        omega
      · by_cases e : v = d
        · subst e
          simp only [Builder.mapValue, mapValue_values, Function.update_self, Option.some.injEq, valueSize_eq hs1] at h
          subst h
          rw [slot_of_off, slot_of_size, hsz]
          have := htr.low
          simp only [Builder.mapValue]
          omega
        · rw [other e] at h
          exact hwith v s h

/-- Every assigned value has a slot. -/
def Knows (f : Function) (L : Layout) : Prop := ∀ v ∈ Layout.locals f, ∃ s, L.values v = some s

theorem Spread.slot (hsp : Spread f L lo ts l) (hk : Knows f L) (hb : blk ∈ f.blocks) (hi : i ∈ blk.instrs)
    (hd : d ∈ i.destinations) : ∃ s, l.values d = some s := by
  obtain ⟨s, h⟩ := hk d (mem_locals hb hi hd)
  exact hsp.known d s h

theorem Track.relax (h : Track next b) (hn : ∀ ds c args sig, next ≠ some (.Call ds c args sig)) (next' : Option Instr) :
    Track next' b := by
  refine ⟨h.low, h.high, fun v s hs => ?_⟩
  rcases h.within v s hs with h | ⟨ds, c, args, sig, e, -⟩
  · exact .inl h
  · exact absurd e (hn _ _ _ _)

theorem gen_step_calls {pre post : List Instr} (hc : Sig f lo ts) (hs : Calling f live) (hk : Knows f L) (hb : blk ∈ f.blocks)
    (hsplit : blk.instrs = pre ++ i :: post) (hsp : Spread f L lo ts b.layout) (htr : Track (some i) b)
    (h : genInstr md f blk.term g b i post.head? = .ok (g', b')) :
    g' = g ∧ Grows lo b b' ∧ Spread f L lo ts b'.layout ∧ Track post.head? b' ∧
      ∀ v, ¬ Moves blk.term i post.head? v → b'.layout.values v = b.layout.values v := by
  have hmem : i ∈ blk.instrs := by rw [hsplit]; simp
  obtain ⟨hit, hsim⟩ := hs.instrs blk hb i hmem
  have hlo : lo ≤ 0 := by have := hc.low; omega
  have dest : ∀ {d : ValueId}, InstrSimple f.types i → (∀ ds c args sig, i ≠ .Call ds c args sig) → i.destinations = [d] → 
      g' = g ∧ Grows lo b b' ∧ Spread f L lo ts b'.layout ∧ Track post.head? b' ∧
        ∀ v, ¬ Moves blk.term i post.head? v → b'.layout.values v = b.layout.values v := by
    intro d hsim hn hd
    have hd' : d ∈ i.destinations := by rw [hd]; simp
    obtain ⟨s1, hs1⟩ := hsp.slot hk hb hmem hd'
    obtain ⟨e, b₁, s, h1, h2, h3⟩ := gen_dest_calls hc (hs.terms blk hb) hsim hd hs1 h
    obtain ⟨q1, q2, q3, q4, q5, q6⟩ := h3.spread hc hs hb hsplit hd' hsp hn htr hs1
    have em := emits_emit hit hsim hd q3.shape h1 hlo h2
    exact ⟨e, q1.trans em.toGrows, q3.emits em, q4.emits em, fun v hv => by rw [em.values]; exact q5 v hv⟩
  cases i <;> try exact dest hsim (by simp) rfl
  all_goals simp only [InstrCalls, InstrSimple] at hsim
  case Nop =>
    cases h
    exact ⟨rfl, Grows.refl, hsp, htr.relax (by simp) _, fun _ _ => rfl⟩
  case AssertEq l r =>
    simp only [genInstr, Bind.bind, Except.bind] at h
    split at h
    · cases h
    rename_i c hc'
    cases h
    have em := emits_assert hc' (hsp.shape.readable_op hsim.2.1 (by simp [MirType.memSize]))
      (hsp.shape.readable_op hsim.2.2 (by simp [MirType.memSize])) hlo
    exact ⟨rfl, em.toGrows, hsp.emits em, (htr.relax (by simp) _).emits em, fun v _ => by rw [em.values]⟩
  case Call ds c args sig =>
    simp only [genInstr] at h
    split at h
    · cases h
    rename_i fn hfn
    simp only [Bind.bind, Except.bind] at h
    split at h
    · cases h
    rename_i b2 hcall
    cases h
    obtain ⟨off, bA, hsh⟩ := lowerCall_shape hlo hsp htr hit.2 hit.1 hsim (fun d hd =>
      ⟨hs.ordered.params d (mem_locals hb hmem hd), hsp.slot hk hb hmem hd⟩) hcall
    refine ⟨rfl, hsh.grows, hsh.spread, hsh.track _, fun v hv => hsh.same v fun hd => hv ⟨hd, .inl ⟨_, _, _, _, rfl⟩⟩⟩

theorem gen_instrs_calls (hc : Sig f lo ts) (hs : Calling f live) (hk : Knows f L) (hb : blk ∈ f.blocks) :
    ∀ {is pre : List Instr} {g g' : Gen} {b b' : Builder}, blk.instrs = pre ++ is →
    Spread f L lo ts b.layout → Track is.head? b → genInstrs md f blk.term is g b = .ok (g', b') →
    g' = g ∧ Grows lo b b' ∧ Spread f L lo ts b'.layout ∧ Track none b' ∧
      ∀ v, ¬ MovedIn blk v → b'.layout.values v = b.layout.values v
  | [], pre, g, g', b, b', _, hsp, htr, h => by
    cases h
    exact ⟨rfl, Grows.refl, hsp, htr, fun _ _ => rfl⟩
  | i :: is, pre, g, g', b, b', hsplit, hsp, htr, h => by
    simp only [genInstrs] at h
    split at h
    · cases h
    · rename_i g1 b1 h1
      obtain ⟨e1, gr1, l1, t1, k1⟩ := gen_step_calls hc hs hk hb hsplit hsp htr h1
      obtain ⟨e2, gr2, l2, t2, k2⟩ := gen_instrs_calls hc hs hk hb (pre := pre ++ [i]) (by rw [hsplit]; simp) l1 t1 h
      refine ⟨e2.trans e1, gr1.trans gr2, l2, t2, fun v hv => ?_⟩
      rw [k2 v hv]
      exact k1 v fun hm => hv ⟨pre, i, is, hsplit, hm⟩

/-! ### Blocks -/

/-- The code of block `k` within that of the function. -/
structure PlacedC (md : Module) (f : Function) (L : Layout) (lo : ℤ) (ts : List MirType) (bF : Builder) (k : BlockId)
    (blk : Block) (b0 b1 b2 : Builder) (next : Option BlockId) : Prop where
  instrs : ∃ g g', genInstrs md f blk.term blk.instrs g (b0.addLabel (blockLabel f.name k)) = .ok (g', b1)
  term : genTerm f b1 blk.term next = .ok b2
  spread : Spread f L lo ts b0.layout
  spread1 : Spread f L lo ts b1.layout
  track : ∀ n, Track n b0
  grows : Grows lo b2 bF
  last : f.blocks.length = (k : ℕ) + 1 → next = none ∧ b2 = bF
  next : ∀ t, next = some t → ⟨blockLabel f.name t, b2.instrs.length⟩ ∈ bF.labels
  before : ∀ v, (∀ (j : ℕ) bj, k ≤ j → f.blocks[j]? = some bj → ¬ MovedIn bj v) → b0.layout.values v = bF.layout.values v
  after : ∀ v, (∀ (j : ℕ) bj, k < j → f.blocks[j]? = some bj → ¬ MovedIn bj v) → b1.layout.values v = bF.layout.values v

theorem gen_blocks_calls (hc : Sig f lo ts) (hs : Calling f live) (hk : Knows f L) :
    ∀ {bs : List Block} {i : ℕ} {g g' : Gen} {b bF : Builder}, f.blocks.drop i = bs →
    Spread f L lo ts b.layout → (∀ n, Track n b) → genBlocks md f bs i g b = .ok (g', bF) →
    g' = g ∧ Grows lo b bF ∧ Spread f L lo ts bF.layout ∧
      (∀ k blk, i ≤ k → f.blocks[k]? = some blk → ∃ b0 b1 b2 next, PlacedC md f L lo ts bF k blk b0 b1 b2 next ∧ (k = i → b0 = b) ∧
        Grows lo b b0 ∧ Grows lo b0 b1) ∧
      (bs ≠ [] → ⟨blockLabel f.name i, b.instrs.length⟩ ∈ bF.labels) ∧
      ∀ v, (∀ (j : ℕ) bj, i ≤ j → f.blocks[j]? = some bj → ¬ MovedIn bj v) → b.layout.values v = bF.layout.values v
  | [], i, g, g', b, bF, hdrop, hsp, htr, h => by
    cases h
    refine ⟨rfl, Grows.refl, hsp, fun k blk hik hk => ?_, by simp, fun _ _ => rfl⟩
    have := List.drop_eq_nil_iff.mp hdrop
    rw [List.getElem?_eq_none (by omega)] at hk
    cases hk
  | blk :: bs, i, g, g', b, bF, hdrop, hsp, htr, h => by
    have hget : f.blocks[i]? = some blk := by
      have : (f.blocks.drop i)[0]? = some blk := by rw [hdrop]; rfl
      rwa [List.getElem?_drop, Nat.add_zero] at this
    have hb : blk ∈ f.blocks := List.mem_of_getElem? hget
    have hdrop' : f.blocks.drop (i + 1) = bs := by
      rw [← List.drop_drop, hdrop]; rfl
    simp only [genBlocks] at h
    split at h
    · cases h
    rename_i g1 b1 h1
    split at h
    · cases h
    rename_i b2 h2
    have e0 : Emits lo b (b.addLabel (blockLabel f.name i)) := emits_addLabel
    have sp0 := hsp.emits e0
    have tr0 := fun n => (htr n).emits e0
    obtain ⟨q1, q2, q3, q4, q5⟩ := gen_instrs_calls hc hs hk hb (pre := []) rfl sp0 (tr0 _) h1
    have e2 := emits_term hc (hs.terms blk hb) q3.shape h2
    have sp2 := q3.emits e2
    have tr2 : ∀ n, Track n b2 := (q4.relax (by simp)  · |>.emits e2)
    obtain ⟨r1, r2, r3, r4, r5, r6⟩ := gen_blocks_calls hc hs hk hdrop' sp2 tr2 h
    have hval : ∀ v, ¬ MovedIn blk v → b2.layout.values v = b.layout.values v := by
      intro v hv
      rw [e2.values, q5 v hv, e0.values]
    refine ⟨r1.trans q1, e0.toGrows.trans (q2.trans (e2.toGrows.trans r2)), r3, fun k bk hik hbk => ?_, fun _ => ?_, fun v hv => ?_⟩
    · by_cases e : k = i
      · subst e
        rw [hget] at hbk; injection hbk with hbk; subst hbk
        refine ⟨b, b1, b2, _, ⟨⟨g, g1, h1⟩, h2, hsp, q3, htr, r2, fun hl => ?_, fun t ht => ?_, fun v hv => ?_, fun v hv => ?_⟩, fun _ => rfl,
          Grows.refl, e0.toGrows.trans q2⟩
        · have : bs = [] := by rw [← hdrop']; exact List.drop_eq_nil_iff.mpr (le_of_eq hl)
          subst this
          cases h
          exact ⟨rfl, rfl⟩
        · cases bs with
          | nil => simp at ht
          | cons c cs =>
            simp only [List.isEmpty_cons, Bool.false_eq_true, if_false, Option.some.injEq] at ht
            subst ht
            exact r5 (by simp)
        · rw [← hval v (hv k blk le_rfl hget)]
          exact r6 v fun j bj hj => hv j bj (Nat.le_of_succ_le hj)
        · rw [← e2.values]
          exact r6 v fun j bj hj => hv j bj (Nat.lt_of_succ_le hj)
      · obtain ⟨c0, c1, c2, nx, hP, -, hG, hG'⟩ := r4 k bk (Nat.lt_of_le_of_ne hik (Ne.symm e)) hbk
        exact ⟨c0, c1, c2, nx, hP, fun e' => absurd e' e, e0.toGrows.trans (q2.trans (e2.toGrows.trans hG)), hG'⟩
    · refine (q2.trans (e2.toGrows.trans r2)).labels.subset ?_
      simp [Builder.addLabel]
    · rw [← hval v (hv i blk le_rfl hget)]
      exact r6 v fun j bj hj => hv j bj (by omega)

end Codegen
end CairoM
