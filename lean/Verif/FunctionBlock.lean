import Verif.FunctionStep
import Verif.FunctionStatic

/-!
# Helper lemmas: the instructions of a block
-/

namespace CairoM
namespace Codegen

open Mir Lang Relation

/-- Instructions whose result may be computed directly in a return slot. -/
def direct : Instr → Bool
  | .Assign _ _ _ | .UnaryOp _ _ _ => true
  | .BinaryOp op _ _ _ => !wideResult op
  | _ => false

/-- The block computes the value directly in a return slot. -/
def places (blk : Block) (v : ValueId) : Bool :=
  blk.instrs.any (fun i => direct i && decide (i.destinations = [v])) && decide (Returns blk.term v)

/-- Offset of the return slot of the `i`-th value. -/
def retOff (ts : List MirType) (i : ℕ) : ℤ := -((Builder.sizeSum ts : ℤ) + 2) + Builder.sizeSum (ts.take i)

/-- Index of the first occurrence among the returned values. -/
def firstIdx : Terminator → ValueId → ℕ
  | .Return vs, v => vs.findIdx (· = .Operand v)
  | _, _ => 0

/-- Where a value is while the block runs. -/
def home (L : Layout) (ts : List MirType) (blk : Block) (v : ValueId) : Option Slot :=
  if places blk v then (L.values v).map fun s => Slot.of (retOff ts (firstIdx blk.term v)) s.size else L.values v

/-- What the frame layout of a function gives. -/
structure Base (f : Function) (L : Layout) (lo : ℤ) (ts : List MirType) : Prop where
  rts : returnTypes f f.returns = .ok ts
  ret : Builder.sizeSum ts = L.retSlots
  low : lo ≤ -2 - L.retSlots
  range : ∀ v s, L.values v = some s → lo ≤ s.off ∧ s.off + s.size ≤ L.frame
  apart : ∀ v w s t, v ≠ w → L.values v = some s → L.values w = some t → Apart s.off s.size t.off t.size
  clear : ∀ v s, L.values v = some s → Apart s.off s.size (-2 - L.retSlots) (L.retSlots + 2)
  sized : ∀ v s, L.values v = some s → ∃ t, f.types v = some t ∧ s.size = t.memSize
  laid : ∀ v, v ∈ f.params ∨ v ∈ Layout.locals f → ∃ s, L.values v = some s

/-- What is known about a call-free function whose code is generated. -/
structure Ctx (f : Function) (L : Layout) (lo : ℤ) (ts : List MirType) : Prop extends Base f L lo ts where
  simple : Simple f

/-- The layout while code is generated: only values placed in return slots have moved. -/
structure Laid (f : Function) (L : Layout) (lo : ℤ) (l : Layout) : Prop where
  range : ∀ v s, l.values v = some s → lo ≤ s.off ∧ s.off + s.size ≤ l.frame
  sized : ∀ v s, l.values v = some s → ∃ t, f.types v = some t ∧ s.size = t.memSize
  known : ∀ v s, L.values v = some s → ∃ t, l.values v = some t
  fixed : ∀ v, (∀ blk ∈ f.blocks, places blk v = false) → l.values v = L.values v
  frame : L.frame ≤ l.frame
  retSlots : l.retSlots = L.retSlots

/-- What the code of a function needs to know of its return values. -/
structure Sig (f : Function) (lo : ℤ) (ts : List MirType) : Prop where
  rts : returnTypes f f.returns = .ok ts
  low : lo ≤ -2 - Builder.sizeSum ts

/-- A layout whose slots are inside the frame and of the size of the type. -/
structure Shape (f : Function) (lo : ℤ) (ts : List MirType) (l : Layout) : Prop where
  range : ∀ v s, l.values v = some s → lo ≤ s.off ∧ s.off + s.size ≤ l.frame
  sized : ∀ v s, l.values v = some s → ∃ t, f.types v = some t ∧ s.size = t.memSize
  ret : l.retSlots = Builder.sizeSum ts

variable {code : List IB} {tgt : Name → Option ℕ} {fp : M31} {m : Isa.Mem} {b b' b₁ : Builder} {lo hi : ℤ}
  {env env' : Env} {calls : Calls} {f : Function} {L : Layout} {ts : List MirType} {blk : Block} {md : Module}
  {g g' : Gen}

theorem Laid.emits (h : Laid f L lo b.layout) (e : Emits lo b b') : Laid f L lo b'.layout := by
  have hf := e.frame
  have hv := e.values
  refine ⟨fun v s hs => ?_, fun v s hs => h.sized v s (by rwa [hv] at hs), fun v s hs => ?_, fun v hn => ?_,
    h.frame.trans hf, e.retSlots.trans h.retSlots⟩
  · rw [hv] at hs
    obtain ⟨h1, h2⟩ := h.range v s hs
    exact ⟨h1, by omega⟩
  · rw [hv]; exact h.known v s hs
  · rw [hv]; exact h.fixed v hn

theorem Base.sig (hc : Base f L lo ts) : Sig f lo ts := ⟨hc.rts, by have := hc.low; have := hc.ret; omega⟩

theorem Laid.shape {l : Layout} (hl : Laid f L lo l) (hc : Ctx f L lo ts) : Shape f lo ts l :=
  ⟨hl.range, hl.sized, by rw [hl.retSlots, hc.ret]⟩

theorem Shape.emits (h : Shape f lo ts b.layout) (e : Emits lo b b') : Shape f lo ts b'.layout := by
  have hf := e.frame
  have hv := e.values
  refine ⟨fun v s hs => ?_, fun v s hs => h.sized v s (by rwa [hv] at hs), e.retSlots.trans h.ret⟩
  rw [hv] at hs
  obtain ⟨h1, h2⟩ := h.range v s hs
  exact ⟨h1, by omega⟩

theorem sizeSum_append (as bs : List MirType) : Builder.sizeSum (as ++ bs) = Builder.sizeSum as + Builder.sizeSum bs := by
  simp [Builder.sizeSum]

theorem sizeSum_take_succ {ts : List MirType} {i : ℕ} {t : MirType} (h : ts[i]? = some t) :
    Builder.sizeSum (ts.take (i + 1)) = Builder.sizeSum (ts.take i) + t.memSize := by
  rw [List.take_add_one, h, sizeSum_append]
  simp [Builder.sizeSum]

theorem sizeSum_take_le (ts : List MirType) {i j : ℕ} (h : i ≤ j) :
    Builder.sizeSum (ts.take i) ≤ Builder.sizeSum (ts.take j) := by
  have : ts.take j = ts.take i ++ (ts.take j).drop i := by
    conv_lhs => rw [← List.take_append_drop i (ts.take j)]
    rw [List.take_take, min_eq_left h]
  rw [this, sizeSum_append]
  omega

theorem sizeSum_take_all (ts : List MirType) (i : ℕ) : Builder.sizeSum (ts.take i) ≤ Builder.sizeSum ts := by
  by_cases h : i ≤ ts.length
  · have := sizeSum_take_le ts h
    rwa [List.take_length] at this
  · rw [List.take_of_length_le (by omega)]

/-- A return slot is inside the return area. -/
theorem retOff_range {i : ℕ} {t : MirType} (h : ts[i]? = some t) :
    -((Builder.sizeSum ts : ℤ) + 2) ≤ retOff ts i ∧ retOff ts i + t.memSize ≤ -2 := by
  have h1 := sizeSum_take_succ h
  have h2 := sizeSum_take_all ts (i + 1)
  unfold retOff
  omega

theorem retOff_lt {i j : ℕ} {t : MirType} (h : ts[i]? = some t) (hij : i < j) : retOff ts i + t.memSize ≤ retOff ts j := by
  have h1 := sizeSum_take_succ h
  have h2 := sizeSum_take_le ts (i := i + 1) (j := j) hij
  unfold retOff
  omega

theorem returnTypes_get : ∀ {vs : List ValueId} {ts : List MirType}, returnTypes f vs = .ok ts →
    ts.length = vs.length ∧ ∀ (i : ℕ) r, vs[i]? = some r → ∃ t, ts[i]? = some t ∧ f.types r = some t
  | [], ts, h => by
    simp only [returnTypes, Except.ok.injEq] at h; subst h; simp
  | v :: vs, ts, h => by
    simp only [returnTypes] at h
    cases hv : f.types v with
    | none => rw [hv] at h; cases h
    | some t =>
      rw [hv] at h
      cases hr : returnTypes f vs with
      | error e => simp only [hr] at h; cases h
      | ok us =>
        simp only [hr, Except.ok.injEq] at h
        subst h
        obtain ⟨h1, h2⟩ := returnTypes_get hr
        refine ⟨by simp [h1], fun i r hi => ?_⟩
        cases i with
        | zero =>
          simp only [List.getElem?_cons_zero, Option.some.injEq] at hi
          subst hi
          exact ⟨t, by simp, hv⟩
        | succ i =>
          simp only [List.getElem?_cons_succ] at hi
          simpa using h2 i r hi

/-- A returned value: its index and the type declared there. -/
theorem firstIdx_spec (hc : Sig f lo ts) {blk : Block} (ht : TermTyped f blk.term) {v : ValueId} (h : Returns blk.term v) :
    ∃ vs t, blk.term = .Return vs ∧ vs[firstIdx blk.term v]? = some (.Operand v) ∧
      vs.findIdx? (· = .Operand v) = some (firstIdx blk.term v) ∧
      ts[firstIdx blk.term v]? = some t ∧ f.types v = some t ∧ firstIdx blk.term v < ts.length := by
  cases hterm : blk.term <;> rw [hterm] at h ht <;> simp only [Returns] at h
  rename_i vs
  simp only [firstIdx]
  simp only [TermTyped] at ht
  have hlt : vs.findIdx (· = .Operand v) < vs.length := List.findIdx_lt_length.mpr ⟨_, h, by simp⟩
  have hget := List.findIdx_getElem (w := hlt)
  simp only [decide_eq_true_eq] at hget
  have hg? : vs[vs.findIdx (· = .Operand v)]? = some (.Operand v) := by
    rw [List.getElem?_eq_getElem hlt, hget]
  obtain ⟨hlen, hall⟩ := returnTypes_get hc.rts
  have hlen' := ht.length_eq
  have hr : vs.findIdx (· = .Operand v) < f.returns.length := by omega
  obtain ⟨t, h1, h2⟩ := hall _ _ (List.getElem?_eq_getElem hr)
  have := List.Forall₂.get ht hlt hr
  simp only [List.get_eq_getElem, hget] at this
  obtain ⟨t', h3, h4⟩ := this
  rw [h3] at h2; injection h2 with h2; subst h2
  exact ⟨vs, t', rfl, hg?, List.findIdx?_eq_some_iff_findIdx_eq.mpr ⟨hlt, rfl⟩, h1, h4, by omega⟩

theorem places_spec {v : ValueId} (h : places blk v = true) :
    (∃ i ∈ blk.instrs, direct i = true ∧ i.destinations = [v]) ∧ Returns blk.term v := by
  simp only [places, Bool.and_eq_true, List.any_eq_true, decide_eq_true_eq] at h
  exact h

theorem home_placed (hc : Ctx f L lo ts) (hb : blk ∈ f.blocks) {v : ValueId} {s : Slot} (h : places blk v = true)
    (hs : home L ts blk v = some s) : ∃ t, s.off = retOff ts (firstIdx blk.term v) ∧ s.size = t.memSize ∧
      ts[firstIdx blk.term v]? = some t ∧ f.types v = some t := by
  obtain ⟨-, hr⟩ := places_spec h
  obtain ⟨vs, t, h1, -, -, h4, h5, -⟩ := firstIdx_spec hc.sig (hc.simple.terms blk hb) hr
  simp only [home, h, if_true, Option.map_eq_some_iff] at hs
  obtain ⟨s0, g1, rfl⟩ := hs
  obtain ⟨t', k1, k2⟩ := hc.sized v s0 g1
  rw [h5] at k1; injection k1 with k1; subst k1
  exact ⟨t, slot_of_off _ _, by rw [slot_of_size, k2], h4, h5⟩

theorem home_unplaced {v : ValueId} (h : places blk v = false) : home L ts blk v = L.values v := by
  simp [home, h]

theorem firstIdx_inj (hc : Sig f lo ts) (hb : TermTyped f blk.term) {v w : ValueId} (hv : Returns blk.term v)
    (hw : Returns blk.term w) (h : firstIdx blk.term v = firstIdx blk.term w) : v = w := by
  obtain ⟨vs, -, h1, h2, -⟩ := firstIdx_spec hc hb hv
  obtain ⟨us, -, k1, k2, -⟩ := firstIdx_spec hc hb hw
  rw [h1] at k1; cases k1
  rw [h, k2] at h2
  injection h2 with h2
  injection h2 with h2
  exact h2.symm

theorem homes (hc : Ctx f L lo ts) (hb : blk ∈ f.blocks) : Homes f.types lo L.frame (home L ts blk) := by
  have hret := hc.ret
  have hlo := hc.low
  have placed_range : ∀ v s, places blk v = true → home L ts blk v = some s →
      -2 - (L.retSlots : ℤ) ≤ s.off ∧ s.off + s.size ≤ -2 := by
    intro v s h hs
    obtain ⟨t, h1, h2, h3, -⟩ := home_placed hc hb h hs
    have := retOff_range h3
    rw [h1, h2]
    omega
  refine ⟨fun v s hs => ?_, fun v w s t hne hs ht => ?_, fun v s hs => ?_⟩
  · by_cases h : places blk v = true
    · have := placed_range v s h hs
      unfold Apart
      omega
    · rw [home_unplaced (by simpa using h)] at hs
      obtain ⟨h1, h2⟩ := hc.range v s hs
      have h3 := hc.clear v s hs
      unfold Apart at h3 ⊢
      omega
  · by_cases hv : places blk v = true <;> by_cases hw : places blk w = true
    · obtain ⟨t1, a1, a2, a3, -⟩ := home_placed hc hb hv hs
      obtain ⟨t2, c1, c2, c3, -⟩ := home_placed hc hb hw ht
      have hidx : firstIdx blk.term v ≠ firstIdx blk.term w := fun e =>
        hne (firstIdx_inj hc.sig (hc.simple.terms blk hb) (places_spec hv).2 (places_spec hw).2 e)
      unfold Apart
      rcases Nat.lt_or_gt_of_ne hidx with hlt | hlt
      · have := retOff_lt a3 hlt
        omega
      · have := retOff_lt c3 hlt
        omega
    · have h1 := placed_range v s hv hs
      rw [home_unplaced (by simpa using hw)] at ht
      have h2 := hc.clear w t ht
      unfold Apart at h2 ⊢
      omega
    · have h1 := placed_range w t hw ht
      rw [home_unplaced (by simpa using hv)] at hs
      have h2 := hc.clear v s hs
      unfold Apart at h2 ⊢
      omega
    · rw [home_unplaced (by simpa using hv)] at hs
      rw [home_unplaced (by simpa using hw)] at ht
      exact hc.apart v w s t hne hs ht
  · by_cases h : places blk v = true
    · obtain ⟨t, -, h2, -, h4⟩ := home_placed hc hb h hs
      exact ⟨t, h4, h2⟩
    · rw [home_unplaced (by simpa using h)] at hs
      exact hc.sized v s hs

/-! ### The choice of the slot -/

theorem sum_one_unique {α : Type} (g : α → ℕ) : ∀ {l : List α}, (l.map g).sum = 1 → ∀ {x y : α}, x ∈ l → y ∈ l →
    1 ≤ g x → 1 ≤ g y → x = y
  | [], _, x, y, hx, _, _, _ => by cases hx
  | a :: l, h, x, y, hx, hy, gx, gy => by
    simp only [List.map_cons, List.sum_cons] at h
    have mem : ∀ {z}, z ∈ l → g z ≤ (l.map g).sum := fun {z} hz => List.single_le_sum (by simp) _ (List.mem_map_of_mem hz)
    rcases List.mem_cons.mp hx with ex | hx' <;> rcases List.mem_cons.mp hy with ey | hy'
    · rw [ex, ey]
    · have := mem hy'; subst ex; omega
    · have := mem hx'; subst ey; omega
    · have := mem hx'
      exact sum_one_unique g (by omega) hx' hy' gx gy

/-- A value assigned once is assigned by one instruction. -/
theorem assigned_unique {blk blk' : Block} {i j : Instr} {d : ValueId} (h : (Layout.locals f).count d = 1)
    (hb : blk ∈ f.blocks) (hb' : blk' ∈ f.blocks) (hi : i ∈ blk.instrs) (hj : j ∈ blk'.instrs)
    (hd : d ∈ i.destinations) (hd' : d ∈ j.destinations) : blk = blk' ∧ i = j := by
  have pos : ∀ {blk : Block} {i : Instr}, i ∈ blk.instrs → d ∈ i.destinations →
      1 ≤ (blk.instrs.flatMap Instr.destinations).count d := fun hi hd =>
    List.count_pos_iff.mpr (List.mem_flatMap.mpr ⟨_, hi, hd⟩)
  unfold Layout.locals at h
  rw [List.count_flatMap] at h
  have e := sum_one_unique _ h hb hb' (pos hi hd) (pos hj hd')
  subst e
  have h1 : (blk.instrs.flatMap Instr.destinations).count d = 1 := by
    have a1 := pos hi hd
    have a2 : (blk.instrs.flatMap Instr.destinations).count d ≤ _ := List.single_le_sum (by simp) _ (List.mem_map_of_mem (f := List.count d ∘ fun b : Block => b.instrs.flatMap Instr.destinations) hb)
    omega
  rw [List.count_flatMap] at h1
  exact ⟨rfl, sum_one_unique _ h1 hi hj (List.count_pos_iff.mpr hd) (List.count_pos_iff.mpr hd')⟩

/-- Return placement of a value. -/
theorem returnPlacement_eq (hc : Sig f lo ts) (hb : TermTyped f blk.term) {d : ValueId} {o : Option ℤ}
    (h : returnPlacement f d blk.term = .ok o) :
    o = if Returns blk.term d then some (retOff ts (firstIdx blk.term d)) else none := by
  unfold returnPlacement at h
  by_cases hr : Returns blk.term d
  · obtain ⟨vs, t, h1, -, h3, -, -, h6⟩ := firstIdx_spec hc hb hr
    rw [if_pos hr]
    rw [h1] at h h6 h3 ⊢
    simp only [hc.rts, h3, h6, if_true, Except.ok.injEq] at h
    exact h.symm
  · rw [if_neg hr]
    cases ht : blk.term <;> rw [ht] at h hr <;> simp only [Except.ok.injEq] at h
    case Return vs =>
      simp only [Returns] at hr
      have : vs.findIdx? (· = .Operand d) = none := by
        rw [List.findIdx?_eq_none_iff]
        intro x hx
        simp only [decide_eq_false_iff_not]
        rintro rfl; exact hr hx
      simp only [hc.rts, this, Except.ok.injEq] at h
      exact h.symm
    all_goals exact h.symm

theorem argPlacement_none {d : ValueId} {next : Option Instr} (h : ∀ i, next = some i → InstrSimple f.types i) :
    argPlacement d next b = none := by
  unfold argPlacement
  split
  · exact (h _ rfl).elim
  · rfl

/-- A result goes to its home. -/
theorem gen_dest (hc : Ctx f L lo ts) (hb : blk ∈ f.blocks) {i : Instr} {next : Option Instr} {d : ValueId}
    (hi : i ∈ blk.instrs) (hsim : InstrSimple f.types i) (hnext : ∀ j, next = some j → InstrSimple f.types j)
    (hd : i.destinations = [d]) (hl : Laid f L lo b.layout)
    (h : genInstr md f blk.term g b i next = .ok (g', b')) :
    g' = g ∧ ∃ b₁ s, home L ts blk d = some s ∧ Chosen b b₁ d s ∧ emit b₁ i s.off = .ok b' := by
  have hdl : d ∈ Layout.locals f := by
    simp only [Layout.locals, List.mem_flatMap]
    exact ⟨blk, hb, i, hi, by rw [hd]; simp⟩
  obtain ⟨s0, hs0⟩ := hc.laid d (.inr hdl)
  obtain ⟨s1, hs1⟩ := hl.known d s0 hs0
  have hsz : b.layout.valueSize d = s0.size := by
    obtain ⟨t, a1, a2⟩ := hc.sized d s0 hs0
    obtain ⟨t', c1, c2⟩ := hl.sized d s1 hs1
    rw [a1] at c1; injection c1 with c1; subst c1
    simp only [Layout.valueSize, hs1, a2, c2]
  -- placed in a return slot
  have placed : ∀ {o : ℤ}, direct i = true → (if Returns blk.term d then some (retOff ts (firstIdx blk.term d)) else none) = some o →
      ∃ s, home L ts blk d = some s ∧ s.off = o ∧ Chosen b (b.mapValue d o) d s := by
    intro o hdir ho
    split_ifs at ho with hr
    injection ho with ho; subst ho
    have hp : places blk d = true := by
      simp only [places, Bool.and_eq_true, List.any_eq_true, decide_eq_true_eq]
      exact ⟨⟨i, hi, hdir, hd⟩, hr⟩
    have hhome : home L ts blk d = some (Slot.of (retOff ts (firstIdx blk.term d)) s0.size) := by
      simp [home, hp, hs0]
    refine ⟨_, hhome, slot_of_off _ _, ?_⟩
    rw [← hsz]
    refine Chosen.map ?_
    obtain ⟨t, h1, h2, h3, -⟩ := home_placed hc hb hp hhome
    have := retOff_range h3
    rw [slot_of_size] at h2
    rw [hsz, h2]
    omega
  -- left where it was
  have unplaced : (direct i = true → (if Returns blk.term d then some (retOff ts (firstIdx blk.term d)) else none) = none) →
      home L ts blk d = some s1 := by
    intro hn
    have hp : ∀ blk' ∈ f.blocks, places blk' d = false := by
      intro blk' hb'
      by_contra hcon
      simp only [Bool.not_eq_false] at hcon
      obtain ⟨⟨j, hj, hdir, hjd⟩, hret⟩ := places_spec hcon
      have honce := (hc.simple.once blk' hb' j hj d (by rw [hjd]; simp) hret).1
      obtain ⟨rfl, rfl⟩ := assigned_unique honce hb hb' hi hj (by rw [hd]; simp) (by rw [hjd]; simp)
      have := hn hdir
      rw [if_pos hret] at this
      cases this
    rw [home_unplaced (hp blk hb), ← hl.fixed d hp, hs1]
  have harg : argPlacement d next b = none := argPlacement_none hnext
  have nodir : direct i = false → home L ts blk d = some s1 := fun h => unplaced fun h' => by rw [h] at h'; cases h'
  have hoff := getOffset_ok hs1
  cases i <;> simp only [InstrSimple] at hsim <;> simp only [Instr.destinations, List.cons.injEq, and_true, reduceCtorEq] at hd
  case Assign d' v ty =>
    subst hd
    simp only [genInstr, placement, harg, Bind.bind, Except.bind] at h
    split at h
    · cases h
    rename_i o ho
    have ho := returnPlacement_eq hc.sig (hc.simple.terms blk hb) ho
    split at h
    · cases h
    rename_i c hc'
    cases h
    refine ⟨rfl, ?_⟩
    cases o with
    | none =>
      refine ⟨b, s1, unplaced fun _ => ho.symm, Chosen.same hs1, ?_⟩
      have ha : b.allocateLocal d' ty.memSize = (s1.off, b) := by simp [Builder.allocateLocal, Layout.allocateLocal, hs1]
      simp only [Builder.assign, ha] at hc'
      exact hc'
    | some off =>
      obtain ⟨s, k1, k2, k3⟩ := placed rfl ho.symm
      exact ⟨_, s, k1, k3, by rw [k2]; exact hc'⟩
  case UnaryOp op d' v =>
    subst hd
    simp only [genInstr, placement, harg, Bind.bind, Except.bind] at h
    split at h
    · cases h
    rename_i o ho
    have ho := returnPlacement_eq hc.sig (hc.simple.terms blk hb) ho
    split at h
    · cases h
    rename_i c hc'
    cases h
    refine ⟨rfl, ?_⟩
    cases o with
    | none =>
      refine ⟨b, s1, unplaced fun _ => ho.symm, Chosen.same hs1, ?_⟩
      simp only [Builder.unaryOp, Builder.destOffset, hoff, Bind.bind, Except.bind] at hc'
      cases op <;> exact hc'
    | some off =>
      obtain ⟨s, k1, k2, k3⟩ := placed rfl ho.symm
      refine ⟨_, s, k1, k3, ?_⟩
      rw [k2]
      simp only [Builder.unaryOp, Builder.destOffset, Bind.bind, Except.bind] at hc'
      cases op <;> exact hc'
  case BinaryOp op d' l r =>
    subst hd
    by_cases hw : wideResult op = true
    · simp only [genInstr, harg, hw, if_true, Bind.bind, Except.bind] at h
      split at h
      · cases h
      rename_i c hc'
      cases h
      refine ⟨rfl, b, s1, nodir (by simp [direct, hw]), Chosen.same hs1, ?_⟩
      simp only [Builder.binaryOp, Builder.destOffset, hoff, Bind.bind, Except.bind] at hc'; exact hc'
    · simp only [genInstr, harg, hw, Bool.false_eq_true, if_false, Bind.bind, Except.bind] at h
      split at h
      · cases h
      rename_i o ho
      split at h
      · cases h
      rename_i c hc'
      cases h
      refine ⟨rfl, ?_⟩
      have ho := returnPlacement_eq hc.sig (hc.simple.terms blk hb) ho
      cases o with
      | none =>
        refine ⟨b, s1, unplaced fun _ => ho.symm, Chosen.same hs1, ?_⟩
        simp only [Builder.binaryOp, Builder.destOffset, hoff, Bind.bind, Except.bind] at hc'; exact hc'
      | some off =>
        obtain ⟨s, k1, k2, k3⟩ := placed (by simp [direct, hw]) ho.symm
        refine ⟨_, s, k1, k3, ?_⟩
        rw [k2]
        simp only [Builder.binaryOp, Builder.destOffset, Bind.bind, Except.bind] at hc'; exact hc'
  case Cast d' v st tt =>
    subst hd
    simp only [genInstr, Bind.bind, Except.bind] at h
    split at h
    · cases h
    rename_i c hc'
    cases h
    refine ⟨rfl, b, s1, nodir rfl, Chosen.same hs1, ?_⟩
    cases st <;> simp only [Builder.cast, reduceCtorEq] at hc'
    cases tt <;> simp only [reduceCtorEq] at hc'
    have ha : b.allocateLocal d' 1 = (s1.off, b) := by simp [Builder.allocateLocal, Layout.allocateLocal, hs1]
    rw [ha] at hc'
    simp only at hc'
    cases v with
    | Operand id => exact hc'
    | Error => cases hc'
    | Literal lit => cases lit <;> first | exact hc' | cases hc'

/-! ### Shape of the code of a block -/

theorem Shape.readable (h : Shape f lo ts b.layout) {v : Value} {n : ℕ}
    (hv : ∀ id, v = .Operand id → ∃ t, f.types id = some t ∧ n ≤ t.memSize) : Readable lo b.layout n v := by
  intro id s e hs
  obtain ⟨t, h1, h2⟩ := hv id e
  obtain ⟨t', h3, h4⟩ := h.sized id s hs
  rw [h1] at h3; injection h3 with h3; subst h3
  obtain ⟨r1, r2⟩ := h.range id s hs
  exact ⟨r1, by omega⟩

theorem Shape.readable_typed (h : Shape f lo ts b.layout) {v : Value} {t : MirType} (hv : HasType f.types v t) :
    Readable lo b.layout t.memSize v := h.readable fun id e => by
  subst e; exact ⟨t, hv, le_rfl⟩

theorem Shape.readable_op (h : Shape f lo ts b.layout) {v : Value} {us : List MirType} {n : ℕ} (hv : OperandTyped f.types us v)
    (hn : ∀ t ∈ us, n ≤ t.memSize) : Readable lo b.layout n v := h.readable fun id e => by
  subst e
  obtain ⟨t, h1, h2⟩ := hv
  exact ⟨t, h2, hn t h1⟩

theorem opArg_le (op : BinaryOp) : ∀ t ∈ operandTypes op, opArg op ≤ t.memSize := by
  cases op <;> simp [operandTypes, opArg, MirType.memSize]

theorem Readable.le {l : Layout} {n k : ℕ} {v : Value} (h : Readable lo l n v) (hk : k ≤ n) : Readable lo l k v := by
  intro id s e hs
  obtain ⟨h1, h2⟩ := h id s e hs
  exact ⟨h1, by omega⟩

/-- The code of an instruction only extends the code. -/
theorem emits_emit {i : Instr} {d : ValueId} {s : Slot} (hit : InstrTyped f.types i) (hsim : InstrSimple f.types i)
    (hd : i.destinations = [d]) (hl : Shape f lo ts b.layout) (hs : b.layout.values d = some s) (hlo : lo ≤ 0)
    (h : emit b i s.off = .ok b') : Emits lo b b' := by
  obtain ⟨r1, r2⟩ := hl.range d s hs
  obtain ⟨t, t1, t2⟩ := hl.sized d s hs
  have zero : Readable lo b.layout 1 (.Literal (.Integer 0)) := fun id s e => by cases e
  cases i <;> simp only [InstrSimple] at hsim <;> simp only [Instr.destinations, List.cons.injEq, and_true, reduceCtorEq] at hd
  case Assign d' v ty =>
    subst hd
    obtain ⟨h1, h2⟩ := hit
    rw [t1] at h1; injection h1 with h1; subst h1
    exact emits_assignTo h (hl.readable_typed h2) r1 (by rw [← t2]; exact r2)
  case UnaryOp op d' v =>
    subst hd
    obtain ⟨h1, h2⟩ := hit
    rw [t1] at h1; injection h1 with h1; subst h1
    cases op with
    | Neg => exact emits_feltArith h zero (hl.readable_typed h2) hlo r1 (by rw [t2] at r2; exact r2)
    | Not => exact emits_scNot h (hl.readable_typed h2) r1 (by rw [t2] at r2; exact r2)
  case BinaryOp op d' l r =>
    subst hd
    obtain ⟨h1, h2⟩ := hit
    rw [t1] at h1; injection h1 with h1; subst h1
    exact emits_computeInto h (hl.readable_op hsim.1.1 (opArg_le op)) (hl.readable_op hsim.1.2 (opArg_le op)) hlo r1
      (by rw [t2] at r2; exact r2)
  case Cast d' v st tt =>
    subst hd
    obtain ⟨h1, h2⟩ := hit
    rw [t1] at h1; injection h1 with h1; subst h1
    cases v with
    | Error => cases h2
    | Operand id =>
      cases st <;> cases t <;> simp only [emit, reduceCtorEq] at h
      split at h
      · cases h
      · rename_i o ho
        cases h
        obtain ⟨a1, a2⟩ := (hl.readable_typed h2).offset ho
        exact emits_castSeq hlo a1 (by exact_mod_cast a2) r1 (by rw [t2] at r2; exact r2)
    | Literal lit =>
      cases lit <;> cases st <;> cases t <;> simp only [emit, reduceCtorEq] at h
      split_ifs at h
      cases h
      exact emits_imm r1 (by rw [t2] at r2; exact r2)

theorem Chosen.grows {d : ValueId} {s : Slot} (h : Chosen b b₁ d s) : Grows lo b b₁ :=
  ⟨by rw [h.instrs], by rw [h.labels], by rw [h.frame], h.retSlots, fun g =>
    ⟨by rw [h.instrs, h.frame]; exact g.instrs, by rw [h.instrs, h.labels]; exact g.labels⟩⟩

theorem Chosen.laid {d : ValueId} {s : Slot} (hc : Ctx f L lo ts) (hb : blk ∈ f.blocks) (hl : Laid f L lo b.layout) (hs : home L ts blk d = some s) (h : Chosen b b₁ d s) :
    Laid f L lo b₁.layout := by
  obtain ⟨q1, q2, -⟩ := (homes hc hb).range d s hs
  have q3 := (homes hc hb).sized d s hs
  have hf := hl.frame
  have hvals := h.values
  refine ⟨fun v t ht => ?_, fun v t ht => ?_, fun v t ht => ?_, fun v hn => ?_, by rw [h.frame]; exact hf,
    by rw [h.retSlots]; exact hl.retSlots⟩
  · rw [hvals] at ht
    rw [h.frame]
    by_cases hv : v = d
    · subst hv
      simp only [Function.update_self, Option.some.injEq] at ht
      subst ht
      exact ⟨q1, by omega⟩
    · rw [Function.update_of_ne hv] at ht
      exact hl.range v t ht
  · rw [hvals] at ht
    by_cases hv : v = d
    · subst hv
      simp only [Function.update_self, Option.some.injEq] at ht
      subst ht
      exact q3
    · rw [Function.update_of_ne hv] at ht
      exact hl.sized v t ht
  · rw [hvals]
    by_cases hv : v = d
    · subst hv
      exact ⟨s, by simp⟩
    · rw [Function.update_of_ne hv]
      exact hl.known v t ht
  · rw [hvals]
    by_cases hv : v = d
    · subst hv
      rw [home_unplaced (hn blk hb)] at hs
      simp [hs]
    · rw [Function.update_of_ne hv]
      exact hl.fixed v hn

/-- An instruction of a block, seen from outside. -/
theorem gen_step (hc : Ctx f L lo ts) (hb : blk ∈ f.blocks) {i : Instr} {next : Option Instr} (hi : i ∈ blk.instrs)
    (hnext : ∀ j, next = some j → j ∈ blk.instrs) (hl : Laid f L lo b.layout)
    (h : genInstr md f blk.term g b i next = .ok (g', b')) :
    g' = g ∧ Grows lo b b' ∧ Laid f L lo b'.layout := by
  obtain ⟨hit, hsim⟩ := hc.simple.instrs blk hb i hi
  have hlo : lo ≤ 0 := by have := hc.low; omega
  have hn : ∀ j, next = some j → InstrSimple f.types j := fun j hj => (hc.simple.instrs blk hb j (hnext j hj)).2
  have dest : ∀ {d : ValueId}, i.destinations = [d] → g' = g ∧ Grows lo b b' ∧ Laid f L lo b'.layout := by
    intro d hd
    obtain ⟨e, b₁, s, h1, h2, h3⟩ := gen_dest hc hb hi hsim hn hd hl h
    have hl1 := h2.laid hc hb hl h1
    have em := emits_emit hit hsim hd (hl1.shape hc) h2.self hlo h3
    exact ⟨e, h2.grows.trans em.toGrows, hl1.emits em⟩
  cases i <;> try exact dest rfl
  all_goals simp only [InstrSimple] at hsim
  case Nop =>
    cases h
    exact ⟨rfl, Grows.refl, hl⟩
  case AssertEq l r =>
    simp only [genInstr, Bind.bind, Except.bind] at h
    split at h
    · cases h
    rename_i c hc'
    cases h
    have em := emits_assert hc' ((hl.shape hc).readable_op hsim.2.1 (by simp [MirType.memSize]))
      ((hl.shape hc).readable_op hsim.2.2 (by simp [MirType.memSize])) hlo
    exact ⟨rfl, em.toGrows, hl.emits em⟩

theorem gen_instrs (hc : Ctx f L lo ts) (hb : blk ∈ f.blocks) : ∀ {is : List Instr} {g g' : Gen} {b b' : Builder},
    (∀ i ∈ is, i ∈ blk.instrs) → Laid f L lo b.layout → genInstrs md f blk.term is g b = .ok (g', b') →
    g' = g ∧ Grows lo b b' ∧ Laid f L lo b'.layout
  | [], g, g', b, b', _, hl, h => by
    cases h
    exact ⟨rfl, Grows.refl, hl⟩
  | i :: is, g, g', b, b', hsub, hl, h => by
    simp only [genInstrs] at h
    split at h
    · cases h
    · rename_i g1 b1 h1
      obtain ⟨e1, gr1, l1⟩ := gen_step hc hb (hsub i (by simp)) (fun j hj => hsub j (by
        simp only [List.mem_cons]; exact .inr (List.mem_of_head? hj))) hl h1
      obtain ⟨e2, gr2, l2⟩ := gen_instrs hc hb (fun j hj => hsub j (by simp [hj])) l1 h
      exact ⟨e2.trans e1, gr1.trans gr2, l2⟩

/-! ### Execution of the instructions of a block -/

theorem run_step (hc : Ctx f L lo ts) (hb : blk ∈ f.blocks) (w : Window fp lo hi) {i : Instr} {next : Option Instr}
    (hmem : i ∈ blk.instrs) (hnext : ∀ j, next = some j → j ∈ blk.instrs) (hl : Laid f L lo b.layout)
    (h : genInstr md f blk.term g b i next = .ok (g', b')) (hty : EnvTyped f.types env)
    (hag : Agrees b.layout (home L ts blk) fp env m) (hev : evalInstr calls i env = some env')
    (hhi : (b'.layout.frame : ℤ) ≤ hi) (hfit : Fits code tgt b') :
    EnvTyped f.types env' ∧ (∀ v, env' v ≠ none → env v ≠ none ∨ v ∈ i.destinations) ∧
    ∃ m', Runs code tgt fp (b.instrs.length, m) (b'.instrs.length, m') ∧
      Agrees b'.layout (home L ts blk) fp env' m' ∧ SameExcept fp (Body lo hi) m m' := by
  obtain ⟨hit, hsim⟩ := hc.simple.instrs blk hb i hmem
  have hlo : lo ≤ 0 := by have := hc.low; omega
  have hn : ∀ j, next = some j → InstrSimple f.types j := fun j hj => (hc.simple.instrs blk hb j (hnext j hj)).2
  have hH := homes hc hb
  have dest : ∀ {d : ValueId}, i.destinations = [d] → EnvTyped f.types env' ∧
      (∀ v, env' v ≠ none → env v ≠ none ∨ v ∈ i.destinations) ∧
      ∃ m', Runs code tgt fp (b.instrs.length, m) (b'.instrs.length, m') ∧
        Agrees b'.layout (home L ts blk) fp env' m' ∧ SameExcept fp (Body lo hi) m m' := by
    intro d hd
    obtain ⟨e, b₁, s, h1, h2, h3⟩ := gen_dest hc hb hmem hsim hn hd hl h
    have hF : (L.frame : ℤ) ≤ b₁.layout.frame := by rw [h2.frame]; exact_mod_cast hl.frame
    obtain ⟨x, e1, e2, e3, e4⟩ := run_emit w hH hty hit hsim hd hF (h2.agrees hag h1) h1 h3 hev hhi hfit
    obtain ⟨m', r1, r2, r3⟩ := e4.agrees e3 (h2.agrees hag h1) hH hty w hF hhi h1 h2.self e2
    subst e1
    obtain ⟨q1, -, -⟩ := hH.range d s h1
    refine ⟨hty.update e2, fun v hv => ?_, m', by rw [← h2.instrs]; exact r1, r2,
      r3.mono fun o ho => ⟨by have := ho.1; omega, ho.2⟩⟩
    by_cases hvd : v = d
    · subst hvd; right; rw [hd]; simp
    · rw [Function.update_of_ne hvd] at hv; exact .inl hv
  cases i <;> try exact dest rfl
  all_goals simp only [InstrSimple] at hsim
  case Nop =>
    cases h
    simp only [evalInstr, Option.some.injEq] at hev
    subst hev
    exact ⟨hty, fun v hv => .inl hv, m, Runs.refl, hag, SameExcept.refl⟩
  case AssertEq l r =>
    simp only [genInstr, Bind.bind, Except.bind] at h
    split at h
    · cases h
    rename_i c hc'
    cases h
    obtain ⟨rfl, e2, m', r1, r2⟩ := run_assert w hsim.1 hag hc' hev hhi hfit hlo
    have hF : (L.frame : ℤ) ≤ b.layout.frame := by exact_mod_cast hl.frame
    have hfr := e2.frame
    refine ⟨hty, fun v hv => .inl hv, m', r1, hag.above hH hty w e2.values hF (by omega) hhi r2, r2.mono fun o ho => ?_⟩
    unfold Body
    omega

theorem run_instrs (hc : Ctx f L lo ts) (hb : blk ∈ f.blocks) (w : Window fp lo hi) :
    ∀ {is : List Instr} {g g' : Gen} {b b' : Builder} {m : Isa.Mem} {env env' : Env},
    (∀ i ∈ is, i ∈ blk.instrs) → Laid f L lo b.layout → genInstrs md f blk.term is g b = .ok (g', b') →
    EnvTyped f.types env → Agrees b.layout (home L ts blk) fp env m → evalInstrs calls is env = some env' →
    (b'.layout.frame : ℤ) ≤ hi → Fits code tgt b' →
    EnvTyped f.types env' ∧ (∀ v, env' v ≠ none → env v ≠ none ∨ ∃ i ∈ is, v ∈ i.destinations) ∧
    ∃ m', Runs code tgt fp (b.instrs.length, m) (b'.instrs.length, m') ∧
      Agrees b'.layout (home L ts blk) fp env' m' ∧ SameExcept fp (Body lo hi) m m'
  | [], g, g', b, b', m, env, env', _, hl, h, hty, hag, hev, hhi, hfit => by
    cases h
    simp only [evalInstrs, Option.some.injEq] at hev
    subst hev
    exact ⟨hty, fun v hv => .inl hv, m, Runs.refl, hag, SameExcept.refl⟩
  | i :: is, g, g', b, b', m, env, env', hsub, hl, h, hty, hag, hev, hhi, hfit => by
    simp only [genInstrs] at h
    simp only [evalInstrs, Option.bind_eq_bind, Option.bind_eq_some_iff] at hev
    obtain ⟨env1, ev1, ev2⟩ := hev
    split at h
    · cases h
    · rename_i g1 b1 h1
      have hnx : ∀ j, is.head? = some j → j ∈ blk.instrs := fun j hj => hsub j (by
        simp only [List.mem_cons]; exact .inr (List.mem_of_head? hj))
      obtain ⟨e1, gr1, l1⟩ := gen_step hc hb (hsub i (by simp)) hnx hl h1
      obtain ⟨e2, gr2, l2⟩ := gen_instrs hc hb (fun j hj => hsub j (by simp [hj])) l1 h
      have hfr' : (b1.layout.frame : ℤ) ≤ hi := le_trans (by exact_mod_cast gr2.frame) hhi
      obtain ⟨t1, d1, m1, r1, a1, s1⟩ := run_step hc hb w (hsub i (by simp)) hnx hl h1 hty hag ev1 hfr' (gr2.fits hfit)
      obtain ⟨t2, d2, m2, r2, a2, s2⟩ := run_instrs hc hb w (fun j hj => hsub j (by simp [hj])) l1 h t1 a1 ev2 hhi hfit
      refine ⟨t2, fun v hv => ?_, m2, r1.trans r2, a2, s1.trans s2⟩
      rcases d2 v hv with hv | ⟨j, hj, hvj⟩
      · rcases d1 v hv with hv | hv
        · exact .inl hv
        · exact .inr ⟨i, by simp, hv⟩
      · exact .inr ⟨j, by simp [hj], hvj⟩

end Codegen
end CairoM
