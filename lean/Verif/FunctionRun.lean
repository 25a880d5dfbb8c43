import Verif.FunctionReturn

/-!
# Helper lemmas: from blocks to functions
-/

namespace CairoM
namespace Codegen

open Mir Lang Relation

variable {code : List IB} {tgt : Name → Option ℕ} {fp : M31} {m : Isa.Mem} {b b' : Builder} {lo hi : ℤ}
  {env env' : Env} {f : Function} {L : Layout} {ts : List MirType} {blk : Block} {md : Module} {calls : Calls}
  {types : ValueId → Option MirType}

/-! ### The frame -/

theorem returnTypes_of_size : ∀ {rs : List ValueId} {k : ℕ}, Layout.sizeOfAll f.types rs = .ok k →
    ∃ ts, returnTypes f rs = .ok ts ∧ Builder.sizeSum ts = k
  | [], k, h => by
    simp only [Layout.sizeOfAll, Except.ok.injEq] at h
    exact ⟨[], rfl, h⟩
  | v :: vs, k, h => by
    simp only [Layout.sizeOfAll] at h
    cases hv : f.types v with
    | none => rw [hv] at h; cases h
    | some t =>
      rw [hv] at h
      cases hk : Layout.sizeOfAll f.types vs with
      | error e => simp only [hk] at h; cases h
      | ok n =>
        simp only [hk, Except.ok.injEq] at h
        obtain ⟨us, h1, h2⟩ := returnTypes_of_size hk
        exact ⟨t :: us, by simp only [returnTypes, hv, h1], by rw [sizeSum_cons, h2, h]⟩

theorem allocLocals_keep {types : ValueId → Option MirType} : ∀ {vs : List ValueId} {cur n : ℕ} {l l' : Layout},
    Layout.allocLocals types vs cur l = .ok (n, l') → ∀ v s, l.values v = some s → l'.values v = some s
  | [], cur, n, l, l', h, v, s, hs => by
    simp only [Layout.allocLocals, Except.ok.injEq, Prod.mk.injEq] at h
    obtain ⟨-, rfl⟩ := h
    exact hs
  | w :: vs, cur, n, l, l', h, v, s, hs => by
    simp only [Layout.allocLocals] at h
    split_ifs at h with hw
    · exact allocLocals_keep h v s hs
    · cases ht : types w with
      | none => rw [ht] at h; cases h
      | some t =>
        rw [ht] at h
        refine allocLocals_keep h v s ?_
        by_cases hv : v = w
        · subst hv; simp [hs] at hw
        · rw [insert_ne _ _ hv]; exact hs

theorem allocLocals_new {types : ValueId → Option MirType} : ∀ {vs : List ValueId} {cur n : ℕ} {l l' : Layout},
    Layout.allocLocals types vs cur l = .ok (n, l') → ∀ v s, l.values v = none → l'.values v = some s → 0 ≤ s.off
  | [], cur, n, l, l', h, v, s, hn, hs => by
    simp only [Layout.allocLocals, Except.ok.injEq, Prod.mk.injEq] at h
    obtain ⟨-, rfl⟩ := h
    rw [hn] at hs; cases hs
  | w :: vs, cur, n, l, l', h, v, s, hn, hs => by
    simp only [Layout.allocLocals] at h
    split_ifs at h with hw
    · exact allocLocals_new h v s hn hs
    · cases ht : types w with
      | none => rw [ht] at h; cases h
      | some t =>
        rw [ht] at h
        by_cases hv : v = w
        · subst hv
          have := allocLocals_keep h v _ (insert_same _ _ _)
          rw [this] at hs
          injection hs with hs
          subst hs
          rw [slot_of_off]
          omega
        · exact allocLocals_new h v s (by rw [insert_ne _ _ hv]; exact hn) hs

/-- Arguments stored one after the other are in the slots of the parameters. -/
theorem params_held : ∀ {vs : List ValueId} {args : List Val} {off : ℤ} {l l' : Layout} {env env' : Env},
    Layout.allocParams types vs off l = .ok l' → List.Forall₂ (fun y v => ValTy y (types v)) args vs →
    HoldsAll m fp off args → Lang.bind env vs args = some env' →
    (∀ v x, env v = some x → ∃ s, l.values v = some s ∧ Holds m fp s.off x) →
    ∀ v x, env' v = some x → ∃ s, l'.values v = some s ∧ Holds m fp s.off x
  | [], _, off, l, l', env, env', h, .nil, _, hb, hi => by
    simp only [Layout.allocParams, Except.ok.injEq] at h
    subst h
    simp only [Lang.bind, Option.some.injEq] at hb
    subst hb
    exact hi
  | p :: ps, _, off, l, l', env, env', h, .cons (a := y) hy hys, hh, hb, hi => by
    obtain ⟨t, ty, e1, e2, e3⟩ := hy
    simp only [Layout.allocParams, e1] at h
    simp only [Lang.bind] at hb
    rw [memSize_scalar e2 e3] at h
    refine params_held h hys hh.2 hb ?_
    intro v x hx
    by_cases hv : v = p
    · subst hv
      simp only [Function.update_self, Option.some.injEq] at hx
      subst hx
      exact ⟨_, insert_same _ _ _, by rw [slot_of_off]; exact hh.1⟩
    · rw [Function.update_of_ne hv] at hx
      obtain ⟨s, h1, h2⟩ := hi v x hx
      exact ⟨s, by rw [insert_ne _ _ hv]; exact h1, h2⟩

theorem widths_cons (x : Val) (xs : List Val) : widths (x :: xs) = width x + widths xs := by simp [widths]

theorem params_width : ∀ {vs : List ValueId} {args : List Val}, List.Forall₂ (fun y v => ValTy y (types v)) args vs →
    Layout.sizeOfAll types vs = .ok (widths args)
  | [], _, .nil => rfl
  | p :: ps, _, .cons (a := y) hy hys => by
    obtain ⟨t, ty, e1, e2, e3⟩ := hy
    simp only [Layout.sizeOfAll, e1, params_width hys, Except.ok.injEq]
    rw [widths_cons, memSize_scalar e2 e3]

theorem bind_dom : ∀ {vs : List ValueId} {args : List Val} {env env' : Env}, Lang.bind env vs args = some env' →
    ∀ v, env' v ≠ none → env v ≠ none ∨ v ∈ vs
  | [], [], env, env', h, v, hv => by
    simp only [Lang.bind, Option.some.injEq] at h; subst h; exact .inl hv
  | [], _ :: _, env, env', h, v, hv => by simp [Lang.bind] at h
  | _ :: _, [], env, env', h, v, hv => by simp [Lang.bind] at h
  | p :: ps, y :: ys, env, env', h, v, hv => by
    simp only [Lang.bind] at h
    rcases bind_dom h v hv with hv | hv
    · by_cases e : v = p
      · exact .inr (by simp [e])
      · rw [Function.update_of_ne e] at hv; exact .inl hv
    · exact .inr (by simp [hv])

/-- What the frame layout of a function gives. -/
theorem base_of_layout (h : Layout.new f = .ok L) {args : List Val}
    (hargs : List.Forall₂ (fun y v => ValTy y (f.types v)) args f.params) :
    ∃ ts, Base f L (-(widths args : ℤ) - L.retSlots - 2) ts ∧ Laid f L (-(widths args : ℤ) - L.retSlots - 2) L ∧
      (∀ v s, L.values v = some s → v ∈ f.params ∧ s.off + s.size ≤ -2 - (L.retSlots : ℤ) ∨ v ∉ f.params ∧ 0 ≤ s.off) ∧
      ∀ env, Lang.bind (fun _ => none) f.params args = some env → HoldsAll m fp (-(widths args : ℤ) - L.retSlots - 2) args →
        ∀ v x, env v = some x → ∃ s, L.values v = some s ∧ Holds m fp s.off x := by
  obtain ⟨c1, c2, c3, c4⟩ := C54_layout f L h
  obtain ⟨ts, hts, hsum⟩ := returnTypes_of_size c4
  have hw := params_width hargs
  unfold Layout.new at h
  rw [hw, c4] at h
  simp only [Bind.bind, Except.bind] at h
  cases hp : Layout.allocParams f.types f.params (-(widths args : ℤ) - L.retSlots - 2) ⟨fun _ => none, 0, L.retSlots⟩ with
  | error e => simp only [hp] at h; cases h
  | ok l1 =>
    cases hl : Layout.allocLocals f.types (Layout.locals f) 0 l1 with
    | error e => simp only [hp, hl] at h; cases h
    | ok r =>
      obtain ⟨cur, l2⟩ := r
      simp only [hp, hl, pure, Except.pure, Except.ok.injEq] at h
      have p0 : Packed ⟨fun _ => none, 0, L.retSlots⟩ f.types
          (fun o j => -(widths args : ℤ) - L.retSlots - 2 ≤ o ∧ o + j ≤ -(widths args : ℤ) - L.retSlots - 2) :=
        ⟨fun v s hv => by simp at hv, fun v w s t _ hv => by simp at hv, fun v s hv => by simp at hv⟩
      obtain ⟨p1, -, r1, s1⟩ := allocParams_packed (hi := -(L.retSlots : ℤ) - 2) hw (by omega) le_rfl p0 hp
      have p1' : Packed l1 f.types (fun o j => (-(widths args : ℤ) - L.retSlots - 2 ≤ o ∧ o + j ≤ -(L.retSlots : ℤ) - 2) ∨
          (0 ≤ o ∧ o + j ≤ ((0 : ℕ) : ℤ))) := ⟨fun v s hv => .inl (p1.range v s hv), p1.apart, p1.sized⟩
      obtain ⟨p2, r2, s2⟩ := allocLocals_packed (by omega) p1' hl
      have hvals : L.values = l2.values := by rw [← h]
      have hrange : ∀ v s, L.values v = some s → -(widths args : ℤ) - L.retSlots - 2 ≤ s.off ∧ s.off + s.size ≤ L.frame := by
        intro v s hv
        refine ⟨?_, (c3 v s hv).2⟩
        rw [hvals] at hv
        rcases p2.range v s hv with h | h
        · exact h.1
        · omega
      have hsized : ∀ v s, L.values v = some s → ∃ t, f.types v = some t ∧ s.size = t.memSize := by
        intro v s hv
        rw [hvals] at hv
        exact p2.sized v s hv
      refine ⟨ts, ⟨hts, hsum, by omega, hrange, c2, fun v s hv => (c3 v s hv).1, hsized, fun v hv => ?_⟩,
        ⟨hrange, hsized, fun v s hv => ⟨s, hv⟩, fun v _ => rfl, le_rfl, rfl⟩, fun v s hv => ?_, ?_⟩
      · obtain ⟨s, -, h1, -⟩ := c1 v hv
        exact ⟨s, h1⟩
      · rw [hvals] at hv
        by_cases hp' : v ∈ f.params
        · left
          have h1 := (s1 v).mp (.inr hp')
          obtain ⟨s', hs'⟩ := Option.isSome_iff_exists.mp h1
          rw [allocLocals_keep hl v s' hs'] at hv
          injection hv with hv
          subst hv
          have := (p1.range v s' hs').2
          exact ⟨hp', by omega⟩
        · right
          refine ⟨hp', allocLocals_new hl v s ?_ hv⟩
          cases hn : l1.values v with
          | none => rfl
          | some s' =>
            rcases (s1 v).mpr (by simp [hn]) with h | h
            · simp at h
            · exact absurd h hp'
      · intro env hb hh v x hx
        obtain ⟨s, h1, h2⟩ := params_held hp hargs hh hb (fun v x hx => by cases hx) v x hx
        exact ⟨s, by rw [hvals]; exact allocLocals_keep hl v s h1, h2⟩

theorem ctx_of_layout (hs : Simple f) (h : Layout.new f = .ok L) {args : List Val}
    (hargs : List.Forall₂ (fun y v => ValTy y (f.types v)) args f.params) :
    ∃ ts, Ctx f L (-(widths args : ℤ) - L.retSlots - 2) ts ∧ Laid f L (-(widths args : ℤ) - L.retSlots - 2) L ∧
      ∀ env, Lang.bind (fun _ => none) f.params args = some env → HoldsAll m fp (-(widths args : ℤ) - L.retSlots - 2) args →
        ∀ v x, env v = some x → ∃ s, L.values v = some s ∧ Holds m fp s.off x := by
  obtain ⟨ts, h1, h2, -, h3⟩ := base_of_layout (m := m) (fp := fp) h hargs
  exact ⟨ts, ⟨h1, hs⟩, h2, h3⟩

/-! ### Blocks -/

/-- Code of one block as part of the code of the function. -/
structure Placed (md : Module) (f : Function) (L : Layout) (lo : ℤ) (bF : Builder) (k : BlockId) (blk : Block)
    (b0 b1 b2 : Builder) (next : Option BlockId) : Prop where
  instrs : ∃ g g', genInstrs md f blk.term blk.instrs g (b0.addLabel (blockLabel f.name k)) = .ok (g', b1)
  term : genTerm f b1 blk.term next = .ok b2
  laid : Laid f L lo b0.layout
  grows : Grows lo b2 bF
  next : ∀ t, next = some t → ⟨blockLabel f.name t, b2.instrs.length⟩ ∈ bF.labels

theorem gen_blocks (hc : Ctx f L lo ts) : ∀ {bs : List Block} {i : BlockId} {g g' : Gen} {b bF : Builder},
    (∀ blk ∈ bs, blk ∈ f.blocks) → Laid f L lo b.layout → genBlocks md f bs i g b = .ok (g', bF) →
    g' = g ∧ Grows lo b bF ∧ Laid f L lo bF.layout ∧
      (∀ k blk, bs[k]? = some blk → ∃ b0 b1 b2 next, Placed md f L lo bF (i + k) blk b0 b1 b2 next ∧ (k = 0 → b0 = b)) ∧
      (bs ≠ [] → ⟨blockLabel f.name i, b.instrs.length⟩ ∈ bF.labels)
  | [], i, g, g', b, bF, _, hl, h => by
    simp only [genBlocks, Except.ok.injEq, Prod.mk.injEq] at h
    obtain ⟨rfl, rfl⟩ := h
    exact ⟨rfl, Grows.refl, hl, fun k blk hk => by simp at hk, fun h => absurd rfl h⟩
  | blk :: bs, i, g, g', b, bF, hsub, hl, h => by
    simp only [genBlocks] at h
    split at h
    · cases h
    · rename_i g1 b1 h1
      split at h
      · cases h
      · rename_i b2 h2
        have e0 : Emits lo b (b.addLabel (blockLabel f.name i)) := emits_addLabel
        have hblk := hsub blk (by simp)
        obtain ⟨rfl, gr1, l1⟩ := gen_instrs hc hblk (fun _ h => h) (hl.emits e0) h1
        have em := emits_term hc.sig (hc.simple.terms blk hblk) (l1.shape hc) h2
        have l2 := l1.emits em
        obtain ⟨rfl, gr2, l3, hall, hfirst⟩ := gen_blocks hc (fun x hx => hsub x (by simp [hx])) l2 h
        have grow := (e0.toGrows.trans gr1).trans (em.toGrows.trans gr2)
        refine ⟨rfl, grow, l3, fun k x hk => ?_, fun _ => ?_⟩
        · cases k with
          | zero =>
            simp only [List.getElem?_cons_zero, Option.some.injEq] at hk
            subst hk
            refine ⟨b, b1, b2, _, ⟨⟨_, _, h1⟩, h2, hl, gr2, fun t ht => ?_⟩, fun _ => rfl⟩
            split_ifs at ht with he
            injection ht with ht
            rw [← ht]
            exact hfirst (by simpa using he)
          | succ k =>
            simp only [List.getElem?_cons_succ] at hk
            obtain ⟨c0, c1, c2, nx, hp, -⟩ := hall k x hk
            refine ⟨c0, c1, c2, nx, ?_, by simp⟩
            rw [(show ∀ a c : ℕ, a + (c + 1) = a + 1 + c by intros; omega) i k]
            exact hp
        · refine (gr1.trans (em.toGrows.trans gr2)).labels.subset ?_
          simp [Builder.addLabel]

/-- What holds when control enters a block: every defined value is in its slot of the frame layout and no block
computes it in a return slot. -/
def Entry (f : Function) (L : Layout) (fp : M31) (env : Env) (m : Isa.Mem) : Prop :=
  ∀ v x, env v = some x → (∃ s, L.values v = some s ∧ Holds m fp s.off x) ∧ ∀ blk ∈ f.blocks, places blk v = false

theorem Entry.agrees (h : Entry f L fp env m) (hb : blk ∈ f.blocks) (hl : Laid f L lo b.layout) :
    Agrees b.layout (home L ts blk) fp env m := by
  intro v x hv
  obtain ⟨⟨s, h1, h2⟩, h3⟩ := h v x hv
  exact ⟨s, by rw [home_unplaced (h3 blk hb)]; exact h1, by rw [hl.fixed v h3]; exact h1, h2⟩

theorem evalPhis_simple {pred : Option BlockId} {is : List Instr} (h : ∀ i ∈ is, InstrSimple types i) :
    evalPhis env pred is env' = some (env', is) := by
  cases is with
  | nil => rfl
  | cons i is =>
    have := h i (by simp)
    cases i <;> first | rfl | exact this.elim

theorem not_returns {t : BlockId} {rs : List (Option MirType)} {term : Terminator}
    (h : evalTerm rs env term = some (.goto t)) (v : ValueId) : ¬ Returns term v := by
  cases term <;> simp only [Returns, not_false_eq_true]
  simp [evalTerm] at h

theorem retHomes (hc : Ctx f L lo ts) (hb : blk ∈ f.blocks) {vs : List Value} (ht : blk.term = .Return vs) :
    RetHomes vs ts (home L ts blk) := by
  intro v s hs
  by_cases hp : places blk v = true
  · obtain ⟨t, k1, k2, k3, -⟩ := home_placed hc hb hp hs
    obtain ⟨vs', -, e1, e2, -⟩ := firstIdx_spec hc.sig (hc.simple.terms blk hb) (places_spec hp).2
    rw [ht] at e1; cases e1
    exact .inr ⟨_, t, e2, k3, k1, k2⟩
  · rw [home_unplaced (by simpa using hp)] at hs
    rw [hc.ret]
    exact .inl (hc.clear v s hs)

/-- Execution of the blocks. -/
theorem run_blocks (hc : Ctx f L lo ts) (w : Window fp lo hi) {bF : Builder}
    (hall : ∀ k blk, f.blocks[k]? = some blk → ∃ b0 b1 b2 next, Placed md f L lo bF k blk b0 b1 b2 next)
    (hhi : (bF.layout.frame : ℤ) ≤ hi) (hfit : Fits code tgt bF) {vs : List Val} :
    ∀ {n : ℕ} {pred : Option BlockId} {k : BlockId} {env : Env} {m : Isa.Mem} {p : ℕ},
    EnvTyped f.types env → Entry f L fp env m → tgt (blockLabel f.name k) = some p →
    exec calls f n pred k env = .returned vs →
    ∃ i m', Runs code tgt fp (p, m) (i, m') ∧ code[i]? = some ⟨.Ret, none⟩ ∧
      HoldsAll m' fp (-((L.retSlots : ℤ) + 2)) vs ∧ SameExcept fp (Body lo hi) m m'
  | 0, pred, k, env, m, p, _, _, _, h => by cases h
  | n + 1, pred, k, env, m, p, hty, hen, hp, h => by
    simp only [exec] at h
    cases hk : f.blocks[k]? with
    | none => rw [hk] at h; cases h
    | some blk =>
      rw [hk] at h
      simp only at h
      obtain ⟨b0, b1, b2, next, pl⟩ := hall k blk hk
      have hblk : blk ∈ f.blocks := List.mem_of_getElem? hk
      have hlo : lo ≤ 0 := by have := hc.low; omega
      have e0 : Emits lo b0 (b0.addLabel (blockLabel f.name k)) := emits_addLabel
      have l0 := pl.laid.emits e0
      obtain ⟨g, g', hgen⟩ := pl.instrs
      obtain ⟨rfl, gr1, l1⟩ := gen_instrs hc hblk (fun _ h => h) l0 hgen
      have em := emits_term hc.sig (hc.simple.terms blk hblk) (l1.shape hc) pl.term
      have fit2 := pl.grows.fits hfit
      have fit1 := em.toGrows.fits fit2
      have fit0 := gr1.fits fit1
      have hi2 : (b2.layout.frame : ℤ) ≤ hi := le_trans (by exact_mod_cast pl.grows.frame) hhi
      have hi1 : (b1.layout.frame : ℤ) ≤ hi := le_trans (by exact_mod_cast em.frame) hi2
      have hpk := fits_addLabel fit0
      rw [hp] at hpk
      injection hpk with hpk
      subst hpk
      have hag := hen.agrees (ts := ts) hblk l0
      cases hev : evalBlock calls (returnTys f) blk pred env with
      | none => rw [hev] at h; cases h
      | some r =>
        obtain ⟨ex, env2⟩ := r
        rw [hev] at h
        unfold evalBlock at hev
        rw [evalPhis_simple (types := f.types) fun i hi => (hc.simple.instrs blk hblk i hi).2] at hev
        simp only [Option.bind_eq_bind, Option.bind_some, Option.bind_eq_some_iff, Option.some.injEq,
          Prod.mk.injEq] at hev
        obtain ⟨env1, ev1, ex', ev2, rfl, rfl⟩ := hev
        obtain ⟨ty1, dom1, m1, r1, a1, s1⟩ := run_instrs hc hblk w (fun _ h => h) l0 hgen hty hag ev1 hi1 fit1
        cases ex' with
        | ret xs =>
          simp only [Result.returned.injEq] at h
          subst h
          obtain ⟨i, m2, q1, q2, q3, q4⟩ := run_return hc.sig (hc.simple.terms blk hblk) (homes hc hblk)
            (by exact_mod_cast l1.frame) (fun vs e => retHomes hc hblk e) w (l1.shape hc) pl.term ty1 a1 ev2 hi2 fit2
          rw [hc.ret] at q3 q4
          have hlow := hc.low
          have hhi0 : 0 ≤ hi := le_trans (by positivity) hhi
          exact ⟨i, m2, r1.trans q1, q2, q3, s1.trans (q4.mono fun o ho => ⟨by omega, by omega, by omega, by omega⟩)⟩
        | goto t =>
          simp only at h
          have hkt : ∃ blk', f.blocks[t]? = some blk' := by
            cases n with
            | zero => cases h
            | succ n =>
              simp only [exec] at h
              cases ht : f.blocks[t]? with
              | none => rw [ht] at h; cases h
              | some x => exact ⟨x, rfl⟩
          obtain ⟨blk', hk'⟩ := hkt
          obtain ⟨c0, c1, c2, nx, pl'⟩ := hall t blk' hk'
          obtain ⟨q, hq⟩ : ∃ q, tgt (blockLabel f.name t) = some q := by
            obtain ⟨g2, g2', hgen'⟩ := pl'.instrs
            have hblk' : blk' ∈ f.blocks := List.mem_of_getElem? hk'
            have l0' := pl'.laid.emits (emits_addLabel (n := blockLabel f.name t))
            obtain ⟨-, gr1', l1'⟩ := gen_instrs hc hblk' (fun _ h => h) l0' hgen'
            have em' := emits_term hc.sig (hc.simple.terms blk' hblk') (l1'.shape hc) pl'.term
            exact ⟨_, fits_addLabel (gr1'.fits (em'.toGrows.fits (pl'.grows.fits hfit)))⟩
          obtain ⟨m2, r2, s2⟩ := run_goto hc.sig (hc.simple.terms blk hblk) (homes hc hblk)
            (by exact_mod_cast l1.frame) w (l1.shape hc) pl.term ty1 a1 ev2 hi2 fit2
            (fun t' ht' => hfit.labels _ (pl.next t' ht')) hq
          have hfr1 : (L.frame : ℤ) ≤ b1.layout.frame := by exact_mod_cast l1.frame
          have a2 : Agrees b1.layout (home L ts blk) fp env1 m2 :=
            a1.above (homes hc hblk) ty1 w rfl hfr1 (le_trans hfr1 hi1) hi2 s2
          have hen2 : Entry f L fp env1 m2 := by
            intro v x hv
            have hpl : ∀ blk' ∈ f.blocks, places blk' v = false := by
              intro blk' hb'
              rcases dom1 v (by rw [hv]; simp) with hd | ⟨i, hi, hd⟩
              · cases hev : env v with
                | none => exact absurd hev hd
                | some y => exact (hen v y hev).2 blk' hb'
              · by_contra hcon
                obtain ⟨⟨i', hi', -, hd'⟩, hr'⟩ := places_spec (blk := blk') (v := v) (by simpa using hcon)
                have hone := (hc.simple.once blk' hb' i' hi' v (by rw [hd']; simp) hr').1
                obtain ⟨rfl, -⟩ := assigned_unique hone hb' hblk hi' hi (by rw [hd']; simp) hd
                exact not_returns ev2 v hr'
            obtain ⟨s, k1, -, k3⟩ := a2 v x hv
            rw [home_unplaced (hpl blk hblk)] at k1
            exact ⟨⟨s, k1, k3⟩, hpl⟩
          obtain ⟨i, m3, q1, q2, q3, q4⟩ := run_blocks hc w hall hhi hfit ty1 hen2 hq h
          refine ⟨i, m3, (r1.trans r2).trans q1, q2, q3, (s1.trans (s2.mono fun o ho => ?_)).trans q4⟩
          exact ⟨by omega, by omega, by omega, by omega⟩

end Codegen
end CairoM
