import Verif.ProgramArgs
import Verif.MirSim

/-!
# Helper lemmas: execution of the instructions of a block with calls
-/

namespace CairoM
namespace Codegen

open Mir Lang Relation

variable {code : List IB} {tgt : Name → Option ℕ} {fp : M31} {m m' : Isa.Mem} {b b' b₁ : Builder} {lo hi fr : ℤ}
  {f : Function} {L l : Layout} {ts : List MirType} {e e' : Env} {blk : Block} {md : Module} {g g' : Gen} {i : Instr}
  {next : Option Instr} {d : ValueId} {live : BlockId → ValueId → Prop} {k : BlockId} {calls : Calls} {C : CallRel}
  {Q : ℕ → Isa.Mem → Prop}

/-! ### Uniqueness of moved values -/

theorem count_flatMap_mem {α β : Type} [DecidableEq β] {g : α → List β} {x : α} {d : β} : ∀ {l : List α}, x ∈ l → d ∈ g x →
    1 ≤ (l.flatMap g).count d := by
  intro l hx hd
  exact List.one_le_count_iff.mpr (List.mem_flatMap.mpr ⟨x, hx, hd⟩)

/-- A value assigned once is assigned in one block only. -/
theorem block_unique {j : BlockId} {bj : Block} {i' : Instr} (h : (Layout.locals f).count d = 1)
    (hk : f.blocks[k]? = some blk) (hj : f.blocks[j]? = some bj) (hi : i ∈ blk.instrs) (hi' : i' ∈ bj.instrs)
    (hd : d ∈ i.destinations) (hd' : d ∈ i'.destinations) : j = k := by
  have key : ∀ (a c : ℕ) (ba bc : Block), a < c → f.blocks[a]? = some ba → f.blocks[c]? = some bc →
      (∃ i ∈ ba.instrs, d ∈ i.destinations) → (∃ i ∈ bc.instrs, d ∈ i.destinations) → False := by
    rintro a c ba bc hlt ha hc ⟨x, hx, hdx⟩ ⟨y, hy, hdy⟩
    have hsplit : Layout.locals f = ((f.blocks.take c).flatMap fun b => b.instrs.flatMap Instr.destinations) ++
        ((f.blocks.drop c).flatMap fun b => b.instrs.flatMap Instr.destinations) := by
      rw [← List.flatMap_append, List.take_append_drop]; rfl
    rw [hsplit, List.count_append] at h
    have h1 : 1 ≤ ((f.blocks.take c).flatMap fun b => b.instrs.flatMap Instr.destinations).count d := by
      refine count_flatMap_mem (x := ba) ?_ (List.mem_flatMap.mpr ⟨x, hx, hdx⟩)
      exact List.mem_of_getElem? (i := a) (by rw [List.getElem?_take, if_pos hlt]; exact ha)
    have h2 : 1 ≤ ((f.blocks.drop c).flatMap fun b => b.instrs.flatMap Instr.destinations).count d := by
      refine count_flatMap_mem (x := bc) ?_ (List.mem_flatMap.mpr ⟨y, hy, hdy⟩)
      exact List.mem_of_getElem? (i := 0) (by rw [List.getElem?_drop]; exact hc)
    omega
  rcases Nat.lt_trichotomy j k with hlt | heq | hgt
  · exact (key j k bj blk hlt hj hk ⟨i', hi', hd'⟩ ⟨i, hi, hd⟩).elim
  · exact heq
  · exact (key k j blk bj hgt hk hj ⟨i, hi, hd⟩ ⟨i', hi', hd'⟩).elim

/-- A value assigned once is not assigned earlier in the block. -/
theorem prefix_unique {pre post : List Instr} (h : (Layout.locals f).count d = 1) (hb : blk ∈ f.blocks)
    (hsplit : blk.instrs = pre ++ i :: post) (hd : d ∈ i.destinations) : ∀ j ∈ pre, d ∉ j.destinations := by
  intro j hj hdj
  obtain ⟨as, bs, hbs⟩ := List.append_of_mem hb
  have : Layout.locals f = as.flatMap (fun b => b.instrs.flatMap Instr.destinations) ++
      ((pre.flatMap Instr.destinations ++ (i.destinations ++ post.flatMap Instr.destinations)) ++
        bs.flatMap (fun b => b.instrs.flatMap Instr.destinations)) := by
    simp only [Layout.locals, hbs, List.flatMap_append, List.flatMap_cons, hsplit]
  rw [this] at h
  simp only [List.count_append] at h
  have h1 : 1 ≤ (pre.flatMap Instr.destinations).count d := count_flatMap_mem hj hdj
  have h2 : 1 ≤ i.destinations.count d := List.one_le_count_iff.mpr hd
  omega

/-- The values known in a block before the instructions after `pre`. -/
def Seen (live : BlockId → ValueId → Prop) (k : BlockId) (pre : List Instr) (v : ValueId) : Prop :=
  live k v ∨ ∃ i ∈ pre, v ∈ i.destinations

theorem moved_new {pre post : List Instr} (hs : Calling f live) (hk : f.blocks[k]? = some blk)
    (hsplit : blk.instrs = pre ++ i :: post) (hm : Moves blk.term i post.head? d) : ¬ Seen live k pre d := by
  have hb := List.mem_of_getElem? hk
  have hmi : MovedIn blk d := ⟨pre, i, post, hsplit, hm⟩
  rintro (h | ⟨j, hj, hd⟩)
  · exact absurd (hs.ordered.order k blk hk d hmi k h).1 (lt_irrefl _)
  · exact prefix_unique (hs.ordered.once blk hb d hmi) hb hsplit hm.1 j hj hd

theorem MovedIn.dest (h : MovedIn blk d) : ∃ i ∈ blk.instrs, d ∈ i.destinations := by
  obtain ⟨pre, i, post, h1, h2⟩ := h
  exact ⟨i, by rw [h1]; simp, h2.1⟩

/-! ### The slots of the values seen in a block are disjoint -/

open Classical in
/-- The slots of the values seen in a block. -/
noncomputable def homeC (live : BlockId → ValueId → Prop) (k : BlockId) (blk : Block) (l : Layout) (v : ValueId) :
    Option Slot := if Seen live k blk.instrs v then l.values v else none

theorem homeC_spec {v : ValueId} {s : Slot} (h : homeC live k blk l v = some s) :
    Seen live k blk.instrs v ∧ l.values v = some s := by
  unfold homeC at h
  split_ifs at h with hc
  exact ⟨hc, h⟩

theorem homeC_eq {v : ValueId} (h : Seen live k blk.instrs v) : homeC live k blk l v = l.values v := by
  unfold homeC
  rw [if_pos h]

/-- A value of the block in a return slot is in the return slot of the block itself. -/
theorem zone_ret {bj : Block} {v : ValueId} (hs : Calling f live) (hk : f.blocks[k]? = some blk)
    (hv : Seen live k blk.instrs v) (hj : bj ∈ f.blocks) (hm : MovedIn bj v) (hr : Returns bj.term v) : bj = blk := by
  have hb := List.mem_of_getElem? hk
  obtain ⟨j, hj'⟩ := List.mem_iff_getElem?.mp hj
  rcases hv with hv | ⟨i, hi, hd⟩
  · exact absurd hr (hs.ordered.order j bj hj' v hm k hv).2
  · obtain ⟨i', hi', hd'⟩ := hm.dest
    exact (assigned_unique (hs.ordered.once bj hj v hm) hj hb hi' hi hd' hd).1

theorem homes_calls (hc : Base f L lo ts) (hs : Calling f live) (hk : f.blocks[k]? = some blk)
    (hsp : Spread f L lo ts l) : Homes f.types lo l.frame (homeC live k blk l) := by
  have hb := List.mem_of_getElem? hk
  have ht := hs.terms blk hb
  refine ⟨fun v s h => ?_, fun v w s t hne hv hw => ?_, fun v s h => hsp.shape.sized v s (homeC_spec h).2⟩
  · obtain ⟨hv, h⟩ := homeC_spec h
    obtain ⟨r1, r2⟩ := hsp.shape.range v s h
    refine ⟨r1, r2, ?_⟩
    unfold Apart
    rcases hsp.zone v s h with ⟨-, -, z⟩ | ⟨-, z⟩ | ⟨-, _, _, _, _, -, z⟩ <;> omega
  · obtain ⟨sv, hv⟩ := homeC_spec hv
    obtain ⟨sw, hw⟩ := homeC_spec hw
    have hret : ∀ {x : ValueId} {q : Slot} {bj : Block}, Seen live k blk.instrs x → l.values x = some q → bj ∈ f.blocks →
        MovedIn bj x → Returns bj.term x → q.off = retOff ts (firstIdx bj.term x) →
        Returns blk.term x ∧ q.off = retOff ts (firstIdx blk.term x) ∧
          ∃ t, ts[firstIdx blk.term x]? = some t ∧ q.size = t.memSize ∧ -2 - (Builder.sizeSum ts : ℤ) ≤ q.off ∧ q.off + q.size ≤ -2 := by
      intro x q bj hsx hq hbj hm hr ho
      have := zone_ret hs hk hsx hbj hm hr
      subst this
      obtain ⟨vs, t, e1, e2, e3, e4, e5, e6⟩ := firstIdx_spec hc.sig ht hr
      obtain ⟨t', q1, q2⟩ := hsp.shape.sized x q hq
      rw [e5] at q1; injection q1 with q1; subst q1
      have := retOff_range e4
      exact ⟨hr, ho, t, e4, q2, by omega, by omega⟩
    unfold Apart
    rcases hsp.zone v s hv with ⟨p1, z1, z1'⟩ | ⟨p1, z1⟩ | ⟨p1, bv, hbv, mv, rv, ov, z1⟩ <;>
      rcases hsp.zone w t hw with ⟨p2, z2, z2'⟩ | ⟨p2, z2⟩ | ⟨p2, bw, hbw, mw, rw', ow, z2⟩
    · exact hc.apart v w s t hne z1 z2
    · omega
    · obtain ⟨-, -, _, -, -, q1, q2⟩ := hret sw hw hbw mw rw' ow
      omega
    · omega
    · exact hsp.apart v w s t hne hv hw z1 z2
    · omega
    · obtain ⟨-, -, _, -, -, q1, q2⟩ := hret sv hv hbv mv rv ov
      omega
    · omega
    · obtain ⟨a1, a2, ta, a3, a4, -⟩ := hret sv hv hbv mv rv ov
      obtain ⟨c1, c2, tc, c3, c4, -⟩ := hret sw hw hbw mw rw' ow
      rcases Nat.lt_trichotomy (firstIdx blk.term v) (firstIdx blk.term w) with h | h | h
      · have := retOff_lt a3 h
        omega
      · exact absurd (firstIdx_inj hc.sig ht a1 c1 h) hne
      · have := retOff_lt c3 h
        omega

theorem retHomes_calls (hc : Base f L lo ts) (hs : Calling f live) (hk : f.blocks[k]? = some blk)
    (hsp : Spread f L lo ts l) {vs : List Value} (hvs : blk.term = .Return vs) : RetHomes vs ts (homeC live k blk l) := by
  have hb := List.mem_of_getElem? hk
  intro v s h
  obtain ⟨sv, hv⟩ := homeC_spec h
  rcases hsp.zone v s hv with ⟨-, -, z⟩ | ⟨-, z⟩ | ⟨-, bv, hbv, mv, rv, ov, z⟩
  · left; unfold Apart; omega
  · left; unfold Apart; push_cast; omega
  · right
    have := zone_ret hs hk sv hbv mv rv
    subst this
    obtain ⟨vs', t, e1, e2, e3, e4, e5, e6⟩ := firstIdx_spec hc.sig (hs.terms _ hb) rv
    rw [hvs] at e1; injection e1 with e1; subst e1
    obtain ⟨t', q1, q2⟩ := hsp.shape.sized v s hv
    rw [e5] at q1; injection q1 with q1; subst q1
    exact ⟨_, t, e2, e4, ov, q2⟩

theorem Stored.agrees {pre : List Instr} (h : Stored l fp e m) (hdom : ∀ v, e v ≠ none → Seen live k pre v)
    (hpre : ∀ i ∈ pre, i ∈ blk.instrs) : Agrees l (homeC live k blk l) fp e m := by
  intro v x hv
  obtain ⟨s, h1, h2⟩ := h v x hv
  have : Seen live k blk.instrs v := by
    rcases hdom v (by simp [hv]) with h | ⟨i, hi, hd⟩
    · exact .inl h
    · exact .inr ⟨i, hpre i hi, hd⟩
  exact ⟨s, by rw [homeC_eq this]; exact h1, h1, h2⟩

theorem Agrees.stored {H : ValueId → Option Slot} (h : Agrees l H fp e m) : Stored l fp e m := by
  intro v x hv
  obtain ⟨s, -, h1, h2⟩ := h v x hv
  exact ⟨s, h1, h2⟩

/-! ### Evaluation of one instruction -/

theorem readAll_typed {types : ValueId → Option MirType} (hty : EnvTyped types e) :
    ∀ {args : List Value} {us : List MirType} {xs : List Val}, List.Forall₂ (HasType types) args us →
    readAll e (us.map some) args = some xs → List.Forall₂ (fun y (t : MirType) => ValTy y (some t)) xs us
  | _, _, xs, .nil, h => by
    simp only [List.map_nil, readAll, Option.some.injEq] at h
    subst h; exact .nil
  | v :: vs, t :: us, xs, .cons hv hs, h => by
    simp only [List.map_cons, readAll, Option.bind_eq_bind, Option.bind_eq_some_iff, Option.bind_some,
      Option.some.injEq] at h
    obtain ⟨ty, hty', x, hx, xs', hxs, rfl⟩ := h
    exact .cons ⟨t, ty, rfl, hty', readAt_typed hty hv hty' hx⟩ (readAll_typed hty hs hxs)

theorem widths_typed : ∀ {ys : List Val} {us : List MirType}, List.Forall₂ (fun y (t : MirType) => ValTy y (some t)) ys us →
    widths ys = Builder.sizeSum us
  | _, _, .nil => by simp [widths, Builder.sizeSum]
  | y :: ys, t :: us, .cons ⟨mt, ty, g1, g2, g3⟩ hs => by
    injection g1 with g1; subst g1
    rw [widths_cons, sizeSum_cons, widths_typed hs, memSize_scalar g2 g3]

/-- What the calls of a block return. -/
def CallsOk (md : Module) (blk : Block) (calls : Calls) (C : CallRel) : Prop :=
  ∀ ds c args sig, .Call ds c args sig ∈ blk.instrs → ∃ fn, md[c]? = some fn ∧ ∀ xs ys,
    List.Forall₂ (fun y (t : MirType) => ValTy y (some t)) xs sig.params → calls c xs = some ys →
    C fn.name xs ys ∧ List.Forall₂ (fun y (t : MirType) => ValTy y (some t)) ys sig.returns

theorem eval_step (hs : Calling f live) (hb : blk ∈ f.blocks) (hmem : i ∈ blk.instrs) (hco : CallsOk md blk calls C)
    (hty : EnvTyped f.types e) (hev : evalInstr calls i e = some e') :
    EnvTyped f.types e' ∧ ∀ v, e' v ≠ none → e v ≠ none ∨ v ∈ i.destinations := by
  obtain ⟨hit, hsim⟩ := hs.instrs blk hb i hmem
  have upd : ∀ {d : ValueId} {x : Val} {v : ValueId}, Function.update e d (some x) v ≠ none → e v ≠ none ∨ v ∈ [d] := by
    intro d x v hv
    by_cases h : v = d
    · right; simp [h]
    · rw [Function.update_of_ne h] at hv; exact .inl hv
  have nocall : (∀ ds c args sig, i ≠ .Call ds c args sig) → EnvTyped f.types e' :=
    fun hn => evalInstr_typed hit hty (fun ds c args sig h => absurd h (hn _ _ _ _)) hev
  cases i <;> simp only [InstrCalls, InstrSimple] at hsim
  case Call ds c args sig =>
    simp only [evalInstr, Option.bind_eq_bind, Option.bind_eq_some_iff] at hev
    obtain ⟨xs, h1, ys, h2, h3⟩ := hev
    obtain ⟨fn, -, hfn⟩ := hco ds c args sig hmem
    obtain ⟨-, h4⟩ := hfn xs ys (readAll_typed hty hit.2 h1) h2
    exact ⟨bind_typed hty hit.1 h4 h3, bind_dom h3⟩
  all_goals
    refine ⟨nocall (by simp), ?_⟩
    simp only [evalInstr, Option.bind_eq_bind, Option.bind_eq_some_iff, Option.some.injEq] at hev
  case Assign => obtain ⟨_, _, _, _, rfl⟩ := hev; exact fun v => upd
  case UnaryOp => obtain ⟨_, _, _, _, rfl⟩ := hev; exact fun v => upd
  case BinaryOp => obtain ⟨_, _, _, _, _, _, rfl⟩ := hev; exact fun v => upd
  case Cast => obtain ⟨_, _, _, _, _, _, _, _, rfl⟩ := hev; exact fun v => upd
  case Nop => subst hev; exact fun v hv => .inl hv
  case AssertEq =>
    obtain ⟨_, _, _, _, h⟩ := hev
    split_ifs at h
    injection h with h
    subst h
    exact fun v hv => .inl hv

/-! ### Execution of one instruction -/

theorem run_step_calls {pre post : List Instr} (hc : Base f L lo ts) (hs : Calling f live) (hkn : Knows f L)
    (hk : f.blocks[k]? = some blk) (w : Window fp lo hi) (hco : CallsOk md blk calls C)
    (hsplit : blk.instrs = pre ++ i :: post) (hsp : Spread f L lo ts b.layout) (htr : Track (some i) b)
    (h : genInstr md f blk.term g b i post.head? = .ok (g', b')) (hty : EnvTyped f.types e)
    (hdom : ∀ v, e v ≠ none → Seen live k pre v) (hst : Stored b.layout fp e m)
    (hev : evalInstr calls i e = some e') (hfr : (b'.layout.frame : ℤ) ≤ fr) (hhi : fr ≤ hi) (hfit : Fits code tgt b')
    (hq : ∀ m', Stored b'.layout fp e' m' → SameExcept fp (Body (-2 - Builder.sizeSum ts) hi) m m' →
      Ev code tgt fp lo fr hi C Q b'.instrs.length m') :
    Ev code tgt fp lo fr hi C Q b.instrs.length m := by
  have hb := List.mem_of_getElem? hk
  have hmem : i ∈ blk.instrs := by rw [hsplit]; simp
  have hpre : ∀ j ∈ pre, j ∈ blk.instrs := fun j hj => by rw [hsplit]; simp [hj]
  obtain ⟨hit, hsim⟩ := hs.instrs blk hb i hmem
  have hlow := hc.sig.low
  have hlo : lo ≤ 0 := by omega
  have dest : ∀ {d : ValueId}, InstrSimple f.types i → (∀ ds c args sig, i ≠ .Call ds c args sig) → i.destinations = [d] →
      Ev code tgt fp lo fr hi C Q b.instrs.length m := by
    intro d hsim hn hd
    have hd' : d ∈ i.destinations := by rw [hd]; simp
    obtain ⟨s1, hs1⟩ := hsp.slot hkn hb hmem hd'
    obtain ⟨-, b₁, s, h1, h2, h3⟩ := gen_dest_calls hc.sig (hs.terms blk hb) hsim hd hs1 h
    obtain ⟨q1, q2, q3, q4, q5, q6⟩ := h3.spread hc.sig hs hb hsplit hd' hsp hn htr hs1
    have hH := homes_calls hc hs hk q3
    have hst1 : Stored b₁.layout fp e m := by
      intro v x hv
      obtain ⟨s', g1, g2⟩ := hst v x hv
      refine ⟨s', ?_, g2⟩
      rw [q5 v fun hm => moved_new hs hk hsplit hm (hdom v (by simp [hv]))]
      exact g1
    have hag := hst1.agrees (blk := blk) hdom hpre
    have hHd : homeC live k blk b₁.layout d = some s := by
      rw [homeC_eq (.inr ⟨i, hmem, hd'⟩)]; exact h1
    obtain ⟨x, e1, e2, e3, e4⟩ := run_emit w hH hty hit hsim hd le_rfl hag hHd h2 hev (hfr.trans hhi) hfit
    obtain ⟨m', r1, r2, r3⟩ := e4.agrees e3 hag hH hty w le_rfl (hfr.trans hhi) hHd h1 e2
    subst e1
    rw [q2] at r1
    refine Ev.runs r1 (hq m' r2.stored (r3.mono fun o ho => ⟨?_, ho.2⟩))
    have := ho.1
    have hp : d ∉ f.params := hs.ordered.params d (mem_locals hb hmem hd')
    rcases q3.zone d s h1 with ⟨p, -, -⟩ | ⟨-, z⟩ | ⟨-, bj, hbj, mj, rj, oj, z⟩
    · exact absurd p hp
    · omega
    · obtain ⟨vs, t, z1, z2, z3, z4, z5, z6⟩ := firstIdx_spec hc.sig (hs.terms bj hbj) rj
      have := retOff_range z4
      omega
  cases i <;> try exact dest hsim (by simp) rfl
  all_goals simp only [InstrCalls, InstrSimple] at hsim
  case Nop =>
    cases h
    simp only [evalInstr, Option.some.injEq] at hev
    subst hev
    exact hq m hst SameExcept.refl
  case AssertEq l r =>
    simp only [genInstr, Bind.bind, Except.bind] at h
    split at h
    · cases h
    rename_i c hc'
    cases h
    have hag := hst.agrees (blk := blk) hdom hpre
    obtain ⟨rfl, e2, m', r1, r2⟩ := run_assert w hsim.1 hag hc' hev (hfr.trans hhi) hfit hlo
    have hf2 := e2.frame
    refine Ev.runs r1 (hq m' ?_ (r2.mono fun o ho => ⟨by omega, by omega, by omega, by omega⟩))
    have := hst.same hsp.shape hty w hsp.ends (fun t ht => ⟨ht.1, by omega⟩) (by omega) (by omega) r2
    intro v x hv
    rw [e2.values]
    exact this v x hv
  case Call ds c args sig =>
    simp only [genInstr] at h
    split at h
    · cases h
    rename_i fn hfn
    simp only [Bind.bind, Except.bind] at h
    split at h
    · cases h
    rename_i b2 hcall
    cases h
    obtain ⟨off, bA, hsh⟩ := lowerCall_shape hlo hsp htr hit.2 hit.1 hsim (fun d hd =>
      ⟨hs.ordered.params d (mem_locals hb hmem hd), hsp.slot hkn hb hmem hd⟩) hcall
    simp only [evalInstr, Option.bind_eq_bind, Option.bind_eq_some_iff] at hev
    obtain ⟨xs, v1, ys, v2, v3⟩ := hev
    obtain ⟨fn', hfn', hC'⟩ := hco ds c args sig hmem
    rw [hfn] at hfn'; injection hfn' with hfn'; subst hfn'
    obtain ⟨hC, hys⟩ := hC' xs ys (readAll_typed hty hit.2 v1) v2
    have hwy := widths_typed hys
    have hff := hsh.frame'
    obtain ⟨newA, eA, -⟩ := hsh.argsAdded
    have hfitA : Fits code tgt bA := by
      refine ⟨?_, ?_⟩
      · have := hfit.code
        rw [hsh.code] at this
        exact (List.prefix_append _ _).trans this
      · have := hfit.labels
        rw [hsh.labels] at this
        rw [eA]
        exact this
    obtain ⟨m1, r1, r2, r3, r4, r5⟩ := run_passArgs hlo w hsp.shape hsh.ends hsh.low hit.2 (by omega) hsh.pass hty hst v1 hfitA
    have htop := hsh.top
    have hlw := hsh.low
    refine Ev.runs r1 (.call (off := off + Builder.sizeSum sig.params + Builder.sizeSum sig.returns) (l := fn.name)
      (args := xs) (vs := ys) ?_ hC ?_ ?_ ?_ ?_ ?_)
    · have hp := hfit.code
      rw [hsh.code] at hp
      rw [List.prefix_iff_getElem?] at hp
      have := hp bA.instrs.length (by simp)
      rw [this]
      simp
    · rw [hwy, r3]
      have : off + (Builder.sizeSum sig.params : ℤ) + Builder.sizeSum sig.returns - Builder.sizeSum sig.returns - Builder.sizeSum sig.params = off := by omega
      rw [this]
      exact r2
    · rw [hwy, r3]; omega
    · rw [hwy]; omega
    · omega
    · intro m' hh hsame
      have ho : off + (Builder.sizeSum sig.params : ℤ) + Builder.sizeSum sig.returns - widths ys = off + Builder.sizeSum sig.params := by
        rw [hwy]; omega
      rw [ho] at hh hsame
      have hlen : bA.instrs.length + 1 = b'.instrs.length := by rw [hsh.code]; simp
      rw [hlen]
      have hlay : bA.layout = b.layout := by rw [eA]
      have hst' : Stored bA.layout fp e m' := by
        rw [hlay]
        exact r4.same hsp.shape hty w hsh.ends (fun t ht => ht) (by omega) (by omega) hsame
      refine hq m' ?_ ?_
      · intro v x hv
        rw [hsh.mapped]
        exact mapResults_stored hit.1 hys hh v3 hst' v x hv
      · refine (r5.mono fun o ho => ⟨?_, ho.2, ?_, ?_⟩).trans (hsame.mono fun o ho => ⟨by omega, ho.2, by omega, by omega⟩)
        · have : (b.layout.frame : ℤ) ≤ o := le_trans (le_max_right _ _) ho.1
          omega
        · have : (b.layout.frame : ℤ) ≤ o := le_trans (le_max_right _ _) ho.1
          omega
        · have : (b.layout.frame : ℤ) ≤ o := le_trans (le_max_right _ _) ho.1
          omega

theorem eval_instrs (hs : Calling f live) (hb : blk ∈ f.blocks) (hco : CallsOk md blk calls C) :
    ∀ {is : List Instr} {e e' : Env}, (∀ i ∈ is, i ∈ blk.instrs) → EnvTyped f.types e → evalInstrs calls is e = some e' →
    EnvTyped f.types e' ∧ ∀ v, e' v ≠ none → e v ≠ none ∨ ∃ i ∈ is, v ∈ i.destinations
  | [], e, e', _, hty, hev => by
    simp only [evalInstrs, Option.some.injEq] at hev
    subst hev
    exact ⟨hty, fun v hv => .inl hv⟩
  | i :: is, e, e', hsub, hty, hev => by
    simp only [evalInstrs, Option.bind_eq_bind, Option.bind_eq_some_iff] at hev
    obtain ⟨e1, ev1, ev2⟩ := hev
    obtain ⟨ty1, dom1⟩ := eval_step hs hb (hsub i (by simp)) hco hty ev1
    obtain ⟨ty2, dom2⟩ := eval_instrs hs hb hco (fun j hj => hsub j (by simp [hj])) ty1 ev2
    refine ⟨ty2, fun v hv => ?_⟩
    rcases dom2 v hv with h | ⟨j, hj, hd⟩
    · rcases dom1 v h with h | h
      · exact .inl h
      · exact .inr ⟨i, by simp, h⟩
    · exact .inr ⟨j, by simp [hj], hd⟩

theorem run_instrs_calls (hc : Base f L lo ts) (hs : Calling f live) (hkn : Knows f L)
    (hk : f.blocks[k]? = some blk) (w : Window fp lo hi) (hco : CallsOk md blk calls C) (hhi : fr ≤ hi) :
    ∀ {is pre : List Instr} {g g' : Gen} {b b' : Builder} {m : Isa.Mem} {e e' : Env}, blk.instrs = pre ++ is →
    Spread f L lo ts b.layout → Track is.head? b → genInstrs md f blk.term is g b = .ok (g', b') →
    EnvTyped f.types e → (∀ v, e v ≠ none → Seen live k pre v) → Stored b.layout fp e m →
    evalInstrs calls is e = some e' → (b'.layout.frame : ℤ) ≤ fr → Fits code tgt b' →
    (∀ m', Stored b'.layout fp e' m' → SameExcept fp (Body (-2 - Builder.sizeSum ts) hi) m m' →
      Ev code tgt fp lo fr hi C Q b'.instrs.length m') →
    Ev code tgt fp lo fr hi C Q b.instrs.length m
  | [], pre, g, g', b, b', m, e, e', hsplit, _, _, h, hty, hdom, hst, hev, _, _, hq => by
    cases h
    simp only [evalInstrs, Option.some.injEq] at hev
    subst hev
    exact hq m hst SameExcept.refl
  | i :: is, pre, g, g', b, b', m, e, e', hsplit, hsp, htr, h, hty, hdom, hst, hev, hfr, hfit, hq => by
    have hb := List.mem_of_getElem? hk
    simp only [genInstrs] at h
    simp only [evalInstrs, Option.bind_eq_bind, Option.bind_eq_some_iff] at hev
    obtain ⟨e1, ev1, ev2⟩ := hev
    split at h
    · cases h
    · rename_i g1 b1 h1
      have hsplit' : blk.instrs = (pre ++ [i]) ++ is := by rw [hsplit]; simp
      obtain ⟨-, gr1, l1, t1, k1⟩ := gen_step_calls hc.sig hs hkn hb hsplit hsp htr h1
      obtain ⟨-, gr2, l2, t2, k2⟩ := gen_instrs_calls hc.sig hs hkn hb hsplit' l1 t1 h
      have hfr' : (b1.layout.frame : ℤ) ≤ fr := le_trans (by exact_mod_cast gr2.frame) hfr
      obtain ⟨ty1, dom1⟩ := eval_step hs hb (by rw [hsplit]; simp) hco hty ev1
      have hdom' : ∀ v, e1 v ≠ none → Seen live k (pre ++ [i]) v := by
        intro v hv
        rcases dom1 v hv with hv | hv
        · rcases hdom v hv with h | ⟨j, hj, hd⟩
          · exact .inl h
          · exact .inr ⟨j, by simp [hj], hd⟩
        · exact .inr ⟨i, by simp, hv⟩
      refine run_step_calls hc hs hkn hk w hco hsplit hsp htr h1 hty hdom hst ev1 hfr' hhi (gr2.fits hfit) fun m1 hst1 hs1 => ?_
      exact run_instrs_calls hc hs hkn hk w hco hhi hsplit' l1 t1 h ty1 hdom' hst1 ev2 hfr hfit
        fun m2 hst2 hs2 => hq m2 hst2 (hs1.trans hs2)

end Codegen
end CairoM
