import Verif.ProgramGen

/-!
# Helper lemmas: execution of the code of a call
-/

namespace CairoM
namespace Codegen

open Mir Lang Relation

variable {code : List IB} {tgt : Name → Option ℕ} {fp : M31} {m m' : Isa.Mem} {b b' b₁ : Builder} {lo hi : ℤ}
  {f : Function} {L l : Layout} {ts : List MirType} {e e' : Env}

/-- Values are in their slots. -/
def Stored (l : Layout) (fp : M31) (e : Env) (m : Isa.Mem) : Prop :=
  ∀ v x, e v = some x → ∃ s, l.values v = some s ∧ Holds m fp s.off x

theorem Shape.width (h : Shape f lo ts l) (hty : EnvTyped f.types e) {v : ValueId} {x : Val} {s : Slot}
    (hv : e v = some x) (hs : l.values v = some s) : s.size = Codegen.width x := by
  obtain ⟨t, h1, h2⟩ := h.sized v s hs
  obtain ⟨mt, ty, g1, g2, g3⟩ := hty v x hv
  rw [h1] at g1; injection g1 with g1; subst g1
  rw [h2]; exact memSize_scalar g2 g3

/-- Writing above all slots changes no value. -/
theorem Stored.same (h : Stored l fp e m) (hl : Shape f lo ts l) (hty : EnvTyped f.types e) (w : Window fp lo hi)
    {S : ℤ → Prop} {o : ℤ} (he : Ends l o) (hS : ∀ t, S t → o ≤ t ∧ t < hi) (ho : lo ≤ o) (ho' : o ≤ hi) (hs : SameExcept fp S m m') :
    Stored l fp e m' := by
  intro v x hv
  obtain ⟨s, h1, h2⟩ := h v x hv
  have hw := hl.width hty hv h1
  have := he v s h1
  rw [hw] at this
  refine ⟨s, h1, hs.holds w (hl.range v s h1).1 (by omega) (fun t ht => ⟨by have := hS t ht; omega, (hS t ht).2⟩) (fun t _ t2 ht => ?_) h2⟩
  have := hS t ht
  omega

theorem copyLit {lit : Literal} {t : MirType} {as : List (Value × MirType)} {off : ℤ}
    (ht : HasType f.types (.Literal lit) t)
    (h : Builder.copyArgs ((.Literal lit, t) :: as) off b = .ok b') :
    ∃ b₁, b.assignTo off (.Literal lit) t = .ok b₁ ∧ Builder.copyArgs as (off + t.memSize) b₁ = .ok b' := by
  obtain ⟨ty, x, h1, h2, -⟩ := ht
  cases t <;> simp only [scalarTy, reduceCtorEq, Option.some.injEq] at h1 <;> subst h1 <;>
    cases lit <;> simp only [denote, reduceCtorEq] at h2 <;>
    simp only [Builder.copyArgs, reduceCtorEq] at h
  · exact ⟨_, by simp [Builder.assignTo, MirType.memSize], h⟩
  · exact ⟨_, by simp [Builder.assignTo, MirType.memSize, MirType.isU32], h⟩

theorem run_copyArgs (hlo : lo ≤ 0) (w : Window fp lo hi) (hty : EnvTyped f.types e) :
    ∀ {as : List (Value × MirType)} {off : ℤ} {b b' : Builder} {xs : List Val} {m : Isa.Mem},
    (∀ a ∈ as, HasType f.types a.1 a.2) → Shape f lo ts b.layout → (b.layout.frame : ℤ) ≤ off →
    off + Builder.sizeSum (as.map Prod.snd) ≤ hi → Builder.copyArgs as off b = .ok b' →
    readAll e (as.map fun a => some a.2) (as.map Prod.fst) = some xs → Stored b.layout fp e m → Fits code tgt b' →
    ∃ m', Runs code tgt fp (b.instrs.length, m) (b'.instrs.length, m') ∧ HoldsAll m' fp off xs ∧
      SameExcept fp (fun o => off ≤ o ∧ o < off + Builder.sizeSum (as.map Prod.snd)) m m' ∧
      widths xs = Builder.sizeSum (as.map Prod.snd)
  | [], off, b, b', xs, m, _, _, _, _, h, hev, _, _ => by
    simp only [Builder.copyArgs, Except.ok.injEq] at h; subst h
    simp only [List.map_nil, readAll, Option.some.injEq] at hev; subst hev
    exact ⟨m, Runs.refl, trivial, SameExcept.refl, by simp [widths, Builder.sizeSum]⟩
  | (v, t) :: as, off, b, b', xs, m, hat, hl, hoff, hhi, h, hev, hst, hfit => by
    simp only [List.map_cons, sizeSum_cons] at hhi ⊢
    push_cast at hhi ⊢
    have hv : HasType f.types v t := hat (v, t) (by simp)
    have hrest : ∀ a ∈ as, HasType f.types a.1 a.2 := fun a ha => hat a (by simp [ha])
    simp only [List.map_cons, readAll, Option.bind_eq_bind, Option.bind_eq_some_iff, Option.bind_some,
      Option.some.injEq] at hev
    obtain ⟨ty, hty', x, hx, xs', hxs, rfl⟩ := hev
    have hxt := readAt_typed hty hv hty' hx
    have hwx := memSize_scalar hty' hxt
    have hends : Ends b.layout off := fun v s hs => by have := (hl.range v s hs).2; omega
    -- the remaining arguments
    have rest : ∀ {b₁ : Builder} {m₁ : Isa.Mem}, b₁.layout = b.layout →
        Runs code tgt fp (b.instrs.length, m) (b₁.instrs.length, m₁) →
        Builder.copyArgs as (off + t.memSize) b₁ = .ok b' → Holds m₁ fp off x →
        SameExcept fp (fun o => off ≤ o ∧ o < off + width x) m m₁ →
        ∃ m', Runs code tgt fp (b.instrs.length, m) (b'.instrs.length, m') ∧ HoldsAll m' fp off (x :: xs') ∧
          SameExcept fp (fun o => off ≤ o ∧ o < off + (t.memSize + Builder.sizeSum (as.map Prod.snd))) m m' ∧
          widths (x :: xs') = t.memSize + Builder.sizeSum (as.map Prod.snd) := by
      intro b₁ m₁ hlay hr hcp hhold hsame
      have hst' : Stored b₁.layout fp e m₁ := by
        rw [hlay]
        exact hst.same hl hty w hends (fun t ht => ⟨ht.1, by omega⟩) (by omega) (by omega) hsame
      obtain ⟨m', q1, q2, q3, q4⟩ := run_copyArgs hlo w hty hrest (by rw [hlay]; exact hl) (by rw [hlay]; omega) (by omega) hcp
        hxs hst' hfit
      refine ⟨m', hr.trans q1, ⟨?_, by rw [← hwx]; exact q2⟩, ?_, by rw [widths_cons, q4, hwx]⟩
      · refine q3.holds w (by omega) (by omega) (fun t ht => ⟨by omega, by omega⟩) ?_ hhold
        intro o o1 o2 o3
        omega
      · exact (hsame.mono fun o ho => ⟨ho.1, by omega⟩).trans (q3.mono fun o ho => ⟨by omega, by omega⟩)
    -- the code so far fits
    have fit : ∀ {b₁ : Builder}, b₁.layout = b.layout → Builder.copyArgs as (off + t.memSize) b₁ = .ok b' → Fits code tgt b₁ := by
      intro b₁ hlay hcp
      obtain ⟨new, q, -⟩ := copyArgs_static (F := hi) hlo hrest (by rw [hlay]; exact hl) (by rw [hlay]; omega) (by omega) hcp
      subst q
      exact ⟨(List.prefix_append _ _).trans hfit.code, hfit.labels⟩
    cases v with
    | Error => simp [Builder.copyArgs] at h
    | Literal lit =>
      obtain ⟨b₁, e1, e2⟩ := copyLit hv h
      have hlay := assignTo_layout e1
      obtain ⟨-, m₁, r1, r2, r3⟩ := computes_assignTo (m := m) (b := b) (src := .Literal lit) (x := x) w (t := ty) (by exact hx) hxt hty' (by omega) (by omega)
        e1 (fit hlay e2)
      refine rest hlay r1 e2 r2 (r3.mono fun o ho => ?_)
      rcases ho with ho | ho
      · exact ho
      · rw [hlay] at ho; omega
    | Operand id =>
      simp only [readAt] at hx
      obtain ⟨s, hs, hh⟩ := hst id x hx
      have hw := hl.width hty hx hs
      obtain ⟨rr1, rr2⟩ := hl.range id s hs
      rw [hw] at rr2
      simp only [Builder.copyArgs, getOffset_ok hs] at h
      split_ifs at h with hcond
      · refine rest rfl Runs.refl h ?_ SameExcept.refl
        rw [← hcond.1]; exact hh
      · rw [hwx] at h
        obtain ⟨m₁, r1, r2, r3⟩ := computes_copySlots (b := b) (d := off) w hh rr1 (by omega) (by omega) (by omega) (.inl (by omega))
          (fit copySlots_layout (by rw [hwx]; exact h))
        rw [copySlots_layout] at r3
        refine rest copySlots_layout r1 (by rw [hwx]; exact h) r2 (r3.mono fun o ho => ?_)
        rcases ho with ho | ho
        · exact ho
        · omega

theorem contiguous_holds (hl : Shape f lo ts l) (hty : EnvTyped f.types e) (hst : Stored l fp e m) :
    ∀ {as : List (Value × MirType)} {off : ℤ} {xs : List Val}, Builder.contiguousFrom l as off = true →
    (∀ a ∈ as, HasType f.types a.1 a.2) → readAll e (as.map fun a => some a.2) (as.map Prod.fst) = some xs →
    HoldsAll m fp off xs ∧ widths xs = Builder.sizeSum (as.map Prod.snd)
  | [], off, xs, _, _, hev => by
    simp only [List.map_nil, readAll, Option.some.injEq] at hev; subst hev
    exact ⟨trivial, by simp [widths, Builder.sizeSum]⟩
  | (.Literal _, t) :: as, off, xs, h, _, _ => by simp [Builder.contiguousFrom] at h
  | (.Error, t) :: as, off, xs, h, _, _ => by simp [Builder.contiguousFrom] at h
  | (.Operand id, t) :: as, off, xs, h, hat, hev => by
    simp only [Builder.contiguousFrom, Bool.and_eq_true] at h
    obtain ⟨h1, h2⟩ := h
    obtain ⟨s, e1, e2, e3⟩ := isContiguous_spec h1
    simp only [List.map_cons, readAll, Option.bind_eq_bind, Option.bind_eq_some_iff, Option.bind_some,
      Option.some.injEq, readAt] at hev
    obtain ⟨ty, hty', x, hx, xs', hxs, rfl⟩ := hev
    obtain ⟨s', q1, q2⟩ := hst id x hx
    rw [e1] at q1; injection q1 with q1; subst q1
    have hw := hl.width hty hx e1
    obtain ⟨r1, r2⟩ := contiguous_holds hl hty hst h2 (fun a ha => hat a (by simp [ha])) hxs
    refine ⟨⟨by rw [← e2]; exact q2, by rw [← hw, e3]; exact r1⟩, ?_⟩
    rw [widths_cons, List.map_cons, sizeSum_cons, r2, ← hw, e3]

/-- The arguments of a call are in place before it. -/
theorem run_passArgs {args : List Value} {sig : Signature} {off : ℤ} {xs : List Val} (hlo : lo ≤ 0) (w : Window fp lo hi)
    (hl : Shape f lo ts b.layout) (hends : Ends b.layout (off + Builder.sizeSum sig.params)) (hoff : lo ≤ off)
    (hargs : List.Forall₂ (HasType f.types) args sig.params)
    (hhi : off + Builder.sizeSum sig.params ≤ hi)
    (h : b.passArgs args sig = .ok (off, b')) (hty : EnvTyped f.types e) (hst : Stored b.layout fp e m)
    (hev : readAll e (sig.params.map some) args = some xs) (hfit : Fits code tgt b') :
    ∃ m', Runs code tgt fp (b.instrs.length, m) (b'.instrs.length, m') ∧ HoldsAll m' fp off xs ∧
      widths xs = Builder.sizeSum sig.params ∧ Stored b.layout fp e m' ∧
      SameExcept fp (fun o => max off b.layout.frame ≤ o ∧ o < hi) m m' := by
  have hlen : args.length = sig.params.length := hargs.length_eq
  have hfst : (args.zip sig.params).map Prod.fst = args := by rw [List.map_fst_zip]; omega
  have hsnd : (args.zip sig.params).map Prod.snd = sig.params := by rw [List.map_snd_zip]; omega
  have hty2 : ∀ a ∈ args.zip sig.params, HasType f.types a.1 a.2 := fun a ha => (List.forall₂_iff_zip.mp hargs).2 ha
  have hsnd' : ((args.zip sig.params).map fun a => some a.2) = sig.params.map some := by
    have : ((args.zip sig.params).map fun a => some a.2) = ((args.zip sig.params).map Prod.snd).map some := by
      rw [List.map_map]; rfl
    rw [this, hsnd]
  unfold Builder.passArgs at h
  rw [if_neg (by omega)] at h
  cases hin : b.inPlace args sig with
  | some o =>
    simp only [hin, Except.ok.injEq, Prod.mk.injEq] at h
    obtain ⟨rfl, rfl⟩ := h
    unfold Builder.inPlace at hin
    split at hin
    · rename_i id rest
      split at hin
      · cases hin
      · rename_i s hs
        simp only at hin
        split_ifs at hin with hcond
        injection hin with hin
        subst hin
        obtain ⟨r1, r2⟩ := contiguous_holds hl hty hst hcond.1 hty2 (by rw [hsnd', hfst]; exact hev)
        rw [hsnd] at r2
        exact ⟨m, Runs.refl, r1, r2, hst, SameExcept.refl⟩
    · cases hin
  | none =>
    simp only [hin] at h
    cases hcp : Builder.copyArgs (args.zip sig.params) b.layout.frame b with
    | error e => simp only [hcp] at h; cases h
    | ok bB =>
      simp only [hcp, Except.ok.injEq, Prod.mk.injEq] at h
      obtain ⟨rfl, rfl⟩ := h
      obtain ⟨m', q1, q2, q3, q4⟩ := run_copyArgs hlo w hty hty2 hl le_rfl (by rw [hsnd]; exact hhi) hcp
        (by rw [hsnd', hfst]; exact hev) hst hfit
      rw [hsnd] at q3 q4
      refine ⟨m', q1, q2, q4, ?_, q3.mono fun o ho => ⟨by rw [max_self]; exact ho.1, by omega⟩⟩
      refine hst.same hl hty w (o := b.layout.frame) (fun v s hs => (hl.range v s hs).2) (fun t ht => ⟨ht.1, by omega⟩) hoff (by omega) q3

/-- The results of a call are where the layout says. -/
theorem mapResults_stored : ∀ {ds : List ValueId} {us : List MirType} {o : ℤ} {b : Builder} {ys : List Val} {e e' : Env},
    ds.map f.types = us.map some → List.Forall₂ (fun y (t : MirType) => ValTy y (some t)) ys us →
    HoldsAll m fp o ys → Lang.bind e ds ys = some e' → Stored b.layout fp e m →
    Stored (Builder.mapResults ds us o b).layout fp e' m
  | [], us, o, b, [], e, e', _, _, _, hb, hst => by
    simp only [Lang.bind, Option.some.injEq] at hb; subst hb
    exact hst
  | [], us, o, b, y :: ys, e, e', _, _, _, hb, _ => by simp [Lang.bind] at hb
  | d :: ds, us, o, b, [], e, e', _, _, _, hb, _ => by simp [Lang.bind] at hb
  | d :: ds, [], o, b, y :: ys, e, e', hd, _, _, _, _ => by simp at hd
  | d :: ds, t :: us, o, b, y :: ys, e, e', hd, hy, hh, hb, hst => by
    simp only [List.map_cons, List.cons.injEq] at hd
    simp only [Lang.bind] at hb
    obtain ⟨hy1, hy2⟩ := List.forall₂_cons.mp hy
    obtain ⟨mt, ty, g1, g2, g3⟩ := hy1
    injection g1 with g1; subst g1
    have hw := memSize_scalar g2 g3
    simp only [Builder.mapResults]
    refine mapResults_stored hd.2 hy2 (by rw [hw]; exact hh.2) hb ?_
    intro v x hv
    simp only [Builder.mapValue, mapValue_values]
    by_cases hvd : v = d
    · subst hvd
      simp only [Function.update_self, Option.some.injEq] at hv ⊢
      subst hv
      exact ⟨_, rfl, by rw [slot_of_off]; exact hh.1⟩
    · rw [Function.update_of_ne hvd] at hv ⊢
      exact hst v x hv

end Codegen
end CairoM
