import Verif.FunctionTerm

/-!
# Helper lemmas: returning from a function
-/

namespace CairoM
namespace Codegen

open Mir Lang Relation

variable {code : List IB} {tgt : Name → Option ℕ} {fp : M31} {m : Isa.Mem} {b b' : Builder} {lo hi : ℤ}
  {env env' : Env} {f : Function} {L : Layout} {ts : List MirType} {blk : Block}

/-- Copying a scalar slot by slot. -/
theorem computes_copySlots {src d : ℤ} {x : Val} (w : Window fp lo hi) (hv : Holds m fp src x)
    (h1 : lo ≤ src) (h2 : src + width x ≤ hi) (h3 : lo ≤ d) (h4 : d + width x ≤ hi)
    (hap : src + width x ≤ d ∨ d + width x ≤ src) (hfit : Fits code tgt (b.copySlots src d (width x))) :
    Computes code tgt fp b (b.copySlots src d (width x)) m d x := by
  have one : ∀ {v : M31}, Isa.felt m (adr fp src) = some v → d < hi → Fits code tgt (b.copySlots src d 1) →
      FeltRun code tgt fp b (b.copySlots src d 1) m d v := by
    intro v hv hd hf
    have e : b.copySlots src d 1 = b.copySingle src d := by simp [Builder.copySlots]
    rw [e] at hf ⊢
    have dr := w.inRange h3 hd
    exact FeltRun.one dr (runs_copySingle hf hv dr)
  cases x with
  | felt v => exact (one hv (by simp only [width] at h4; omega) hfit).computes_felt
  | bool p => exact (one hv (by simp only [width] at h4; omega) hfit).computes_bool
  | unit => exact ⟨m, Runs.refl, trivial, SameExcept.refl⟩
  | u32 n =>
    simp only [width, Nat.cast_ofNat] at h2 h4 hap
    simp only [width] at hfit ⊢
    simp only [Holds, Isa.u32, Option.bind_eq_bind, Option.bind_eq_some_iff] at hv
    obtain ⟨a, ha, c, hc, hn⟩ := hv
    have e : b.copySlots src d 2 = (b.copySingle src d).copySingle (src + 1) (d + 1) := by simp [Builder.copySlots]
    rw [e] at hfit ⊢
    have hf1 : Fits code tgt (b.copySingle src d) := ⟨(List.prefix_append _ _).trans hfit.code, hfit.labels⟩
    have dr := w.inRange h3 (o := d) (by omega)
    have dr1 := w.inRange (o := d + 1) (by omega) (by omega)
    have r1 := runs_copySingle (m := m) hf1 ha dr
    rw [← adr_succ] at hc
    have ne : ∀ {o o' : ℤ}, o ≠ o' → lo ≤ o → o < hi → lo ≤ o' → o' < hi → adr fp o ≠ adr fp o' :=
      fun hne a b c d h => hne (w.inj a b c d h)
    have r2 := runs_copySingle (m := put m (adr fp d) a) (src := src + 1) (d := d + 1) (x := c) hfit (by
      rw [felt_put_ne (ne (by omega) (by omega) (by omega) (by omega) (by omega))]; exact hc) dr1
    refine ⟨_, r1.trans r2, ?_, ?_⟩
    · simp only [Holds, Isa.u32, Option.bind_eq_bind, Option.bind_eq_some_iff]
      refine ⟨a, ?_, c, ?_, hn⟩
      · rw [felt_put_ne (ne (by omega) (by omega) (by omega) (by omega) (by omega)), felt_put_same dr]
      · rw [← adr_succ, felt_put_same dr1]
    · exact (SameExcept.put (o := d) (Or.inl ⟨by omega, by simp [width]⟩)).trans
        (SameExcept.put (o := d + 1) (Or.inl ⟨by omega, by simp [width]⟩))

theorem holdsAll_same {off : ℤ} {xs : List Val} {m' : Isa.Mem} {S : ℤ → Prop} (w : Window fp lo hi) (h1 : lo ≤ off)
    (h2 : off + widths xs ≤ hi) (hS : ∀ t, S t → lo ≤ t ∧ t < hi) (ho : ∀ o, off ≤ o → o < off + widths xs → ¬ S o)
    (hs : SameExcept fp S m m') (h : HoldsAll m fp off xs) : HoldsAll m' fp off xs := by
  induction xs generalizing off with
  | nil => trivial
  | cons x xs ih =>
    have hw : (widths (x :: xs) : ℤ) = width x + widths xs := by simp [widths]
    rw [hw] at h2 ho
    exact ⟨hs.holds w h1 (by omega) hS (fun o a b => ho o a (by omega)) h.1,
      ih (by omega) (by omega) (fun o a b => ho o (by omega) (by omega)) h.2⟩

/-- Values are apart from the return slots, or in the slot in which they are returned. -/
def RetHomes (vs : List Value) (ts : List MirType) (H : ValueId → Option Slot) : Prop :=
  ∀ v s, H v = some s → Apart s.off s.size (-2 - Builder.sizeSum ts) (Builder.sizeSum ts + 2) ∨
    ∃ (j : ℕ) (t : MirType), vs[j]? = some (.Operand v) ∧ ts[j]? = some t ∧ s.off = retOff ts j ∧ s.size = t.memSize

/-- Returned values end up in the return slots. -/
theorem run_returnLoop {all : List Value} {F : ℤ} {H : ValueId → Option Slot} (hc : Sig f lo ts)
    (hH : Homes f.types lo F H) (hR : RetHomes all ts H) (w : Window fp lo hi) (hty : EnvTyped f.types env) (hhi0 : 0 ≤ hi) :
    ∀ {vs : List Value} {us : List MirType} {j : ℕ} {b b' : Builder} {xs : List Val} {m : Isa.Mem},
    all.drop j = vs → ts.drop j = us → List.Forall₂ (HasType f.types) vs us → Shape f lo ts b.layout → F ≤ b.layout.frame →
    Builder.returnLoop vs us (retOff ts j) b = .ok b' → readAll env (us.map some) vs = some xs →
    Agrees b.layout H fp env m → (b'.layout.frame : ℤ) ≤ hi → Fits code tgt b' →
    ∃ m', Runs code tgt fp (b.instrs.length, m) (b'.instrs.length, m') ∧ HoldsAll m' fp (retOff ts j) xs ∧
      SameExcept fp (fun o => retOff ts j ≤ o ∧ o < -2) m m'
  | [], us, j, b, b', xs, m, hd, hu, hf, hl, hF, h, hev, hag, hhi, hfit => by
    cases hf
    simp only [Builder.returnLoop, Except.ok.injEq] at h; subst h
    simp only [List.map_nil, readAll, Option.some.injEq] at hev; subst hev
    exact ⟨m, Runs.refl, trivial, SameExcept.refl⟩
  | v :: vs, us, j, b, b', xs, m, hd, hu, hf, hl, hF, h, hev, hag, hhi, hfit => by
    have hlo : lo ≤ 0 := by have := hc.low; omega
    cases us with
    | nil => cases hf
    | cons t us =>
    have htj : ts[j]? = some t := by
      have := congrArg (·[0]?) hu
      simpa using this
    have hvj : all[j]? = some v := by
      have := congrArg (·[0]?) hd
      simpa using this
    have hd' : all.drop (j + 1) = vs := by rw [← List.drop_drop, hd]; rfl
    have hu' : ts.drop (j + 1) = us := by rw [← List.drop_drop, hu]; rfl
    have hoff : retOff ts (j + 1) = retOff ts j + t.memSize := by
      have := sizeSum_take_succ htj
      unfold retOff
      omega
    obtain ⟨rr1, rr2⟩ := retOff_range htj
    have hlow := hc.low
    obtain ⟨hv, hs⟩ : HasType f.types v t ∧ List.Forall₂ (HasType f.types) vs us := by
      cases hf; exact ⟨‹_›, ‹_›⟩
    simp only [List.map_cons, readAll, Option.bind_eq_bind, Option.bind_eq_some_iff, Option.bind_some,
      Option.some.injEq] at hev
    obtain ⟨ty, hty', x, hx, xs', hxs, rfl⟩ := hev
    have hxt := readAt_typed hty hv hty' hx
    have hwx := memSize_scalar hty' hxt
    have hus : retOff ts (j + 1) + Builder.sizeSum us ≤ -2 := by
      have h1 : Builder.sizeSum ts = Builder.sizeSum (ts.take (j + 1)) + Builder.sizeSum (ts.drop (j + 1)) := by
        rw [← sizeSum_append, List.take_append_drop]
      rw [hu'] at h1
      unfold retOff
      omega
    -- the rest, once the value is in its slot and the others are where they were
    have rest : ∀ {b₁ : Builder} {m₁ : Isa.Mem}, Emits lo b b₁ → Runs code tgt fp (b.instrs.length, m) (b₁.instrs.length, m₁) →
        Builder.returnLoop vs us (retOff ts (j + 1)) b₁ = .ok b' →
        Holds m₁ fp (retOff ts j) x → Agrees b₁.layout H fp env m₁ →
        SameExcept fp (fun o => retOff ts j ≤ o ∧ o < -2) m m₁ →
        ∃ m', Runs code tgt fp (b.instrs.length, m) (b'.instrs.length, m') ∧ HoldsAll m' fp (retOff ts j) (x :: xs') ∧
          SameExcept fp (fun o => retOff ts j ≤ o ∧ o < -2) m m' := by
      intro b₁ m₁ em hr hloop hhold hag₁ hsame
      obtain ⟨m', q1, q2, q3⟩ := run_returnLoop hc hH hR w hty hhi0 hd' hu' hs (hl.emits em)
        (hF.trans (by exact_mod_cast em.frame)) hloop hxs hag₁ hhi hfit
      refine ⟨m', hr.trans q1, ⟨?_, ?_⟩, hsame.trans (q3.mono fun o ho => ⟨by omega, ho.2⟩)⟩
      · refine q3.holds w (by omega) (by omega) (fun t ht => ⟨by omega, by omega⟩) ?_ hhold
        intro o o1 o2 o3
        omega
      · rw [← hwx, ← hoff]
        exact q2
    -- writing the slot does not disturb any value
    have keep : ∀ {b₁ : Builder} {m₁ : Isa.Mem}, Emits lo b b₁ → b₁.layout.frame = b.layout.frame →
        Computes code tgt fp b b₁ m (retOff ts j) x →
        (∀ id s, v = .Operand id → b.layout.values id = some s → s.off ≠ retOff ts j) →
        ∃ m₁, Runs code tgt fp (b.instrs.length, m) (b₁.instrs.length, m₁) ∧ Holds m₁ fp (retOff ts j) x ∧
          Agrees b₁.layout H fp env m₁ ∧ SameExcept fp (fun o => retOff ts j ≤ o ∧ o < -2) m m₁ := by
      intro b₁ _ em hfr hcomp hne
      obtain ⟨m₁, q1, q2, q3⟩ := hcomp
      rw [hfr] at q3
      have q3' : SameExcept fp (fun o => retOff ts j ≤ o ∧ o < retOff ts j + width x) m m₁ := q3.mono fun o ho => by
        rcases ho with ho | ho
        · exact ho
        · omega
      refine ⟨m₁, q1, q2, ?_, q3'.mono fun o ho => ⟨ho.1, by omega⟩⟩
      intro v' y hy
      obtain ⟨s', g1, g2, g3⟩ := hag v' y hy
      have hsz := width_size hH (hty v' y hy) g1
      obtain ⟨p1, p2, -⟩ := hH.range v' s' g1
      refine ⟨s', g1, by rw [em.values]; exact g2, q3'.holds w p1 (by
        have : (b'.layout.frame : ℤ) ≤ hi := hhi
        have hgr := (emits_returnLoop hlo hf (by omega) (by rw [sizeSum_cons]; push_cast; omega) hl h).frame
        have : (b.layout.frame : ℤ) ≤ b'.layout.frame := by exact_mod_cast hgr
        omega) (fun o ho => ⟨by omega, by omega⟩) ?_ g3⟩
      intro o o1 o2 o3
      rcases hR v' s' g1 with this | ⟨i, t', e2, k3, k1, k2⟩
      · unfold Apart at this
        omega
      · rcases lt_trichotomy i j with hlt | heq | hgt
        · have := retOff_lt k3 hlt
          omega
        · rw [heq, hvj] at e2
          injection e2 with e2
          rw [heq] at k1
          exact hne v' s' e2 g2 k1
        · have := retOff_lt htj hgt
          omega
    cases v with
    | Error => cases hx
    | Literal lit =>
      obtain ⟨b₁, e1, e2⟩ := returnLit hv h
      rw [← hoff] at e2
      have em := emits_assignTo (lo := lo) e1 (fun id s e => by cases e) (by omega) (by omega)
      have er := emits_returnLoop hlo hs (by omega) hus (hl.emits em) e2
      have hfit1 : Fits code tgt b₁ := er.toGrows.fits hfit
      have hfr : b₁.layout.frame = b.layout.frame := by
        unfold Builder.assignTo at e1
        cases lit <;> simp only at e1 <;> try split_ifs at e1
        all_goals first
          | (cases e1; rfl)
          | cases e1
      have hhi1 : (b₁.layout.frame : ℤ) ≤ hi := le_trans (by exact_mod_cast er.frame) hhi
      obtain ⟨-, cmp⟩ := computes_assignTo w (b := b) (m := m) (lo := lo) (src := .Literal lit) (x := x) hx hxt hty'
        (by omega) (by omega) e1 hfit1
      obtain ⟨m₁, q1, q2, q3, q4⟩ := keep (m₁ := m) em hfr cmp (fun id s e => by cases e)
      exact rest em q1 e2 q2 q3 q4
    | Operand id =>
      simp only [readAt] at hx
      obtain ⟨s, g1, g2, g3⟩ := hag id x hx
      have hsz := width_size hH (hty id x hx) g1
      obtain ⟨p1, p2, -⟩ := hH.range id s g1
      simp only [Builder.returnLoop, g2] at h
      rw [hsz, ← hwx] at h
      rw [← hoff] at h
      split_ifs at h with heq
      · exact rest Emits.refl Runs.refl h (by rw [← heq]; exact g3) hag SameExcept.refl
      · have em : Emits lo b (b.copySlots s.off (retOff ts j) t.memSize) :=
          emits_copySlots p1 (by omega) (by omega) (by omega)
        have er := emits_returnLoop hlo hs (by omega) hus (hl.emits em) h
        have hfit1 := er.toGrows.fits hfit
        have hbf : (b.layout.frame : ℤ) ≤ hi := by
          have h1 := em.frame
          have h2 := er.frame
          omega
        have hap : s.off + width x ≤ retOff ts j ∨ retOff ts j + width x ≤ s.off := by
          rcases hR id s g1 with this | ⟨i, t', -, k3, k1, k2⟩
          · unfold Apart at this
            omega
          · rcases lt_trichotomy i j with hlt | heq' | hgt
            · have := retOff_lt k3 hlt
              left; omega
            · rw [heq'] at k1
              exact absurd k1 heq
            · have := retOff_lt htj hgt
              right; omega
        have cmp : Computes code tgt fp b (b.copySlots s.off (retOff ts j) t.memSize) m (retOff ts j) x := by
          rw [hwx] at hfit1 ⊢
          exact computes_copySlots w g3 p1 (by omega) (by omega) (by omega) hap hfit1
        have hfr : (b.copySlots s.off (retOff ts j) t.memSize).layout.frame = b.layout.frame := by
          generalize t.memSize = n
          induction n with
          | zero => rfl
          | succ n ih => exact ih
        obtain ⟨m₁, q1, q2, q3, q4⟩ := keep (m₁ := m) em hfr cmp (fun id' s' e hs' => by
          cases e; rw [g2] at hs'; cases hs'; exact heq)
        exact rest em q1 h q2 q3 q4

/-- A block that returns reaches `ret` with the returned values in the return slots. -/
theorem run_return {next : Option BlockId} {xs : List Val} {term : Terminator} {F : ℤ} {H : ValueId → Option Slot}
    (hc : Sig f lo ts) (ht : TermTyped f term) (hH : Homes f.types lo F H) (hF : F ≤ b.layout.frame)
    (hR : ∀ vs, term = .Return vs → RetHomes vs ts H)
    (w : Window fp lo hi) (hl : Shape f lo ts b.layout) (h : genTerm f b term next = .ok b')
    (hty : EnvTyped f.types env) (hag : Agrees b.layout H fp env m)
    (hev : evalTerm (returnTys f) env term = some (.ret xs)) (hhi : (b'.layout.frame : ℤ) ≤ hi)
    (hfit : Fits code tgt b') :
    ∃ i m', Runs code tgt fp (b.instrs.length, m) (i, m') ∧ code[i]? = some ⟨.Ret, none⟩ ∧
      HoldsAll m' fp (-((Builder.sizeSum ts : ℤ) + 2)) xs ∧
      SameExcept fp (fun o => -((Builder.sizeSum ts : ℤ) + 2) ≤ o ∧ o < -2) m m' := by
  cases hterm : term with
  | Return vs =>
    rw [hterm] at h hev ht
    simp only [evalTerm, Option.map_eq_some_iff, Exit.ret.injEq] at hev
    obtain ⟨xs', hx, rfl⟩ := hev
    simp only [genTerm, hc.rts, Builder.returnValues, Bind.bind, Except.bind] at h
    split at h
    · cases h
    · rename_i b₁ hb₁
      simp only [pure, Except.pure, Except.ok.injEq] at h
      subst h
      have hoff : retOff ts 0 = -((Builder.sizeSum ts : ℤ) + 2) := by
        unfold retOff
        simp [Builder.sizeSum]
      rw [hl.ret, ← hoff] at hb₁
      have hfit1 : Fits code tgt b₁ := ⟨(List.prefix_append _ _).trans hfit.code, hfit.labels⟩
      have hx' : readAll env (ts.map some) vs = some xs' := by
        rw [← returnTys_eq hc.rts]; exact hx
      obtain ⟨m', q1, q2, q3⟩ := run_returnLoop hc hH (hR vs hterm) w hty (le_trans (by positivity) hhi) (j := 0) rfl rfl
        (returns_typed ht (returnTys_eq hc.rts)) hl hF hb₁ hx' hag hhi hfit1
      rw [hoff] at q2 q3
      exact ⟨_, m', q1, fetch_of_prefix hfit.code, q2, q3⟩
  | Jump t => rw [hterm] at hev; simp [evalTerm] at hev
  | If c t e =>
    rw [hterm] at hev
    simp only [evalTerm, Option.bind_eq_bind, Option.bind_eq_some_iff, Option.some.injEq, choose] at hev
    obtain ⟨x, -, p, -, hch⟩ := hev
    split_ifs at hch
  | BranchCmp op l r t e =>
    rw [hterm] at hev
    simp only [evalTerm, Option.bind_eq_bind, Option.bind_eq_some_iff, Option.some.injEq, choose] at hev
    obtain ⟨x, -, y, -, z, -, p, -, hch⟩ := hev
    split_ifs at hch
  | Unreachable => rw [hterm] at hev; cases hev

end Codegen
end CairoM
