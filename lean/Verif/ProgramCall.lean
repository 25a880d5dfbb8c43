import Verif.ProgramStatic

/-!
# Helper lemmas: the code of a call
-/

namespace CairoM
namespace Codegen

open Mir Lang Relation

variable {code : List IB} {tgt : Name → Option ℕ} {fp : M31} {m : Isa.Mem} {b b' b₁ : Builder} {lo hi : ℤ}
  {f : Function} {L l : Layout} {ts : List MirType} {blk : Block} {md : Module} {g g' : Gen} {i : Instr}
  {next : Option Instr} {d : ValueId}

/-! ### Arguments that can stay where they are -/

theorem isContiguous_spec {v : ValueId} {off : ℤ} {n : ℕ} (h : l.isContiguous v off n = true) :
    ∃ s, l.values v = some s ∧ s.off = off ∧ s.size = n := by
  unfold Layout.isContiguous at h
  split at h
  · rename_i o e
    simp only [Bool.and_eq_true, beq_iff_eq] at h
    exact ⟨_, e, h.2, h.1.symm⟩
  · rename_i o k e
    simp only [Bool.and_eq_true, beq_iff_eq] at h
    exact ⟨_, e, h.2, h.1⟩
  · cases h

theorem contiguous_ends : ∀ {as : List (Value × MirType)} {off : ℤ}, Builder.contiguousFrom l as off = true →
    ∀ v, .Operand v ∈ as.map Prod.fst → ∃ s, l.values v = some s ∧
      s.off + s.size ≤ off + Builder.sizeSum (as.map Prod.snd)
  | [], off, _, v, hv => by simp at hv
  | (.Literal _, t) :: as, off, h, v, hv => by simp [Builder.contiguousFrom] at h
  | (.Error, t) :: as, off, h, v, hv => by simp [Builder.contiguousFrom] at h
  | (.Operand id, t) :: as, off, h, v, hv => by
    simp only [Builder.contiguousFrom, Bool.and_eq_true] at h
    obtain ⟨h1, h2⟩ := h
    obtain ⟨s, e1, e2, e3⟩ := isContiguous_spec h1
    simp only [List.map_cons, List.mem_cons, Value.Operand.injEq, sizeSum_cons] at hv ⊢
    rcases hv with rfl | hv
    · refine ⟨s, e1, ?_⟩
      rw [e2, e3]; push_cast; omega
    · obtain ⟨s', q1, q2⟩ := contiguous_ends h2 v hv
      exact ⟨s', q1, by push_cast; omega⟩

/-! ### Copied arguments -/

theorem copySlots_static {s d : ℤ} {n : ℕ} {F : ℤ} (h1 : lo ≤ s) (h2 : s + n ≤ F) (h3 : lo ≤ d) (h4 : d + n ≤ F) :
    ∃ new, b.copySlots s d n = { b with instrs := b.instrs ++ new } ∧ ∀ ib ∈ new, InFrame lo F ib.inner := by
  induction n with
  | zero => exact ⟨[], by simp [Builder.copySlots], by simp⟩
  | succ n ih =>
    obtain ⟨new, e, hn⟩ := ih (by omega) (by omega)
    refine ⟨new ++ [⟨.StoreAddFpImm (ofI32 (s + n)) (ofI32 0) (ofI32 (d + n)), none⟩], ?_, ?_⟩
    · have : b.copySlots s d (n + 1) = (b.copySlots s d n).copySingle (s + n) (d + n) := rfl
      rw [this, e]
      simp [Builder.copySingle, Builder.feltAddImm, Builder.push]
    · intro ib hib
      simp only [List.mem_append, List.mem_singleton] at hib
      rcases hib with hib | rfl
      · exact hn ib hib
      · exact ⟨⟨s + n, rfl, by omega, by push_cast at *; omega⟩, ⟨d + n, rfl, by omega, by push_cast at *; omega⟩⟩

theorem copyArgs_static (hlo : lo ≤ 0) : ∀ {as : List (Value × MirType)} {off : ℤ} {b b' : Builder} {F : ℤ},
    (∀ a ∈ as, HasType f.types a.1 a.2) → Shape f lo ts b.layout → (b.layout.frame : ℤ) ≤ off →
    off + Builder.sizeSum (as.map Prod.snd) ≤ F →
    Builder.copyArgs as off b = .ok b' →
    ∃ new, b' = { b with instrs := b.instrs ++ new } ∧ ∀ ib ∈ new, InFrame lo F ib.inner
  | [], off, b, b', F, _, _, _, _, h => by
    simp only [Builder.copyArgs, Except.ok.injEq] at h
    subst h
    exact ⟨[], by simp, by simp⟩
  | (v, t) :: as, off, b, b', F, hty, hl, hoff, hF, h => by
    simp only [List.map_cons, sizeSum_cons] at hF
    push_cast at hF
    have hrest : ∀ a ∈ as, HasType f.types a.1 a.2 := fun a ha => hty a (by simp [ha])
    have one : ∀ {b₁ : Builder}, (∃ new, b₁ = { b with instrs := b.instrs ++ new } ∧ ∀ ib ∈ new, InFrame lo F ib.inner) →
        Builder.copyArgs as (off + t.memSize) b₁ = .ok b' →
        ∃ new, b' = { b with instrs := b.instrs ++ new } ∧ ∀ ib ∈ new, InFrame lo F ib.inner := by
      rintro b₁ ⟨new, e, hn⟩ hb
      obtain ⟨new', e', hn'⟩ := copyArgs_static (F := F) hlo hrest (by rw [e]; exact hl) (by rw [e]; simp only; omega)
        (by omega) hb
      refine ⟨new ++ new', by rw [e', e]; simp, fun ib hib => ?_⟩
      rcases List.mem_append.mp hib with hib | hib
      · exact hn ib hib
      · exact hn' ib hib
    simp only [Builder.copyArgs] at h
    cases v with
    | Error => cases h
    | Literal lit =>
      cases lit <;> simp only [reduceCtorEq] at h
      rename_i n
      cases t <;> simp only [reduceCtorEq, MirType.memSize] at h hF
      · exact one ⟨[⟨.StoreImm (toM31 n) (ofI32 off), none⟩], rfl, by
          intro ib hib
          simp only [List.mem_singleton] at hib
          subst hib
          exact ⟨off, rfl, by omega, by push_cast; omega⟩⟩ h
      · exact one ⟨[⟨.StoreImm (toM31 n) (ofI32 off), none⟩], rfl, by
          intro ib hib
          simp only [List.mem_singleton] at hib
          subst hib
          exact ⟨off, rfl, by omega, by push_cast; omega⟩⟩ h
      · exact one ⟨[⟨.U32StoreImm (splitLo n) (splitHi n) (ofI32 off), none⟩], rfl, by
          intro ib hib
          simp only [List.mem_singleton] at hib
          subst hib
          exact ⟨off, rfl, by omega, by push_cast; omega⟩⟩ h
    | Operand id =>
      simp only at h
      cases ho : b.layout.getOffset id with
      | error e => simp [ho] at h
      | ok s =>
        have hv := hty (.Operand id, t) (by simp)
        have hr := (hl.readable_typed hv).offset ho
        simp only [ho] at h
        split_ifs at h
        · exact one ⟨[], by simp, by simp⟩ h
        · exact one (copySlots_static hr.1 (by omega) (by omega) (by omega)) h

/-! ### Layout after a call -/

theorem mapResults_spec : ∀ {ds : List ValueId} {us : List MirType} {o : ℤ} {b : Builder},
    Spread f L lo ts b.layout → Ends b.layout o → 0 ≤ o → lo ≤ 0 → ds.map f.types = us.map some →
    (∀ d ∈ ds, d ∉ f.params ∧ ∃ s, b.layout.values d = some s) →
    ∃ l, Builder.mapResults ds us o b = { b with layout := l } ∧ Spread f L lo ts l ∧ Ends l (o + Builder.sizeSum us) ∧
      b.layout.frame ≤ l.frame ∧ (ds ≠ [] → o + Builder.sizeSum us ≤ l.frame) ∧ l.retSlots = b.layout.retSlots ∧
      ∀ v, v ∉ ds → l.values v = b.layout.values v
  | [], [], o, b, hsp, he, _, _, _, _ => by
    refine ⟨b.layout, rfl, hsp, ?_, le_rfl, by simp, rfl, fun _ _ => rfl⟩
    simpa [Builder.sizeSum] using he
  | [], _ :: _, o, b, _, _, _, _, h, _ => by simp at h
  | _ :: _, [], o, b, _, _, _, _, h, _ => by simp at h
  | d :: ds, t :: us, o, b, hsp, he, ho, hlo, hty, hds => by
    simp only [List.map_cons, List.cons.injEq] at hty
    obtain ⟨hp, s, hs⟩ := hds d (by simp)
    have hsz : s.size = t.memSize := by
      obtain ⟨t', e1, e2⟩ := hsp.shape.sized d s hs
      rw [hty.1] at e1; injection e1 with e1; subst e1
      exact e2
    have hsp1 : Spread f L lo ts (b.mapValue d o).layout :=
      hsp.map hs (by omega) (.inr (.inl ⟨hp, by rw [slot_of_off]; exact ho⟩)) (fun _ => he)
    have hv := mapValue_values b.layout d o
    obtain ⟨hf1, hf2⟩ := mapValue_frame b.layout d o
    rw [valueSize_eq hs, hsz] at hv hf2
    have he1 : Ends (b.mapValue d o).layout (o + t.memSize) := by
      intro v s' hs'
      simp only [Builder.mapValue, hv] at hs'
      by_cases e : v = d
      · subst e
        simp only [Function.update_self, Option.some.injEq] at hs'
        subst hs'
        rw [slot_of_off, slot_of_size]
      · rw [Function.update_of_ne e] at hs'
        have := he v s' hs'
        omega
    obtain ⟨l, q1, q2, q3, q4, q5, q6, q7⟩ := mapResults_spec (b := b.mapValue d o) hsp1 he1 (by omega) hlo hty.2
      (fun x hx => by
        refine ⟨(hds x (by simp [hx])).1, ?_⟩
        simp only [Builder.mapValue, hv]
        by_cases e : x = d
        · subst e; exact ⟨_, Function.update_self ..⟩
        · rw [Function.update_of_ne e]; exact (hds x (by simp [hx])).2)
    refine ⟨l, by simp only [Builder.mapResults]; rw [q1]; rfl, q2, ?_, hf1.trans q4, fun _ => ?_,
      q6.trans (mapValue_ret _ _ _), fun v hv' => ?_⟩
    · rw [sizeSum_cons]; push_cast; rw [← add_assoc]; exact q3
    · rw [sizeSum_cons]
      by_cases hne : ds = []
      · subst hne
        cases us with
        | cons => simp at hty
        | nil =>
          have : (b.mapValue d o).layout.frame ≤ l.frame := q4
          simp only [Builder.mapValue] at this
          simp [Builder.sizeSum]
          omega
      · have := q5 hne
        push_cast; omega
    · simp only [List.mem_cons, not_or] at hv'
      rw [q7 v hv'.2]
      simp only [Builder.mapValue, hv]
      exact Function.update_of_ne hv'.1 _ _

/-- What a call does to the layout and which code it adds. -/
structure CallShape (f : Function) (L : Layout) (lo : ℤ) (ts : List MirType) (b b' : Builder) (name : Name)
    (args : List Value) (sig : Signature) (ds : List ValueId) (off : ℤ) (bA : Builder) : Prop where
  pass : b.passArgs args sig = .ok (off, bA)
  argsAdded : ∃ new, bA = { b with instrs := b.instrs ++ new } ∧ ∀ ib ∈ new, InFrame lo b'.layout.frame ib.inner
  ends : Ends b.layout (off + Builder.sizeSum sig.params)
  low : lo ≤ off
  top : 0 ≤ off + Builder.sizeSum sig.params
  code : b'.instrs = bA.instrs ++ [⟨.CallAbsImm (ofI32 (off + Builder.sizeSum sig.params + Builder.sizeSum sig.returns)) 0, some name⟩]
  labels : b'.labels = b.labels
  mapped : b'.layout.values = (Builder.mapResults ds sig.returns (off + Builder.sizeSum sig.params) bA).layout.values
  frame : b.layout.frame ≤ b'.layout.frame
  frame' : off + Builder.sizeSum sig.params + Builder.sizeSum sig.returns ≤ b'.layout.frame
  retSlots : b'.layout.retSlots = b.layout.retSlots
  spread : Spread f L lo ts b'.layout
  track : ∀ next, Track next b'
  same : ∀ v, v ∉ ds → b'.layout.values v = b.layout.values v

theorem lowerCall_shape {name : Name} {args : List Value} {sig : Signature} {ds : List ValueId} {c : ℕ} (hlo : lo ≤ 0)
    (hsp : Spread f L lo ts b.layout) (htr : Track (some (.Call ds c args sig)) b)
    (hargs : List.Forall₂ (HasType f.types) args sig.params) (hds : ds.map f.types = sig.returns.map some) (hne : ds ≠ [])
    (hloc : ∀ d ∈ ds, d ∉ f.params ∧ ∃ s, b.layout.values d = some s)
    (h : b.lowerCall name args sig ds = .ok b') : ∃ off bA, CallShape f L lo ts b b' name args sig ds off bA := by
  simp only [Builder.lowerCall, Bind.bind, Except.bind] at h
  cases hp : b.passArgs args sig with
  | error e => rw [hp] at h; cases h
  | ok r =>
    obtain ⟨off, bA⟩ := r
    rw [hp] at h
    have he : ds.isEmpty = false := by
      cases ds with
      | nil => exact absurd rfl hne
      | cons => rfl
    simp only [he, Bool.false_eq_true, if_false, pure, Except.pure, Except.ok.injEq] at h
    have hlen : args.length = sig.params.length := hargs.length_eq
    have hfst : (args.zip sig.params).map Prod.fst = args := by rw [List.map_fst_zip]; omega
    have hsnd : (args.zip sig.params).map Prod.snd = sig.params := by rw [List.map_snd_zip]; omega
    -- the arguments
    have hpass : (∀ F : ℤ, off + Builder.sizeSum sig.params ≤ F →
        ∃ new, bA = { b with instrs := b.instrs ++ new } ∧ ∀ ib ∈ new, InFrame lo F ib.inner) ∧
        Ends b.layout (off + Builder.sizeSum sig.params) ∧ lo ≤ off ∧ 0 ≤ off + Builder.sizeSum sig.params := by
      unfold Builder.passArgs at hp
      rw [if_neg (by omega)] at hp
      cases hin : b.inPlace args sig with
      | some o =>
        simp only [hin, Except.ok.injEq, Prod.mk.injEq] at hp
        obtain ⟨rfl, rfl⟩ := hp
        unfold Builder.inPlace at hin
        split at hin
        · rename_i id rest
          split at hin
          · cases hin
          · rename_i s hs
            simp only at hin
            split_ifs at hin with hcond
            injection hin with hin
            subst hin
            obtain ⟨hcont, hlast⟩ := hcond
            have hce := contiguous_ends hcont
            rw [hfst, hsnd] at hce
            have l1 := htr.low
            refine ⟨fun F _ => ⟨[], by simp, by simp⟩, fun v s' hs' => ?_, (hsp.shape.range id s hs).1, ?_⟩
            · rcases hlast with hlast | ⟨-, hlast⟩
              · rw [hlast]; exact hsp.ends v s' hs'
              · rcases htr.within v s' hs' with hw | ⟨ds', c', args', sig', e, hv⟩
                · rw [hlast]; exact hw
                · injection e with e
                  injection e with e1 e2 e3 e4
                  subst e3
                  obtain ⟨s'', q1, q2⟩ := hce v hv
                  rw [hs'] at q1; injection q1 with q1; subst q1
                  exact q2
            · rcases hlast with hlast | ⟨-, hlast⟩ <;> omega
        · cases hin
      | none =>
        simp only [hin] at hp
        cases hcp : Builder.copyArgs (args.zip sig.params) b.layout.frame b with
        | error e => simp only [hcp] at hp; cases hp
        | ok bB =>
          simp only [hcp, Except.ok.injEq, Prod.mk.injEq] at hp
          obtain ⟨rfl, rfl⟩ := hp
          refine ⟨fun F hF => ?_, fun v s hs => ?_, by omega, by omega⟩
          · refine copyArgs_static hlo (fun a ha => ?_) hsp.shape le_rfl (by rw [hsnd]; exact hF) hcp
            have := List.forall₂_iff_zip.mp hargs
            exact this.2 ha
          · have := hsp.ends v s hs
            omega
    obtain ⟨hadd, hends, hlow, htop⟩ := hpass
    obtain ⟨new0, e0, -⟩ := hadd _ le_rfl
    have hlay : bA.layout = b.layout := by rw [e0]
    obtain ⟨l, q1, q2, q3, q4, q5, q6, q7⟩ := mapResults_spec (us := sig.returns) (b := bA)
      (by rw [hlay]; exact hsp) (by rw [hlay]; exact hends) htop hlo hds (by rw [hlay]; exact hloc)
    rw [q1] at h
    have hq5 := q5 hne
    have hfr : b'.layout.frame = l.frame + Builder.sizeSum sig.returns := by rw [← h]; rfl
    have hval : b'.layout.values = l.values := by rw [← h]; rfl
    have hmw : b'.maxWritten = max b.maxWritten (off + Builder.sizeSum sig.params + Builder.sizeSum sig.returns - 1) := by
      rw [← h, e0]; rfl
    rw [hlay] at q4
    have hret : b'.layout.retSlots = l.retSlots := by rw [← h]; rfl
    have hsp' : Spread f L lo ts b'.layout := by
      refine ⟨⟨fun v s hs => ?_, fun v s hs => ?_, by rw [hret]; exact q2.shape.ret⟩, fun v s hs => ?_, fun v s hs => ?_,
        fun v w s t hvw hs ht => ?_⟩
      · rw [hval] at hs
        have := q2.shape.range v s hs
        exact ⟨this.1, by omega⟩
      · rw [hval] at hs; exact q2.shape.sized v s hs
      · rw [hval]; exact q2.known v s hs
      · rw [hval] at hs; exact q2.zone v s hs
      · rw [hval] at hs ht; exact q2.apart v w s t hvw hs ht
    refine ⟨off, bA, ⟨hp, hadd _ (by omega), hends, hlow, htop, ?_, ?_, by rw [q1, hval], by omega, by omega, ?_, hsp', ?_, ?_⟩⟩
    · rw [← h]; simp [Builder.pushL, Builder.reserve]
    · rw [← h, e0]; simp [Builder.pushL, Builder.reserve]
    · rw [hret, q6, hlay]
    · intro next
      have h1 := htr.low
      have h2 := htr.high
      refine ⟨by rw [hmw]; omega, by rw [hmw]; omega, fun v s hs => .inl ?_⟩
      rw [hval] at hs
      have := q3 v s hs
      rw [hmw]; omega
    · intro v hv
      rw [hval, q7 v hv, hlay]

theorem CallShape.grows {name : Name} {args : List Value} {sig : Signature} {ds : List ValueId} {off : ℤ} {bA : Builder}
    (h : CallShape f L lo ts b b' name args sig ds off bA) : Grows lo b b' := by
  obtain ⟨new, e, hn⟩ := h.argsAdded
  have hfr := h.frame
  have hcode : b'.instrs = b.instrs ++ (new ++ [⟨.CallAbsImm (ofI32 (off + Builder.sizeSum sig.params + Builder.sizeSum sig.returns)) 0, some name⟩]) := by
    rw [h.code, e]; simp
  refine ⟨by rw [hcode]; exact List.prefix_append _ _, by rw [h.labels], hfr, h.retSlots, fun gd => ⟨?_, ?_⟩⟩
  · intro ib hib
    rw [hcode] at hib
    simp only [List.mem_append, List.mem_singleton] at hib
    rcases hib with hib | hib | rfl
    · exact (gd.instrs ib hib).mono (by exact_mod_cast hfr)
    · exact hn ib hib
    · trivial
  · intro x hx
    rw [h.labels] at hx
    have := gd.labels x hx
    rw [hcode]
    simp only [List.length_append]
    omega

end Codegen
end CairoM
