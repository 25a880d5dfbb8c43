import Verif.ProgramUnits

/-!
# Helper lemmas: execution of linked programs
-/

namespace CairoM
namespace Codegen

open Mir Lang Relation

variable {code : List IB} {tgt tgt' : Name → Option ℕ} {fp pc : M31} {m m' m₂ : Isa.Mem} {b b' : Builder} {lo hi fr F : ℤ}
  {f : Function} {L : Layout} {ts : List MirType} {md : Module} {g g' g₁ : Gen} {ins : Instruction}
  {live : BlockId → ValueId → Prop} {calls : Calls} {C : CallRel} {Q : ℕ → Isa.Mem → Prop} {e : Isa.Effect} {base : ℕ}
  {is : List Instruction} {c : Compiled}

/-! ### Code in memory -/

theorem place_succ {i : ℕ} (hi : is[i]? = some ins) : place is (i + 1) = place is i + ins.sizeInQM31s := by
  unfold place
  rw [List.take_add_one, hi]
  simp

theorem place_le (i : ℕ) : place is i ≤ place is is.length := by
  unfold place
  rw [List.take_length]
  conv_rhs => rw [← List.take_append_drop i is]
  rw [List.map_append, List.sum_append]
  exact Nat.le_add_right _ _

theorem place_end {i : ℕ} (hi : is[i]? = some ins) : place is i + ins.sizeInQM31s ≤ place is is.length := by
  rw [← place_succ hi]
  exact place_le _

theorem CodeAt.congr (h : CodeAt m is) (hN : place is is.length ≤ 2 ^ 28)
    (hm : ∀ a : M31, a.val < place is is.length → m' a = m a) : CodeAt m' is := by
  intro i ins hi
  have hs := h i ins hi
  have he := place_end hi
  have hsz := (Instruction.C05_words ins).1
  have hpos : 0 < ins.encode.length := by
    cases ins <;> exact Nat.succ_pos _
  have hP : P = 2147483647 := rfl
  have hv : ((place is i : ℕ) : M31).val = place is i := ZMod.val_natCast_of_lt (by omega)
  have h0 : m' (place is i : ℕ) = m (place is i : ℕ) := hm _ (by rw [hv]; omega)
  unfold Isa.Stored at hs ⊢
  by_cases h4 : ins.encode.length ≤ 4
  · rw [List.take_append_of_le_length (by simpa [QM31.limbs] using h4)] at hs ⊢
    rw [h0]; exact hs
  · have h1 : m' ((place is i : ℕ) + 1) = m ((place is i : ℕ) + 1) := by
      refine hm _ ?_
      have : (((place is i + 1 : ℕ)) : M31).val = place is i + 1 := ZMod.val_natCast_of_lt (by omega)
      push_cast at this
      rw [this]; omega
    rw [h0, h1]; exact hs

/-- Frames lie above the code. -/
theorem CodeAt.same {S : ℤ → Prop} (h : CodeAt m is) (w : Window fp lo hi) (hN : (place is is.length : ℤ) ≤ fp.val + lo)
    (hlh : lo ≤ hi) (hS : ∀ o, S o → lo ≤ o ∧ o < hi) (hm : SameExcept fp S m m') : CodeAt m' is := by
  refine h.congr (by have := w.hi; omega) fun a ha => hm a fun o ho e => ?_
  obtain ⟨h1, h2⟩ := hS o ho
  have := w.val h1 h2
  subst e
  omega

/-! ### The machine -/

/-- Registers and memory. -/
structure Config where
  pc : M31
  fp : M31
  mem : Isa.Mem

/-- One step of the program in memory, according to the reference semantics. -/
def Go (is : List Instruction) (s s' : Config) : Prop :=
  ∃ i ins e, is[i]? = some ins ∧ s.pc = (place is i : ℕ) ∧ CodeAt s.mem is ∧ Isa.sem ins s.pc s.fp s.mem = some e ∧
    s' = ⟨e.pc, e.fp, e.memory s.mem⟩

theorem Step.shift {big : List IB} (hb : ∀ (i : ℕ) ib, code[i]? = some ib → big[base + i]? = some ib)
    (ht : ∀ n j, tgt n = some j → tgt' n = some (base + j)) {i j : ℕ} (h : Step code tgt fp (i, m) (j, m')) :
    Step big tgt' fp (base + i, m) (base + j, m') := by
  cases h with
  | plain hi hp he => exact .plain (hb _ _ hi) hp he
  | jump hi hj => exact .jump (hb _ _ hi) (ht _ _ hj)
  | branch hi hx hnz hj => exact .branch (hb _ _ hi) hx hnz (ht _ _ hj)
  | fall hi hx => exact .fall (hb _ _ hi) hx

theorem step_go (h : link g = .ok c) (hd : Distinct g) (hcode : ∀ (i : ℕ) ib, code[i]? = some ib → g.instrs[base + i]? = some ib)
    (htgt : ∀ n j, tgt n = some j → (⟨n, j + base⟩ : Label) ∈ g.labels) {i j : ℕ} (hm : CodeAt m c.code)
    (hs : Step code tgt fp (i, m) (j, m')) :
    Go c.code ⟨(place c.code (base + i) : ℕ), fp, m⟩ ⟨(place c.code (base + j) : ℕ), fp, m'⟩ := by
  have hs' : Step g.instrs (fun n => (tgt n).map (base + ·)) fp (base + i, m) (base + j, m') :=
    hs.shift hcode (fun n j hj => by simp [hj])
  obtain ⟨ins, e, h1, h2, h3, h4, h5⟩ := C55_step g c h hd _ (by
    intro l j hj
    simp only [Option.map_eq_some_iff] at hj
    obtain ⟨j, hj, rfl⟩ := hj
    rw [Nat.add_comm]
    exact htgt _ _ hj) fp _ _ m m' hs'
  exact ⟨_, ins, e, h1, rfl, hm, h2, by rw [h3, h4, h5]⟩

theorem Ev.link (h : Codegen.link g = .ok c) (hd : Distinct g)
    (hcode : ∀ (i : ℕ) ib, code[i]? = some ib → g.instrs[base + i]? = some ib)
    (htgt : ∀ n j, tgt n = some j → (⟨n, j + base⟩ : Label) ∈ g.labels)
    (hin : ∀ ib ∈ code, InFrame lo F ib.inner) (w : Window fp lo hi) (hF : F ≤ hi) (hlo : lo ≤ 0) (hhi : 0 ≤ hi)
    (hN : (place c.code c.code.length : ℤ) ≤ fp.val + lo)
    (hcall : ∀ (i : ℕ) (off : ℤ) l args vs m, code[i]? = some ⟨.CallAbsImm (ofI32 off) 0, some l⟩ → C l args vs →
      HoldsAll m fp (off - widths vs - widths args) args → lo ≤ off - widths vs - widths args →
      0 ≤ off - widths vs → off ≤ fr → CodeAt m c.code →
      ∃ m', ReflTransGen (Go c.code) ⟨(place c.code (base + i) : ℕ), fp, m⟩ ⟨(place c.code (base + i + 1) : ℕ), fp, m'⟩ ∧
        HoldsAll m' fp (off - widths vs) vs ∧ SameExcept fp (fun o => off - widths vs ≤ o ∧ o < hi) m m')
    {i : ℕ} (hev : Ev code tgt fp lo fr hi C Q i m) (hm : CodeAt m c.code) :
    ∃ i' m', ReflTransGen (Go c.code) ⟨(place c.code (base + i) : ℕ), fp, m⟩ ⟨(place c.code (base + i') : ℕ), fp, m'⟩ ∧
      Q i' m' ∧ CodeAt m' c.code := by
  induction hev with
  | now hq => exact ⟨_, _, .refl, hq, hm⟩
  | step hs _ ih =>
    obtain ⟨i', m', r, q, hm'⟩ := ih (hm.same w hN (by omega) (fun o ho => ⟨ho.1, by omega⟩) (step_same hin hs))
    exact ⟨i', m', .head (step_go h hd hcode htgt hm hs) r, q, hm'⟩
  | call hf hc ha h1 h2 h3 _ ih =>
    obtain ⟨m₁, r₁, q1, q2⟩ := hcall _ _ _ _ _ _ hf hc ha h1 h2 h3 hm
    obtain ⟨i', m', r, q, hm'⟩ := ih m₁ q1 q2 (hm.same w hN (by omega) (fun o ho => ⟨by omega, ho.2⟩) q2)
    exact ⟨i', m', r₁.trans r, q, hm'⟩

/-! ### Frames of callees -/

theorem adr_neg_one : adr fp (-1) = fp - 1 := by simp [adr, sub_eq_add_neg]

theorem adr_neg_two : adr fp (-2) = fp - 2 := by simp [adr, sub_eq_add_neg]

theorem adr_adr (o o' : ℤ) : adr (adr fp o) o' = adr fp (o + o') := by
  simp [adr, add_assoc]

theorem holds_adr {o o' : ℤ} {v : Val} : Holds m (adr fp o) o' v ↔ Holds m fp (o + o') v := by
  cases v <;> simp only [Holds, adr_adr]

theorem holdsAll_adr {o : ℤ} : ∀ {vs : List Val} {o' : ℤ}, HoldsAll m (adr fp o) o' vs ↔ HoldsAll m fp (o + o') vs
  | [], _ => Iff.rfl
  | v :: vs, o' => by
    simp only [HoldsAll, holds_adr, holdsAll_adr (vs := vs), add_assoc]

theorem SameExcept.adr {o : ℤ} {S T : ℤ → Prop} (h : SameExcept (Codegen.adr fp o) S m m') (hST : ∀ t, S t → T (o + t)) :
    SameExcept fp T m m' := fun a ha => h a fun t ht e => ha (o + t) (hST t ht) (by rw [e, adr_adr])

/-- What calls of the functions of a module return. -/
def Returned (md : Module) (n d : ℕ) : CallRel := fun l args vs =>
  ∃ k f, md[k]? = some f ∧ f.name = l ∧ List.Forall₂ (fun x p => ValTy x (f.types p)) args f.params ∧
    callTable md n d k args = some vs

/-- A module whose functions are scalar functions with calls. -/
structure ModuleOk (md : Module) : Prop where
  calling : ∀ f ∈ md, ∃ live, Calling f live
  ends : ∀ f ∈ md, EndsProperly f
  calls : ∀ f ∈ md, CallsMatch md f

theorem forall₂_types {xs : List Val} : ∀ {ps : List ValueId} {ss : List MirType} {types : ValueId → Option MirType},
    ps.map types = ss.map some → List.Forall₂ (fun y (t : MirType) => ValTy y (some t)) xs ss →
    List.Forall₂ (fun x p => ValTy x (types p)) xs ps := by
  induction xs with
  | nil =>
    intro ps ss types h h'
    cases h'
    cases ps with
    | nil => exact .nil
    | cons => simp at h
  | cons x xs ih =>
    intro ps ss types h h'
    cases h' with
    | cons hx hxs =>
      cases ps with
      | nil => simp at h
      | cons p ps =>
        simp only [List.map_cons, List.cons.injEq] at h
        exact .cons (by rw [h.1]; exact hx) (ih h.2 hxs)

theorem forall₂_types' {xs : List Val} : ∀ {ps : List ValueId} {ss : List MirType} {types : ValueId → Option MirType},
    ps.map types = ss.map some → List.Forall₂ (fun x p => ValTy x (types p)) xs ps →
    List.Forall₂ (fun y (t : MirType) => ValTy y (some t)) xs ss := by
  induction xs with
  | nil =>
    intro ps ss types h h'
    cases h'
    cases ss with
    | nil => exact .nil
    | cons => simp at h
  | cons x xs ih =>
    intro ps ss types h h'
    cases h' with
    | cons hx hxs =>
      cases ss with
      | nil => simp at h
      | cons p ps =>
        simp only [List.map_cons, List.cons.injEq] at h
        exact .cons (by rw [← h.1]; exact hx) (ih h.2 hxs)

theorem sem_ret (h1 : Isa.felt m (fp - 1) = some pc) {fp0 : M31} (h2 : Isa.felt m (fp - 2) = some fp0) (p : M31) :
    Isa.sem .Ret p fp m = some ⟨[fp - 1, fp - 2], [], pc, fp0⟩ := by
  dsimp only [Isa.sem]
  rw [felt_bind h1, felt_bind h2]
  simp [Isa.done]

/-- Calls of the functions of a linked module. -/
theorem call_runs (hl : link g = .ok c) (hd : Distinct g) (hok : ModuleOk md) {S n : ℕ}
    (hp : ∀ f ∈ md, ∃ L b base, Piece md g f L b base ∧ (runPasses b).layout.frame + 2 ≤ S) :
    ∀ (d k : ℕ) (f : Function) (args vs : List Val), md[k]? = some f → callTable md n d k args = some vs →
    List.Forall₂ (fun x p => ValTy x (f.types p)) args f.params →
    List.Forall₂ (fun y p => ValTy y (f.types p)) vs f.returns ∧
    ∃ base, (f.name, base) ∈ g.entries ∧
    ∀ (fp fp0 ret : M31) (m : Isa.Mem), CodeAt m c.code → HoldsAll m fp (-(widths args : ℤ) - widths vs - 2) args →
      Isa.felt m (fp - 1) = some ret → Isa.felt m (fp - 2) = some fp0 → fp.val + d * S ≤ 2 ^ 28 →
      (place c.code c.code.length : ℤ) ≤ fp.val + (-(widths args : ℤ) - widths vs - 2) →
      (⟨f.name, base⟩ : Label) ∈ g.labels ∧
      ∃ m', ReflTransGen (Go c.code) ⟨(place c.code base : ℕ), fp, m⟩ ⟨ret, fp0, m'⟩ ∧
        HoldsAll m' fp (-(widths vs : ℤ) - 2) vs ∧
        SameExcept fp (fun o => -(widths vs : ℤ) - 2 ≤ o ∧ o < 2 ^ 28 - (fp.val : ℤ)) m m' := by
  intro d
  induction d with
  | zero => intro k f args vs _ h; cases h
  | succ d ih =>
    intro k f args vs hk hcall hargs
    have hf : f ∈ md := List.mem_of_getElem? hk
    obtain ⟨live, hs⟩ := hok.calling f hf
    obtain ⟨L, b, base, p, hS⟩ := hp f hf
    simp only [callTable, hk] at hcall
    cases hrun : run (callTable md n d) f n args with
    | returned ws =>
      rw [hrun] at hcall
      simp only [Option.some.injEq] at hcall
      subst hcall
      obtain ⟨ts, hc, -, -, -⟩ := base_of_layout (m := fun _ => QM31.ofM31 0) (fp := 0) p.layout hargs
      have hrts : f.returns.map f.types = ts.map some := returnTys_eq hc.rts
      have hco : ∀ blk ∈ f.blocks, CallsOk md blk (callTable md n d) (Returned md n d) := by
        intro blk hblk ds cc as sig hin
        obtain ⟨fn, h1, h2, h3⟩ := hok.calls f hf blk hblk ds cc as sig hin
        refine ⟨fn, h1, fun xs ys hxs hys => ?_⟩
        have hxs' := forall₂_types h2 hxs
        refine ⟨⟨cc, fn, h1, rfl, hxs', hys⟩, ?_⟩
        exact forall₂_types' h3 (ih cc fn xs ys h1 hys hxs').1
      have hty : List.Forall₂ (fun y (t : MirType) => ValTy y (some t)) ws ts := by
        unfold run at hrun
        cases hb : Lang.bind (fun _ => none) f.params args with
        | none => rw [hb] at hrun; cases hrun
        | some env =>
          rw [hb] at hrun
          exact exec_typed hs hco hc.rts (bind_args_typed (fun v x hx => by cases hx) hargs hb) hrun
      refine ⟨forall₂_types hrts hty, base, p.entry, ?_⟩
      intro fp fp0 ret m hm ha hret hfp0 hdS hN
      have hP : P = 2147483647 := rfl
      have hdS' : fp.val + (d * S + S) ≤ 2 ^ 28 := by rw [Nat.add_mul, Nat.one_mul] at hdS; exact hdS
      have hfr0 : b.layout.frame ≤ (runPasses b).layout.frame := dedup_frame
      have w : Window fp (-(widths args : ℤ) - widths ws - 2) (2 ^ 28 - (fp.val : ℤ)) :=
        ⟨by omega, by omega⟩
      obtain ⟨-, hlab, hin, tgt, htgt, hev⟩ := p.runs hd hs (hok.ends f hf) hco hargs (by omega) w ha hrun hrts
      refine ⟨hlab, ?_⟩
      refine Exists.elim (hev.link hl hd p.code htgt hin w (by omega) (by omega) (by omega) hN ?_ hm) ?_
      · intro i off l as vs m1 hi hC hA h1 h2 h3 hm1
        obtain ⟨k', f', hk', rfl, has, hct⟩ := hC
        obtain ⟨-, base', -, hrec⟩ := ih k' f' as vs hk' hct has
        obtain ⟨d, rfl⟩ : ∃ d', d = d' + 1 := by
          cases d with
          | zero => cases hct
          | succ d => exact ⟨d, rfl⟩
        rw [Nat.add_mul, Nat.one_mul] at hdS'
        have hoff : 0 ≤ off := by omega
        have hval : ((adr fp (off + 2)).val : ℤ) = fp.val + (off + 2) := w.val (by omega) (by omega)
        have r0 := w.inRange (o := off) (by omega) (by omega)
        have r1 := w.inRange (o := off + 1) (by omega) (by omega)
        have ne : adr fp off ≠ adr fp (off + 1) := fun e => by
          have := w.inj (by omega) (by omega) (by omega) (by omega) e; omega
        have es : SameExcept fp (fun o => off ≤ o ∧ o < off + 2) m1
            (put (put m1 (adr fp off) fp) (adr fp (off + 1)) (place c.code (base + i + 1) : ℕ)) :=
          (SameExcept.put (by omega)).trans (SameExcept.put (by omega))
        generalize hm2 : put (put m1 (adr fp off) fp) (adr fp (off + 1)) (place c.code (base + i + 1) : ℕ) = m2 at es
        have a1 : adr fp (off + 2) - 1 = adr fp (off + 1) := by
          rw [← adr_neg_one, adr_adr]; congr 1; ring
        have a2 : adr fp (off + 2) - 2 = adr fp off := by
          rw [← adr_neg_two, adr_adr]; congr 1; ring
        have hcm2 : CodeAt m2 c.code := hm1.same w hN (by omega) (fun o ho => ⟨by omega, by omega⟩) es
        have hA2 : HoldsAll m2 fp (off - widths vs - widths as) as :=
          hA.same es w h1 (by omega) (fun t ht => ⟨by omega, by omega⟩) (fun o o1 o2 ho => by omega)
        obtain ⟨hlab', m3, r3, s3, t3⟩ := hrec (adr fp (off + 2)) fp (place c.code (base + i + 1) : ℕ) m2 hcm2
          (by
            rw [holdsAll_adr]
            rw [show off + 2 + (-(widths as : ℤ) - widths vs - 2) = off - widths vs - widths as by ring]
            exact hA2)
          (by rw [a1, ← hm2]; exact felt_put_same r1)
          (by rw [a2, ← hm2, felt_put_ne ne]; exact felt_put_same r0)
          (by rw [Nat.add_mul, Nat.one_mul]; omega) (by rw [hval]; omega)
        obtain ⟨o', c1, c2⟩ := C55_call g c hl hd (base + i) base' _ _ _ (p.code i _ hi) hlab'
        refine ⟨m3, .head ?_ r3, ?_, ?_⟩
        · refine ⟨_, _, ⟨[], [(adr fp off, fp), (adr fp (off + 1), (place c.code (base + i + 1) : ℕ))],
            (place c.code base' : ℕ), adr fp (off + 2)⟩, c1, rfl, hm1, ?_, ?_⟩
          · have e2 : fp + ofI32 off + 2 = adr fp (off + 2) := by
              rw [adr_ofI32, adr, adr]; push_cast; ring
            rw [c2, e2, adr_ofI32, ← adr_succ, Isa.done, if_pos]
            intro w' hw'
            simp only [List.mem_cons, List.not_mem_nil, or_false] at hw'
            rcases hw' with rfl | rfl
            · exact r0
            · exact r1
          · rw [← hm2]; rfl
        · rw [holdsAll_adr] at s3
          rw [show off + 2 + (-(widths vs : ℤ) - 2) = off - widths vs by ring] at s3
          exact s3
        · refine (es.mono fun o ho => ⟨by omega, by omega⟩).trans (t3.adr fun t ht => ⟨by omega, ?_⟩)
          rw [hval] at ht
          omega
      · rintro i' ⟨m', r, ⟨q1, q2, q3⟩, hm'⟩
        refine ⟨m', ?_, q2, q3.mono fun o ho => ⟨ho.1, ho.2.1⟩⟩
        refine .tail r ?_
        have hg := p.code _ _ q1
        obtain ⟨hr, -⟩ := link_inv hl
        obtain ⟨ins, g1, g2⟩ := (resolveAll_get hr).2 _ _ hg
        simp only [resolveOne, Except.ok.injEq] at g2
        subst g2
        refine ⟨_, _, _, g1, rfl, hm', sem_ret ?_ ?_ _, rfl⟩
        · rw [← hret]
          have := q3.cell w (o := -1) (by omega) (by omega) (fun t ht => ⟨by have := ht.1; omega, ht.2.1⟩) (fun ho => ho.2.2.2 rfl)
          rw [adr_neg_one] at this
          exact felt_congr this
        · rw [← hfp0]
          have := q3.cell w (o := -2) (by omega) (by omega) (fun t ht => ⟨by have := ht.1; omega, ht.2.1⟩) (fun ho => ho.2.2.1 rfl)
          rw [adr_neg_two] at this
          exact felt_congr this
    | _ => rw [hrun] at hcall; cases hcall

end Codegen
end CairoM
