import Verif.LoweringInv

/-!
# The lowering: the simple operations keep the invariant

Helper lemmas.
-/

namespace CairoM
namespace Lower

open Mir Lang Source

variable {stk : List (Var × BlockId × ValueId)} {st : St}

/-! ### New values -/

theorem scalar_mirTy (t : Ty) : scalarTy (mirTy t) = some t := by cases t <;> rfl

theorem newId_good (hg : Good stk st) {ty : MirType} (hty : (scalarTy ty).isSome = true) :
    Good stk (st.newId ty).2 ∧ Ext st (st.newId ty).2 ∧ Keep st (st.newId ty).2 := by
  have hlt : ∀ x, x < st.next → Function.update st.g.stamp st.next st.g.clock x = st.g.stamp x := by
    intro x hx; simp [Function.update, Nat.ne_of_lt hx]
  have hext : Ext st (st.newId ty).2 := by
    refine { (Ext.refl hg) with next := ?_, stamp := ?_, down := ?_, types := ?_, clock := ?_ }
    · simp [St.newId]
    · intro x hx; simp only [St.newId, Ghost.create]; exact hlt x hx
    · intro x hx
      simp only [St.newId, Ghost.create]
      exact (hlt _ (hg.subLt x hx)).le
    · intro x hx; simp [St.newId, Function.update, Nat.ne_of_lt hx]
    · simp [St.newId, Ghost.create]
  refine ⟨?_, hext, { (Keep.refl hg) with }⟩
  refine { hg with subFresh := ?_, subLt := ?_, phiFresh := ?_, phis := ?_, dests := ?_, curLt := ?_, curStop := ?_, curNow := ?_,
                   entFix := ?_, entStamp := ?_, startLt := ?_, stopLt := ?_, types := ?_ }
  · intro x hx; exact hg.subFresh x (Nat.le_of_succ_le hx)
  · intro x hx
    simp only [St.newId, Ghost.create] at hx ⊢
    by_cases h : x < st.next
    · exact Nat.lt_succ_of_lt (hg.subLt x h)
    · rw [hg.subFresh x (Nat.le_of_not_lt h)]; exact hx
  · intro x hx; exact hg.phiFresh x (Nat.le_of_succ_le hx)
  · intro b φ hφ
    obtain ⟨h1, h2, h3, h4, h5⟩ := hg.phis b φ hφ
    refine ⟨Nat.lt_succ_of_lt h1, h2, h3, ?_, h5⟩
    simp only [St.newId, Ghost.create]
    rw [hlt _ h1]; exact h4
  · intro b i hi
    obtain ⟨h1, h2⟩ := hg.dests b i hi
    exact ⟨h1, fun d hd => ⟨Nat.lt_succ_of_lt (h2 d hd).1, (h2 d hd).2⟩⟩
  · intro v b x hx; exact Nat.lt_succ_of_lt (hg.curLt v b x hx)
  · intro v b x j hx hj
    simp only [St.newId, Ghost.create]
    rw [hlt _ (hg.subLt x (hg.curLt v b x hx))]
    exact hg.curStop v b x j hx hj
  · intro v x hx
    simp only [St.newId, Ghost.create]
    rw [hlt _ (hg.subLt x (hg.curLt v _ x hx))]
    exact Nat.lt_succ_of_lt (hg.curNow v x hx)
  · intro v b e he
    exact ⟨(hg.entFix v b e he).1, Nat.lt_succ_of_lt (hg.entFix v b e he).2⟩
  · intro v b e k he hk
    simp only [St.newId, Ghost.create]
    rw [hlt _ (hg.entFix v b e he).2]
    exact hg.entStamp v b e k he hk
  · intro b k hk; exact Nat.lt_succ_of_lt (hg.startLt b k hk)
  · intro b j hj
    exact ⟨Nat.le_succ_of_le (hg.stopLt b j hj).1, (hg.stopLt b j hj).2⟩
  · intro x t hx
    by_cases h : x = st.next
    · subst h
      simp only [St.newId, Function.update_self] at hx
      cases hx; exact hty
    · simp only [St.newId, Function.update_of_ne h] at hx
      exact hg.types x t hx

/-! ### New instructions -/

theorem modify_self (st : St) (b : BlockId) (f : BlockS → BlockS) : (st.modify b f).blocks b = f (st.blocks b) := by
  simp [St.modify]

theorem modify_ne (st : St) {b c : BlockId} (f : BlockS → BlockS) (h : c ≠ b) :
    (st.modify b f).blocks c = st.blocks c := by
  simp [St.modify, h]

theorem emit_phis (b : BlockId) (i : Instr) : ((st.emit i).blocks b).phis = (st.blocks b).phis := by
  unfold St.emit
  by_cases h : b = st.current
  · subst h; rw [modify_self]
  · rw [modify_ne _ _ h]

theorem emit_preds (b : BlockId) (i : Instr) : ((st.emit i).blocks b).preds = (st.blocks b).preds := by
  unfold St.emit
  by_cases h : b = st.current
  · subst h; rw [modify_self]
  · rw [modify_ne _ _ h]

theorem emit_term (b : BlockId) (i : Instr) : ((st.emit i).blocks b).term = (st.blocks b).term := by
  unfold St.emit
  by_cases h : b = st.current
  · subst h; rw [modify_self]
  · rw [modify_ne _ _ h]

theorem emit_instrs (b : BlockId) (i : Instr) :
    ((st.emit i).blocks b).instrs = (st.blocks b).instrs ++ (if b = st.current then [i] else []) := by
  unfold St.emit
  by_cases h : b = st.current
  · subst h; rw [modify_self]; simp
  · rw [modify_ne _ _ h]; simp [h]

theorem emit_good (hg : Good stk st) {i : Instr} (hi : isPhi i = false)
    (hd : ∀ d ∈ i.destinations, d < st.next ∧ st.g.phi d = none) : Good stk (st.emit i) := by
  refine { hg with phis := ?_, nodup := ?_, dests := ?_, entry := ?_, waiting := ?_, stack := ?_, edge := ?_,
                   forward := ?_, unstarted := ?_, beyond := ?_ }
  · intro b φ hφ; rw [emit_phis] at hφ; exact hg.phis b φ hφ
  · intro b; rw [emit_phis]; exact hg.nodup b
  · intro b j hj
    rw [emit_instrs, List.mem_append] at hj
    rcases hj with hj | hj
    · exact hg.dests b j hj
    · split at hj
      · cases List.mem_singleton.1 hj; exact ⟨hi, hd⟩
      · cases hj
  · intro v b e he
    have := hg.entry v b e he
    simp only [St.Open, St.PhiOk, St.Pass, St.HasPhi, emit_phis, emit_preds] at this ⊢
    exact this
  · intro v b p hp
    have := hg.waiting v b p hp
    simp only [St.HasPhi, emit_phis] at this ⊢
    exact this
  · intro v b p hp
    have := hg.stack v b p hp
    simp only [St.HasPhi, emit_phis] at this ⊢
    exact this
  · intro a b; rw [emit_preds, emit_term]; exact hg.edge a b
  · intro b k hk; rw [emit_preds]; exact hg.forward b k hk
  · intro b hb
    have hc : b ≠ st.current := by
      rintro rfl
      obtain ⟨k, hk⟩ := hg.running.2
      rw [show (st.emit i).g = st.g from rfl] at hb
      rw [hk] at hb; cases hb
    rw [emit_phis, emit_term, emit_instrs]
    have := hg.unstarted b hb
    simp only [hc, if_false, List.append_nil]
    exact this
  · intro b hb; rw [emit_preds]; exact hg.beyond b hb

theorem emit_ext (hg : Good stk st) (hopen : st.terminated = false) (i : Instr) :
    Ext st (st.emit i) ∧ Keep st (st.emit i) := by
  refine ⟨{ (Ext.refl hg) with instrs := ?_, term := ?_ }, { (Keep.refl hg) with }⟩
  · intro b k _
    refine ⟨(if b = st.current then [i] else []).map (Instr.rename st.g.sub), ?_, ?_⟩
    · rw [emit_instrs, List.map_append]; rfl
    · intro hb
      by_cases h : b = st.current
      · subst h
        rcases hb with hb | hb
        · exact absurd rfl hb
        · simp [St.terminated] at hopen; exact absurd hopen hb
      · simp [h]
  · intro b _; rw [emit_term]

/-! ### New blocks -/

theorem newBlock_empty (hg : Good stk st) : (st.blocks st.count).phis = [] ∧ (st.blocks st.count).instrs = [] ∧
    (st.blocks st.count).term = .Unreachable ∧ (st.blocks st.count).preds = [] := by
  obtain ⟨h1, h2, _⟩ := hg.beyond st.count le_rfl
  obtain ⟨h3, h4, h5, _⟩ := hg.unstarted _ h1
  exact ⟨h3, h4, h5, h2⟩

theorem newBlock_same (hg : Good stk st) : st.newBlock.2 = { st with count := st.count + 1 } := by
  have h := newBlock_empty hg
  have : Function.update st.blocks st.count .empty = st.blocks := by
    funext b
    by_cases hb : b = st.count
    · subst hb
      simp only [Function.update_self, BlockS.empty]
      cases hh : st.blocks st.count with
      | mk a b c d => rw [hh] at h; simp only at h; simp [h]
    · simp [hb]
  unfold St.newBlock
  simp only
  rw [this]

theorem newBlock_good (hg : Good stk st) :
    Good stk st.newBlock.2 ∧ Ext st st.newBlock.2 ∧ Keep st st.newBlock.2 := by
  rw [newBlock_same hg]
  refine ⟨{ hg with beyond := ?_ }, { (Ext.refl hg) with count := ?_ }, { (Keep.refl hg) with }⟩
  · intro b hb; exact hg.beyond b (by simp only at hb; omega)
  · simp

/-! ### Change of the current block -/

theorem switch_good (hg : Good stk st) {b : BlockId} (hb : b < st.count) (hs : st.g.start b = none)
    (hp : st.sealed b = true ∨ (st.blocks b).preds ≠ []) :
    Good stk (st.switch b) ∧ Ext st (st.switch b) := by
  have hne : b ≠ st.current := by
    rintro rfl
    obtain ⟨k, hk⟩ := hg.running.2
    rw [hk] at hs; cases hs
  have hst : ∀ c k, st.g.start c = some k → (st.switch b).g.start c = some k := by
    intro c k hk
    have : c ≠ b := by rintro rfl; rw [hk] at hs; cases hs
    simp [St.switch, Ghost.switch, this, hk]
  have hst' : ∀ c, c ≠ b → (st.switch b).g.start c = st.g.start c := by
    intro c hc; simp [St.switch, Ghost.switch, hc]
  have hstb : (st.switch b).g.start b = some st.g.clock := by simp [St.switch, Ghost.switch]
  have hsp : ∀ c, c ≠ st.current → (st.switch b).g.stop c = st.g.stop c := by
    intro c hc; simp [St.switch, Ghost.switch, hc]
  have hspc : (st.switch b).g.stop st.current = some st.g.clock := by simp [St.switch, Ghost.switch]
  have hstop : ∀ c j, st.g.stop c = some j → (st.switch b).g.stop c = some j := by
    intro c j hj
    rw [hsp c]
    · exact hj
    · rintro rfl; rw [hg.running.1] at hj; cases hj
  have hcurb : ∀ v, st.cur v b = none := by
    intro v
    cases h : st.cur v b with
    | none => rfl
    | some x => obtain ⟨k, hk⟩ := hg.curStart v b x h; rw [hk] at hs; cases hs
  have hentb : ∀ v, st.g.ent v b = none := by
    intro v
    cases h : st.g.ent v b with
    | none => rfl
    | some e => obtain ⟨x, hx⟩ := hg.entCur v b e h; rw [hcurb] at hx; cases hx
  have hstopb : st.g.stop b = none := by
    cases h : st.g.stop b with
    | none => rfl
    | some j => obtain ⟨_, k, hk, _⟩ := hg.stopLt b j h; rw [hk] at hs; cases hs
  constructor
  · refine { hg with phis := ?_, curStart := ?_, curStop := ?_, curNow := ?_, entStamp := ?_, forward := ?_,
                     startLt := ?_, stopLt := ?_, stopped := ?_, running := ?_, unstarted := ?_, beyond := ?_ }
    · intro c φ hφ
      obtain ⟨h1, h2, h3, h4, h5⟩ := hg.phis c φ hφ
      exact ⟨h1, h2, h3, hst _ _ h4, h5⟩
    · intro v c x hx
      obtain ⟨k, hk⟩ := hg.curStart v c x hx
      exact ⟨k, hst _ _ hk⟩
    · intro v c x j hx hj
      by_cases hc : c = st.current
      · subst hc
        rw [hspc] at hj; cases hj
        exact hg.curNow v x hx
      · rw [hsp c hc] at hj
        exact hg.curStop v c x j hx hj
    · intro v x hx
      have : st.cur v b = some x := hx
      rw [hcurb] at this; cases this
    · intro v c e k he hk
      by_cases hc : c = b
      · subst hc
        have : st.g.ent v c = some e := he
        rw [hentb] at this; cases this
      · rw [hst' c hc] at hk
        exact hg.entStamp v c e k he hk
    · intro c k hk
      by_cases hc : c = b
      · subst hc
        rw [hstb] at hk; cases hk
        by_cases hpe : (st.blocks c).preds = []
        · exact .inl ⟨hp.resolve_right (fun h => h hpe), hpe⟩
        · right
          obtain ⟨e, he⟩ := List.exists_mem_of_ne_nil _ hpe
          refine ⟨e, he, ?_⟩
          by_cases hec : e = st.current
          · subst hec; exact ⟨_, hspc, le_rfl⟩
          · have hse : ∃ k, st.g.start e = some k := by
              cases h : st.g.start e with
              | some k => exact ⟨k, rfl⟩
              | none =>
                have h1 := (hg.unstarted e h).2.2.1
                have h2 := (hg.edge e c).1 he
                rw [h1] at h2; simp [Terminator.targets] at h2
            obtain ⟨k, hk⟩ := hse
            obtain ⟨j, hj⟩ := hg.stopped e k hk hec
            exact ⟨j, hstop e j hj, (hg.stopLt e j hj).1⟩
      · rw [hst' c hc] at hk
        rcases hg.forward c k hk with h | ⟨e, he, j, hj, hjk⟩
        · exact .inl h
        · exact .inr ⟨e, he, j, hstop e j hj, hjk⟩
    · intro c k hk
      by_cases hc : c = b
      · subst hc; rw [hstb] at hk; cases hk; simp [St.switch, Ghost.switch]
      · rw [hst' c hc] at hk
        exact Nat.lt_succ_of_lt (hg.startLt c k hk)
    · intro c j hj
      by_cases hc : c = st.current
      · subst hc
        rw [hspc] at hj; cases hj
        obtain ⟨k, hk⟩ := hg.running.2
        exact ⟨Nat.le_succ _, k, hst _ _ hk, hg.startLt _ k hk⟩
      · rw [hsp c hc] at hj
        obtain ⟨h1, k, hk, h2⟩ := hg.stopLt c j hj
        exact ⟨Nat.le_succ_of_le h1, k, hst _ _ hk, h2⟩
    · intro c k hk hc
      have hcb : c ≠ b := hc
      rw [hst' c hcb] at hk
      by_cases h : c = st.current
      · subst h; exact ⟨_, hspc⟩
      · obtain ⟨j, hj⟩ := hg.stopped c k hk h
        exact ⟨j, hstop c j hj⟩
    · refine ⟨?_, _, hstb⟩
      show (st.switch b).g.stop b = none
      rw [hsp b hne, hstopb]
    · intro c hc
      have hcb : c ≠ b := by rintro rfl; rw [hstb] at hc; cases hc
      rw [hst' c hcb] at hc
      exact hg.unstarted c hc
    · intro c hc
      have hcb : c ≠ b := by rintro rfl; exact absurd hb (Nat.not_lt.2 hc)
      rw [hst' c hcb]
      exact hg.beyond c hc
  · refine { (Ext.refl hg) with start := ?_, clock := ?_, current := ?_ }
    · exact hst
    · exact Nat.le_succ _
    · exact .inr hs

/-! ### Terminators -/

theorem connect_blocks {a b c : BlockId} {st' : St} (h : st.connect a b = some st') :
    b < st.count ∧ (st'.blocks c).phis = (st.blocks c).phis ∧ (st'.blocks c).instrs = (st.blocks c).instrs ∧
      (st'.blocks c).term = (st.blocks c).term ∧
      (∀ x, x ∈ (st'.blocks c).preds ↔ x ∈ (st.blocks c).preds ∨ (c = b ∧ x = a)) ∧
      (c ≠ b → (st'.blocks c).preds = (st.blocks c).preds) ∧
      st' = { st with blocks := st'.blocks } := by
  unfold St.connect at h
  split at h
  · rename_i hb
    cases h
    refine ⟨hb, ?_⟩
    by_cases hc : c = b
    · subst hc
      rw [modify_self]
      refine ⟨rfl, rfl, rfl, ?_, fun h => absurd rfl h, rfl⟩
      intro x
      simp only
      split
      · rename_i ha
        constructor
        · exact .inl
        · rintro (h | ⟨_, rfl⟩)
          · exact h
          · exact ha
      · simp
    · rw [modify_ne _ _ hc]
      exact ⟨rfl, rfl, rfl, fun x => by simp [hc], fun _ => rfl, rfl⟩
  · cases h

theorem connects_blocks {a : BlockId} (ts : List BlockId) {st st' : St}
    (h : ts.foldlM (fun st b => st.connect a b) st = some st') (c : BlockId) :
    (∀ b ∈ ts, b < st.count) ∧ (st'.blocks c).phis = (st.blocks c).phis ∧
      (st'.blocks c).instrs = (st.blocks c).instrs ∧
      (st'.blocks c).term = (st.blocks c).term ∧
      (∀ x, x ∈ (st'.blocks c).preds ↔ x ∈ (st.blocks c).preds ∨ (c ∈ ts ∧ x = a)) ∧
      (c ∉ ts → (st'.blocks c).preds = (st.blocks c).preds) ∧
      st' = { st with blocks := st'.blocks } := by
  induction ts generalizing st with
  | nil =>
    simp only [List.foldlM_nil] at h
    cases h
    simp
  | cons t ts ih =>
    rw [List.foldlM_cons] at h
    cases h1 : st.connect a t with
    | none => rw [h1] at h; cases h
    | some s1 =>
      rw [h1] at h
      obtain ⟨a1, a2, a3, a4, a5, a6, a7⟩ := connect_blocks (c := c) h1
      obtain ⟨b1, b2, b3, b4, b5, b6, b7⟩ := ih h
      have hcount : s1.count = st.count := by rw [a7]
      refine ⟨?_, b2.trans a2, b3.trans a3, b4.trans a4, ?_, ?_, ?_⟩
      · intro b hb
        rcases List.mem_cons.1 hb with rfl | hb
        · exact a1
        · rw [← hcount]; exact b1 b hb
      · intro x
        rw [b5, a5]
        simp only [List.mem_cons]
        tauto
      · intro hc
        simp only [List.mem_cons, not_or] at hc
        rw [b6 hc.2, a6 hc.1]
      · rw [b7]
        conv_lhs => rw [a7]

/-- The blocks after a terminator has been set on a block without one. -/
theorem setTerm_blocks {a : BlockId} {t : Terminator} {st' : St} (ha : (st.blocks a).term = .Unreachable)
    (h : st.setTerm a t = some st') (c : BlockId) :
    (∀ b ∈ t.targets, b < st.count) ∧ (st'.blocks c).phis = (st.blocks c).phis ∧
      (st'.blocks c).instrs = (st.blocks c).instrs ∧
      (st'.blocks c).term = (if c = a then t else (st.blocks c).term) ∧
      (∀ x, x ∈ (st'.blocks c).preds ↔ x ∈ (st.blocks c).preds ∨ (c ∈ t.targets ∧ x = a)) ∧
      (c ∉ t.targets → (st'.blocks c).preds = (st.blocks c).preds) ∧
      st' = { st with blocks := st'.blocks } := by
  unfold St.setTerm at h
  simp only [ha, Terminator.targets, List.foldl_nil] at h
  obtain ⟨b1, b2, b3, b4, b5, b6, b7⟩ := connects_blocks _ h c
  by_cases hc : c = a
  · subst hc
    rw [modify_self] at b2 b3 b4 b5 b6
    refine ⟨b1, b2, b3, ?_, b5, b6, ?_⟩
    · rw [b4]; simp
    · rw [b7]; rfl
  · rw [modify_ne _ _ hc] at b2 b3 b4 b5 b6
    refine ⟨b1, b2, b3, ?_, b5, b6, ?_⟩
    · rw [b4]; simp [hc]
    · rw [b7]; rfl

theorem setTerm_good (hg : Good stk st) {a : BlockId} {t : Terminator} {st' : St}
    (ha : (st.blocks a).term = .Unreachable) (hs : ∃ k, st.g.start a = some k)
    (ht : ∀ b ∈ t.targets, st.g.start b = none ∨ st.sealed b = false)
    (h : st.setTerm a t = some st') :
    Good stk st' ∧ Ext st st' ∧ Keep st st' := by
  have hblk := setTerm_blocks ha h
  have h7 := (hblk 0).2.2.2.2.2.2
  have hlt := (hblk 0).1
  have hn : st'.next = st.next := by rw [h7]
  have hcount : st'.count = st.count := by rw [h7]
  have hty : st'.types = st.types := by rw [h7]
  have hcur : st'.cur = st.cur := by rw [h7]
  have hinc : st'.incomplete = st.incomplete := by rw [h7]
  have hsl : st'.sealed = st.sealed := by rw [h7]
  have hcu : st'.current = st.current := by rw [h7]
  have hgg : st'.g = st.g := by rw [h7]
  have hph : ∀ c, (st'.blocks c).phis = (st.blocks c).phis := fun c => (hblk c).2.1
  have hin : ∀ c, (st'.blocks c).instrs = (st.blocks c).instrs := fun c => (hblk c).2.2.1
  have htm : ∀ c, (st'.blocks c).term = (if c = a then t else (st.blocks c).term) := fun c => (hblk c).2.2.2.1
  have hpr : ∀ c x, x ∈ (st'.blocks c).preds ↔ x ∈ (st.blocks c).preds ∨ (c ∈ t.targets ∧ x = a) :=
    fun c => (hblk c).2.2.2.2.1
  have hpe : ∀ c, c ∉ t.targets → (st'.blocks c).preds = (st.blocks c).preds := fun c => (hblk c).2.2.2.2.2.1
  have hnorm : ∀ v c, st'.norm v c = st.norm v c := by intro v c; simp [St.norm, hcur, hgg]
  have hhp : ∀ c p ss, st'.HasPhi c p ss ↔ st.HasPhi c p ss := by intro c p ss; simp [St.HasPhi, hph]
  have hstart : ∀ v b e, st.g.ent v b = some e → ∃ k, st.g.start b = some k := by
    intro v b e he
    obtain ⟨x, hx⟩ := hg.entCur v b e he
    exact hg.curStart v b x hx
  have hkeep : ∀ v b e, st.g.ent v b = some e → st.sealed b = true → (st'.blocks b).preds = (st.blocks b).preds := by
    intro v b e he hsb
    apply hpe
    intro hb
    obtain ⟨k, hk⟩ := hstart v b e he
    rcases ht b hb with h | h
    · rw [hk] at h; cases h
    · rw [hsb] at h; cases h
  refine ⟨?_, ?_, ?_⟩
  · constructor
    case idem => rw [hgg]; exact hg.idem
    case subFresh => rw [hgg, hn]; exact hg.subFresh
    case subLt => rw [hgg, hn]; exact hg.subLt
    case subPlain => rw [hgg]; exact hg.subPlain
    case phiFresh => rw [hgg, hn]; exact hg.phiFresh
    case phis => intro b φ hφ; rw [hph] at hφ; rw [hgg, hn]; exact hg.phis b φ hφ
    case nodup => intro b; rw [hph]; exact hg.nodup b
    case dests => intro b i hi; rw [hin] at hi; rw [hgg, hn]; exact hg.dests b i hi
    case curLt => rw [hcur, hn]; exact hg.curLt
    case curStart => rw [hcur, hgg]; exact hg.curStart
    case curStop => rw [hcur, hgg]; exact hg.curStop
    case curNow => rw [hcur, hgg, hcu]; exact hg.curNow
    case entCur => rw [hcur, hgg]; exact hg.entCur
    case entFix => rw [hgg, hn]; exact hg.entFix
    case entStamp => rw [hgg]; exact hg.entStamp
    case entry =>
      intro v b e he
      rw [hgg] at he
      rcases hg.entry v b e he with h | h | h
      · left; simp only [St.Open, hhp, hgg, hinc] at h ⊢; exact h
      · right; left
        simp only [St.PhiOk, hhp, hgg, hsl, hnorm, hkeep v b e he h.1] at h ⊢; exact h
      · right; right
        simp only [St.Pass, hsl, hnorm, hkeep v b e he h.1] at h ⊢; exact h
    case waiting => intro v b p hp; rw [hinc] at hp; rw [hsl, hgg, hhp]; exact hg.waiting v b p hp
    case waitNodup => rw [hinc]; exact hg.waitNodup
    case stack => intro v b p hp; rw [hsl, hgg, hhp]; exact hg.stack v b p hp
    case stackNodup => exact hg.stackNodup
    case edge =>
      intro x b
      rw [hpr, htm, hg.edge]
      split
      · rename_i hx; subst hx; rw [ha]; simp [Terminator.targets]
      · rename_i hx; simp [hx]
    case forward =>
      intro b k hk
      rw [hgg] at hk
      rw [hsl, hgg]
      rcases hg.forward b k hk with h | ⟨e, he, j, hj, hjk⟩
      · by_cases hb : b ∈ t.targets
        · rcases ht b hb with h' | h'
          · rw [hk] at h'; cases h'
          · rw [h.1] at h'; cases h'
        · left; rw [hpe b hb]; exact h
      · right
        exact ⟨e, (hpr b e).2 (.inl he), j, hj, hjk⟩
    case startLt => rw [hgg]; exact hg.startLt
    case stopLt => rw [hgg]; exact hg.stopLt
    case stopped => rw [hgg, hcu]; exact hg.stopped
    case running => rw [hgg, hcu]; exact hg.running
    case unstarted =>
      intro b hb
      rw [hgg] at hb
      rw [hph, hin, htm, hinc]
      have hne : b ≠ a := by rintro rfl; obtain ⟨k, hk⟩ := hs; rw [hk] at hb; cases hb
      simpa [hne] using hg.unstarted b hb
    case beyond =>
      intro b hb
      rw [hcount] at hb
      rw [hgg, hsl]
      have : b ∉ t.targets := fun h => absurd (hlt b h) (Nat.not_lt.2 hb)
      rw [hpe b this]; exact hg.beyond b hb
    case types => rw [hty]; exact hg.types
  · have hr := Ext.refl hg
    constructor
    case sub => rw [hgg]; exact hr.sub
    case next => rw [hn]
    case count => rw [hcount]
    case phi => rw [hgg]; exact hr.phi
    case stamp => rw [hgg]; exact hr.stamp
    case down => rw [hgg]; exact hr.down
    case types => rw [hty]; exact hr.types
    case start => rw [hgg]; exact hr.start
    case clock => rw [hgg]
    case ent => rw [hgg]; exact hr.ent
    case cur => intro v b k hk hb; rw [hnorm, hgg]; exact hr.cur v b k hk hb
    case instrs => intro b k hk; exact ⟨[], by rw [hin]; simp, fun _ => rfl⟩
    case term =>
      intro b hb
      rw [htm]
      split
      · rename_i hba; subst hba; exact absurd ha hb
      · rfl
    case current => exact .inl hcu
  · exact ⟨hcu, fun v => by rw [hnorm, hgg]; exact (Keep.refl hg).cur v⟩

/-! ### Assignment to a variable -/

theorem write_good (hg : Good stk st) (hopen : st.terminated = false) {x : Var} {id : ValueId} (hid : id < st.next)
    (hstamp : st.g.stamp (st.g.sub id) < st.g.clock) :
    Good stk (st.write x st.current id) ∧ Ext st (st.write x st.current id) := by
  have hterm : (st.blocks st.current).term = .Unreachable := by simpa [St.terminated] using hopen
  have hcur : ∀ v b, (st.write x st.current id).cur v b =
      if v = x ∧ b = st.current then some id else st.cur v b := by
    intro v b
    simp only [St.write, Function.update]
    by_cases hv : v = x
    · subst hv
      by_cases hb : b = st.current <;> simp [hb]
    · simp [hv]
  have hnp : ∀ b a, a ∈ (st.blocks b).preds → a ≠ st.current := by
    rintro b a ha rfl
    have := (hg.edge _ b).1 ha
    rw [hterm] at this
    simp [Terminator.targets] at this
  have hnorm : ∀ v b, b ≠ st.current → (st.write x st.current id).norm v b = st.norm v b := by
    intro v b hb
    simp [St.norm, hcur, hb]
    rfl
  constructor
  · refine { hg with curLt := ?_, curStart := ?_, curStop := ?_, curNow := ?_, entCur := ?_, entry := ?_ }
    · intro v b y hy
      rw [hcur] at hy
      split at hy
      · cases hy; exact hid
      · exact hg.curLt v b y hy
    · intro v b y hy
      rw [hcur] at hy
      split at hy
      · rename_i h; rw [h.2]; exact hg.running.2
      · exact hg.curStart v b y hy
    · intro v b y j hy hj
      rw [hcur] at hy
      split at hy
      · rename_i h
        rw [h.2] at hj
        have := hg.running.1
        rw [show (st.write x st.current id).g = st.g from rfl] at hj
        rw [hj] at this; cases this
      · exact hg.curStop v b y j hy hj
    · intro v y hy
      rw [show (st.write x st.current id).current = st.current from rfl, hcur] at hy
      split at hy
      · cases hy; exact hstamp
      · exact hg.curNow v y hy
    · intro v b e he
      rw [hcur]
      split
      · exact ⟨_, rfl⟩
      · exact hg.entCur v b e he
    · intro v b e he
      rcases hg.entry v b e he with h | h | h
      · exact .inl h
      · right; left
        obtain ⟨h1, h2, h3, ss, h4, h5⟩ := h
        refine ⟨h1, h2, h3, ss, h4, ?_⟩
        intro a ha
        rw [hnorm v a (hnp b a ha)]
        exact h5 a ha
      · right; right
        obtain ⟨h1, h2, h3⟩ := h
        refine ⟨h1, h2, ?_⟩
        intro a ha
        rw [hnorm v a (hnp b a ha)]
        exact h3 a ha
  · refine { (Ext.refl hg) with cur := ?_ }
    intro v b k hk hb
    have hbc : b ≠ st.current := by
      rintro rfl
      rcases hb with hb | hb
      · exact hb rfl
      · exact hb hterm
    rw [hnorm v b hbc]
    exact (Ext.refl hg).cur v b k hk (.inl hbc)

end Lower
end CairoM
