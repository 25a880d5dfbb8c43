import Verif.LoweringOps

/-!
# The lowering: reading a variable keeps the invariant

Helper lemmas.
-/

namespace CairoM
namespace Lower

open Mir Lang Source

variable {stk : List (Var × BlockId × ValueId)} {st : St}

/-- What reading variables changes. -/
structure Read (s t : St) : Prop where
  sub : ∀ x, t.g.sub (s.g.sub x) = t.g.sub x
  next : s.next ≤ t.next
  phi : ∀ x, x < s.next → t.g.phi x = s.g.phi x
  stamp : ∀ x, x < s.next → t.g.stamp x = s.g.stamp x
  down : ∀ x, x < s.next → t.g.stamp (t.g.sub x) ≤ s.g.stamp (s.g.sub x)
  types : ∀ x, x < s.next → t.types x = s.types x
  ent : ∀ v b e, s.g.ent v b = some e → t.g.ent v b = some (t.g.sub e)
  cur : ∀ v b, t.norm v b = ((s.cur v b).map t.g.sub).or (t.g.ent v b)
  instrs : ∀ b, (t.blocks b).instrs.map (Instr.rename t.g.sub) = (s.blocks b).instrs.map (Instr.rename t.g.sub)
  term : ∀ b, Terminator.rename t.g.sub (t.blocks b).term = Terminator.rename t.g.sub (s.blocks b).term
  preds : ∀ b, (t.blocks b).preds = (s.blocks b).preds
  count : t.count = s.count
  sealed : t.sealed = s.sealed
  current : t.current = s.current
  loops : t.loops = s.loops
  start : t.g.start = s.g.start
  stop : t.g.stop = s.g.stop
  clock : t.g.clock = s.g.clock

theorem Read.toExt {s t : St} (h : Read s t) : Ext s t where
  sub := h.sub
  next := h.next
  count := h.count.ge
  phi := h.phi
  stamp := h.stamp
  down := h.down
  types := h.types
  start := fun b k hk => by rw [h.start]; exact hk
  clock := h.clock.ge
  ent := h.ent
  cur := fun v b _ _ _ => h.cur v b
  instrs := fun b _ _ => ⟨[], by rw [h.instrs]; simp, fun _ => rfl⟩
  term := fun b _ => h.term b
  current := .inl h.current

theorem Read.toKeep {s t : St} (h : Read s t) : Keep s t := ⟨h.current, fun v => h.cur v _⟩

theorem Read.refl (hg : Good stk st) : Read st st where
  sub := hg.idem
  next := le_rfl
  phi := fun _ _ => rfl
  stamp := fun _ _ => rfl
  down := fun _ _ => le_rfl
  types := fun _ _ => rfl
  ent := (Ext.refl hg).ent
  cur := fun v b => by
    unfold St.norm
    cases hc : st.cur v b with
    | some x => simp
    | none =>
      cases he : st.g.ent v b with
      | none => simp
      | some e => obtain ⟨x, hx⟩ := hg.entCur v b e he; simp [hc] at hx
  instrs := fun _ => rfl
  term := fun _ => rfl
  preds := fun _ => rfl
  count := rfl
  sealed := rfl
  current := rfl
  loops := rfl
  start := rfl
  stop := rfl
  clock := rfl

theorem Read.trans {s t u : St} (hst : Read s t) (htu : Read t u) : Read s u where
  sub x := by rw [← htu.sub, hst.sub, htu.sub]
  next := hst.next.trans htu.next
  phi x hx := by rw [htu.phi x (lt_of_lt_of_le hx hst.next), hst.phi x hx]
  stamp x hx := by rw [htu.stamp x (lt_of_lt_of_le hx hst.next), hst.stamp x hx]
  down x hx := (htu.down x (lt_of_lt_of_le hx hst.next)).trans (hst.down x hx)
  types x hx := by rw [htu.types x (lt_of_lt_of_le hx hst.next), hst.types x hx]
  ent v b e h := by rw [htu.ent v b _ (hst.ent v b e h), htu.sub]
  cur v b := by
    rw [htu.cur v b]
    have h2 : (t.cur v b).map u.g.sub = (t.norm v b).map u.g.sub := by
      unfold St.norm; cases t.cur v b <;> simp [htu.sub]
    rw [h2, hst.cur v b]
    cases hc : s.cur v b with
    | some x => simp [htu.sub]
    | none =>
      cases he : t.g.ent v b with
      | none => simp
      | some e => simp [htu.ent v b e he]
  instrs b := by
    rw [htu.instrs]
    have := congrArg (List.map (Instr.rename u.g.sub)) (hst.instrs b)
    simpa only [List.map_map, Function.comp_def, instr_rename_comp htu.sub] using this
  term b := by
    rw [htu.term, ← term_rename_comp htu.sub, hst.term, term_rename_comp htu.sub]
  preds b := (htu.preds b).trans (hst.preds b)
  count := htu.count.trans hst.count
  sealed := htu.sealed.trans hst.sealed
  current := htu.current.trans hst.current
  loops := htu.loops.trans hst.loops
  start := htu.start.trans hst.start
  stop := htu.stop.trans hst.stop
  clock := htu.clock.trans hst.clock

/-- A value known before stays the value. -/
theorem Read.norm {s t : St} (h : Read s t) {v b y} (hy : s.norm v b = some (s.g.sub y)) :
    t.norm v b = some (t.g.sub y) := by
  rw [h.cur]
  unfold St.norm at hy
  cases hc : s.cur v b with
  | none => simp [hc] at hy
  | some x =>
    simp only [hc, Option.map_some, Option.some.injEq] at hy
    simp only [Option.map_some, Option.some_or, Option.some.injEq]
    rw [← h.sub x, hy, h.sub]

/-! ### Writing an equivalent value -/

theorem write_cur (v : Var) (b : BlockId) (id : ValueId) (v' : Var) (b' : BlockId) :
    (st.write v b id).cur v' b' = if v' = v ∧ b' = b then some id else st.cur v' b' := by
  simp only [St.write, Function.update]
  by_cases hv : v' = v
  · subst hv
    by_cases hb : b' = b <;> simp [hb]
  · simp [hv]

theorem rewrite_good (hg : Good stk st) {v : Var} {b : BlockId} {id : ValueId} (hid : id < st.next)
    (hn : st.norm v b = some (st.g.sub id)) :
    Good stk (st.write v b id) ∧ Read st (st.write v b id) ∧ ∀ v' b', (st.write v b id).norm v' b' = st.norm v' b' := by
  have hg' : (st.write v b id).g = st.g := rfl
  have hnorm : ∀ v' b', (st.write v b id).norm v' b' = st.norm v' b' := by
    intro v' b'
    unfold St.norm
    rw [write_cur, hg']
    split
    · rename_i h; rw [h.1, h.2]; exact hn.symm
    · rfl
  obtain ⟨y, hy, hys⟩ : ∃ y, st.cur v b = some y ∧ st.g.sub y = st.g.sub id := by
    unfold St.norm at hn
    cases hc : st.cur v b with
    | none => simp [hc] at hn
    | some y => exact ⟨y, rfl, by simpa [hc] using hn⟩
  refine ⟨?_, ?_, hnorm⟩
  · refine { hg with curLt := ?_, curStart := ?_, curStop := ?_, curNow := ?_, entCur := ?_, entry := ?_ }
    · intro v' b' x hx
      rw [write_cur] at hx
      split at hx
      · cases hx; exact hid
      · exact hg.curLt v' b' x hx
    · intro v' b' x hx
      rw [write_cur] at hx
      split at hx
      · rename_i h; rw [h.2]; exact hg.curStart v b y hy
      · exact hg.curStart v' b' x hx
    · intro v' b' x j hx hj
      rw [write_cur] at hx
      split at hx
      · rename_i h; cases hx; rw [h.2] at hj; rw [hg', ← hys]; exact hg.curStop v b y j hy hj
      · exact hg.curStop v' b' x j hx hj
    · intro v' x hx
      rw [write_cur] at hx
      split at hx
      · rename_i h; cases hx; rw [hg', ← hys]
        have h2 : b = st.current := h.2.symm
        subst h2
        exact hg.curNow v y hy
      · exact hg.curNow v' x hx
    · intro v' b' e he
      rw [write_cur]
      split
      · exact ⟨_, rfl⟩
      · exact hg.entCur v' b' e he
    · intro v' b' e he
      rcases hg.entry v' b' e he with h | h | h
      · exact .inl h
      · right; left
        obtain ⟨h1, h2, h3, ss, h4, h5⟩ := h
        exact ⟨h1, h2, h3, ss, h4, fun a ha => by rw [hnorm]; exact h5 a ha⟩
      · right; right
        obtain ⟨h1, h2, h3⟩ := h
        exact ⟨h1, h2, fun a ha => by rw [hnorm]; exact h3 a ha⟩
  · refine { (Read.refl hg) with cur := ?_ }
    intro v' b'
    rw [hnorm]
    exact (Read.refl hg).cur v' b'

/-! ### A new phi node -/

/-- The state with a new phi node for `v` in `b`. -/
def St.withPhi (st : St) (v : Var) (b : BlockId) (ty : MirType) (inc : BlockId → List (Var × ValueId)) : St :=
  (St.modify
    { st with
      next := st.next + 1, types := Function.update st.types st.next (some ty)
      g := st.g.createPhi v b st.next, incomplete := inc } b
    fun blk => { blk with phis := blk.phis ++ [⟨st.next, ty, []⟩] }).write v b st.next

section
variable {v : Var} {b : BlockId} {ty : MirType} {inc : BlockId → List (Var × ValueId)}

theorem withPhi_phis (c : BlockId) : ((st.withPhi v b ty inc).blocks c).phis =
    (st.blocks c).phis ++ if c = b then [⟨st.next, ty, []⟩] else [] := by
  unfold St.withPhi St.write
  by_cases h : c = b
  · subst h; simp [St.modify]
  · simp [St.modify, h]

theorem withPhi_instrs (c : BlockId) : ((st.withPhi v b ty inc).blocks c).instrs = (st.blocks c).instrs := by
  unfold St.withPhi St.write
  by_cases h : c = b
  · subst h; simp [St.modify]
  · simp [St.modify, h]

theorem withPhi_term (c : BlockId) : ((st.withPhi v b ty inc).blocks c).term = (st.blocks c).term := by
  unfold St.withPhi St.write
  by_cases h : c = b
  · subst h; simp [St.modify]
  · simp [St.modify, h]

theorem withPhi_preds (c : BlockId) : ((st.withPhi v b ty inc).blocks c).preds = (st.blocks c).preds := by
  unfold St.withPhi St.write
  by_cases h : c = b
  · subst h; simp [St.modify]
  · simp [St.modify, h]

theorem withPhi_cur (v' : Var) (b' : BlockId) : (st.withPhi v b ty inc).cur v' b' =
    if v' = v ∧ b' = b then some st.next else st.cur v' b' := by
  unfold St.withPhi
  rw [write_cur]
  rfl

theorem withPhi_ent (v' : Var) (b' : BlockId) : (st.withPhi v b ty inc).g.ent v' b' =
    if v' = v ∧ b' = b then some st.next else st.g.ent v' b' := by
  simp only [St.withPhi, St.write, St.modify, Ghost.createPhi, Ghost.enter, Function.update]
  by_cases hv : v' = v
  · subst hv
    by_cases hb : b' = b <;> simp [hb]
  · simp [hv]

theorem withPhi_stamp {x : ValueId} (hx : x < st.next) :
    (st.withPhi v b ty inc).g.stamp x = st.g.stamp x := by
  simp [St.withPhi, St.write, St.modify, Ghost.createPhi, Nat.ne_of_lt hx]

theorem withPhi_phi {x : ValueId} (hx : x < st.next) :
    (st.withPhi v b ty inc).g.phi x = st.g.phi x := by
  simp [St.withPhi, St.write, St.modify, Ghost.createPhi, Nat.ne_of_lt hx]

theorem withPhi_good {stk' : List (Var × BlockId × ValueId)} (hg : Good stk st) (hcur : st.cur v b = none) {k : ℕ}
    (hk : st.g.start b = some k) (hty : (scalarTy ty).isSome = true)
    (hcase : (st.sealed b = true ∧ inc = st.incomplete ∧ stk' = (v, b, st.next) :: stk) ∨
      (st.sealed b = false ∧ inc = Function.update st.incomplete b (st.incomplete b ++ [(v, st.next)]) ∧ stk' = stk)) :
    Good stk' (st.withPhi v b ty inc) ∧ Read st (st.withPhi v b ty inc) := by
  have hent : st.g.ent v b = none := by
    cases h : st.g.ent v b with
    | none => rfl
    | some e => obtain ⟨x, hx⟩ := hg.entCur v b e h; rw [hcur] at hx; cases hx
  have hsub : (st.withPhi v b ty inc).g.sub = st.g.sub := rfl
  have hnext : (st.withPhi v b ty inc).next = st.next + 1 := rfl
  have hsl : (st.withPhi v b ty inc).sealed = st.sealed := rfl
  have hstart : (st.withPhi v b ty inc).g.start = st.g.start := rfl
  have hstop : (st.withPhi v b ty inc).g.stop = st.g.stop := rfl
  have hinc : (st.withPhi v b ty inc).incomplete = inc := rfl
  have hpp : (st.withPhi v b ty inc).g.phi st.next = some (v, b) := by
    simp [St.withPhi, St.write, St.modify, Ghost.createPhi]
  have hps : (st.withPhi v b ty inc).g.stamp st.next = k := by
    simp [St.withPhi, St.write, St.modify, Ghost.createPhi, hk]
  have hsp : st.g.sub st.next = st.next := hg.subFresh _ le_rfl
  have hhp : ∀ {c p ss}, st.HasPhi c p ss → (st.withPhi v b ty inc).HasPhi c p ss := by
    rintro c p ss ⟨φ, hφ, h⟩
    exact ⟨φ, by rw [withPhi_phis]; exact List.mem_append_left _ hφ, h⟩
  have hhpn : (st.withPhi v b ty inc).HasPhi b st.next [] := by
    refine ⟨⟨st.next, ty, []⟩, ?_, rfl, rfl⟩
    rw [withPhi_phis]; simp
  have hentb : (st.withPhi v b ty inc).g.ent v b = some st.next := by rw [withPhi_ent]; simp
  have hento : ∀ {v' b' e}, st.g.ent v' b' = some e → (st.withPhi v b ty inc).g.ent v' b' = some e := by
    intro v' b' e he
    rw [withPhi_ent]
    split
    · rename_i h; rw [h.1, h.2, hent] at he; cases he
    · exact he
  have hnorm : ∀ {v' b' y}, st.norm v' b' = some y → (st.withPhi v b ty inc).norm v' b' = some y := by
    intro v' b' y hy
    unfold St.norm at hy ⊢
    rw [withPhi_cur, hsub]
    split
    · rename_i h; rw [h.1, h.2, hcur] at hy; cases hy
    · exact hy
  have hphip : ∀ {x v' b'}, st.g.phi x = some (v', b') → (st.withPhi v b ty inc).g.phi x = some (v', b') := by
    intro x v' b' h
    rw [withPhi_phi]
    · exact h
    · by_contra hx
      rw [hg.phiFresh x (Nat.le_of_not_lt hx)] at h; cases h
  have hfresh : ∀ {v' p}, (v', p) ∈ st.incomplete b → p ≠ st.next := by
    rintro v' p hp rfl
    have := (hg.waiting v' b _ hp).2.2.1
    rw [hg.phiFresh _ le_rfl] at this; cases this
  have hstkfresh : ∀ {v' b' p}, (v', b', p) ∈ stk → p ≠ st.next := by
    rintro v' b' p hp rfl
    have := (hg.stack v' b' _ hp).2.2.1
    rw [hg.phiFresh _ le_rfl] at this; cases this
  have hincmem : ∀ {v' b' p}, (v', p) ∈ st.incomplete b' → (v', p) ∈ inc b' := by
    intro v' b' p hp
    rcases hcase with ⟨_, rfl, _⟩ | ⟨_, rfl, _⟩
    · exact hp
    · by_cases h : b' = b
      · subst h; simp [hp]
      · simpa [h] using hp
  have hstkmem : ∀ {x}, x ∈ stk → x ∈ stk' := by
    intro x hx
    rcases hcase with ⟨_, _, rfl⟩ | ⟨_, _, rfl⟩
    · exact List.mem_cons_of_mem _ hx
    · exact hx
  constructor
  · constructor
    case idem => exact hg.idem
    case subFresh => intro x hx; exact hg.subFresh x (Nat.le_of_succ_le hx)
    case subLt =>
      intro x hx
      rw [hsub, hnext] at *
      by_cases h : x < st.next
      · exact Nat.lt_succ_of_lt (hg.subLt x h)
      · rw [hg.subFresh x (Nat.le_of_not_lt h)]; exact hx
    case subPlain =>
      intro x hx
      by_cases h : x < st.next
      · rw [withPhi_phi h] at hx; exact hg.subPlain x hx
      · exact hg.subFresh x (Nat.le_of_not_lt h)
    case phiFresh =>
      intro x hx
      have hne : x ≠ st.next := by rintro rfl; exact absurd hx (Nat.not_succ_le_self _)
      simp only [St.withPhi, St.write, St.modify, Ghost.createPhi, Function.update_of_ne hne]
      exact hg.phiFresh x (Nat.le_of_succ_le hx)
    case phis =>
      intro c φ hφ
      rw [withPhi_phis, List.mem_append] at hφ
      rcases hφ with hφ | hφ
      · obtain ⟨h1, h2, ⟨v', h3, h3'⟩, h4, h5⟩ := hg.phis c φ hφ
        refine ⟨Nat.lt_succ_of_lt h1, h2, ⟨v', hphip h3, hento h3'⟩, ?_, h5⟩
        rw [withPhi_stamp h1]; exact h4
      · split at hφ
        · rename_i hc
          subst hc
          cases List.mem_singleton.1 hφ
          exact ⟨Nat.lt_succ_self _, hsp, ⟨v, hpp, hentb⟩, by rw [hps]; exact hk, hty⟩
        · cases hφ
    case nodup =>
      intro c
      rw [withPhi_phis]
      split
      · rw [List.map_append, List.nodup_append]
        refine ⟨hg.nodup c, by simp, ?_⟩
        intro x hx y hy
        obtain ⟨φ, hφ, rfl⟩ := List.mem_map.1 hx
        simp only [List.map_cons, List.map_nil, List.mem_singleton] at hy
        rw [hy]
        exact Nat.ne_of_lt (hg.phis c φ hφ).1
      · simpa using hg.nodup c
    case dests =>
      intro c i hi
      rw [withPhi_instrs] at hi
      obtain ⟨h1, h2⟩ := hg.dests c i hi
      exact ⟨h1, fun d hd => ⟨Nat.lt_succ_of_lt (h2 d hd).1, by rw [withPhi_phi (h2 d hd).1]; exact (h2 d hd).2⟩⟩
    case curLt =>
      intro v' b' x hx
      rw [withPhi_cur] at hx
      split at hx
      · cases hx; exact Nat.lt_succ_self _
      · exact Nat.lt_succ_of_lt (hg.curLt v' b' x hx)
    case curStart =>
      intro v' b' x hx
      rw [withPhi_cur] at hx
      split at hx
      · rename_i h; rw [h.2]; exact ⟨k, hk⟩
      · exact hg.curStart v' b' x hx
    case curStop =>
      intro v' b' x j hx hj
      rw [withPhi_cur] at hx
      rw [hsub]
      split at hx
      · rename_i h; cases hx
        rw [hsp, hps]
        rw [h.2, hstop] at hj
        obtain ⟨_, k', hk', h⟩ := hg.stopLt b j hj
        rw [hk] at hk'; cases hk'; exact h
      · rw [withPhi_stamp (hg.subLt x (hg.curLt v' b' x hx))]
        exact hg.curStop v' b' x j hx hj
    case curNow =>
      intro v' x hx
      rw [withPhi_cur] at hx
      rw [hsub]
      split at hx
      · cases hx
        rw [hsp, hps]
        exact hg.startLt b k hk
      · rw [withPhi_stamp (hg.subLt x (hg.curLt v' _ x hx))]
        exact hg.curNow v' x hx
    case entCur =>
      intro v' b' e he
      rw [withPhi_ent] at he
      rw [withPhi_cur]
      split
      · exact ⟨_, rfl⟩
      · rename_i h; rw [if_neg h] at he; exact hg.entCur v' b' e he
    case entFix =>
      intro v' b' e he
      rw [withPhi_ent] at he
      split at he
      · cases he; exact ⟨hsp, Nat.lt_succ_self _⟩
      · exact ⟨(hg.entFix v' b' e he).1, Nat.lt_succ_of_lt (hg.entFix v' b' e he).2⟩
    case entStamp =>
      intro v' b' e k' he hk'
      rw [withPhi_ent] at he
      split at he
      · rename_i h; cases he
        rw [h.2, hstart, hk] at hk'; cases hk'
        exact hps.le
      · rw [withPhi_stamp (hg.entFix v' b' e he).2]
        exact hg.entStamp v' b' e k' he hk'
    case entry =>
      intro v' b' e he
      rw [withPhi_ent] at he
      split at he
      · rename_i h; cases he
        left
        rw [h.1, h.2]
        refine ⟨hhpn, hpp, ?_⟩
        rcases hcase with ⟨_, _, rfl⟩ | ⟨_, rfl, _⟩
        · exact .inr (List.mem_cons_self ..)
        · left; rw [hinc]; simp
      · rcases hg.entry v' b' e he with h | h | h
        · left
          obtain ⟨h1, h2, h3⟩ := h
          exact ⟨hhp h1, hphip h2, h3.imp hincmem hstkmem⟩
        · right; left
          obtain ⟨h1, h2, h3, ss, h4, h5⟩ := h
          refine ⟨h1, by rw [withPhi_preds]; exact h2, hphip h3, ss, hhp h4, ?_⟩
          intro a ha
          rw [withPhi_preds] at ha
          obtain ⟨x, hx, hx'⟩ := h5 a ha
          exact ⟨x, hx, hnorm hx'⟩
        · right; right
          obtain ⟨h1, h2, h3⟩ := h
          refine ⟨h1, by rw [withPhi_preds]; exact h2, ?_⟩
          intro a ha
          rw [withPhi_preds] at ha
          exact hnorm (h3 a ha)
    case waiting =>
      intro v' b' p hp
      rw [hinc] at hp
      rw [hsl]
      have hold : (v', p) ∈ st.incomplete b' → st.sealed b' = false ∧
          (st.withPhi v b ty inc).g.ent v' b' = some p ∧ (st.withPhi v b ty inc).g.phi p = some (v', b') ∧
            (st.withPhi v b ty inc).HasPhi b' p [] := by
        intro h
        obtain ⟨h1, h2, h3, h4⟩ := hg.waiting v' b' p h
        exact ⟨h1, hento h2, hphip h3, hhp h4⟩
      rcases hcase with ⟨_, rfl, _⟩ | ⟨hs, rfl, _⟩
      · exact hold hp
      · by_cases h : b' = b
        · subst h
          simp only [Function.update_self, List.mem_append, List.mem_singleton, Prod.mk.injEq] at hp
          rcases hp with hp | ⟨rfl, rfl⟩
          · exact hold hp
          · exact ⟨hs, hentb, hpp, hhpn⟩
        · rw [Function.update_of_ne h] at hp; exact hold hp
    case waitNodup =>
      intro b'
      rw [hinc]
      rcases hcase with ⟨_, rfl, _⟩ | ⟨hs, rfl, _⟩
      · exact hg.waitNodup b'
      · by_cases h : b' = b
        · subst h
          rw [Function.update_self, List.nodup_append]
          refine ⟨hg.waitNodup b', by simp, ?_⟩
          rintro ⟨v', p⟩ hx y hy
          cases List.mem_singleton.1 hy
          intro h
          simp only [Prod.mk.injEq] at h
          exact hfresh hx h.2
        · rw [Function.update_of_ne h]; exact hg.waitNodup b'
    case stack =>
      intro v' b' p hp
      rw [hsl]
      have hold : (v', b', p) ∈ stk → st.sealed b' = true ∧
          (st.withPhi v b ty inc).g.ent v' b' = some p ∧ (st.withPhi v b ty inc).g.phi p = some (v', b') ∧
            (st.withPhi v b ty inc).HasPhi b' p [] := by
        intro h
        obtain ⟨h1, h2, h3, h4⟩ := hg.stack v' b' p h
        exact ⟨h1, hento h2, hphip h3, hhp h4⟩
      rcases hcase with ⟨hs, _, rfl⟩ | ⟨_, _, rfl⟩
      · rcases List.mem_cons.1 hp with h | h
        · cases h; exact ⟨hs, hentb, hpp, hhpn⟩
        · exact hold h
      · exact hold hp
    case stackNodup =>
      rcases hcase with ⟨hs, _, rfl⟩ | ⟨_, _, rfl⟩
      · exact List.nodup_cons.2 ⟨fun h => hstkfresh h rfl, hg.stackNodup⟩
      · exact hg.stackNodup
    case edge => intro a c; rw [withPhi_preds, withPhi_term]; exact hg.edge a c
    case forward => intro c k' hk'; rw [withPhi_preds]; exact hg.forward c k' hk'
    case startLt => exact hg.startLt
    case stopLt => exact hg.stopLt
    case stopped => exact hg.stopped
    case running => exact hg.running
    case unstarted =>
      intro c hc
      rw [hstart] at hc
      have hne : c ≠ b := by rintro rfl; rw [hk] at hc; cases hc
      rw [withPhi_phis, withPhi_instrs, withPhi_term, hinc]
      obtain ⟨h1, h2, h3, h4⟩ := hg.unstarted c hc
      refine ⟨by simp [hne, h1], h2, h3, ?_⟩
      rcases hcase with ⟨_, rfl, _⟩ | ⟨hs, rfl, _⟩
      · exact h4
      · rw [Function.update_of_ne hne]; exact h4
    case beyond => intro c hc; rw [withPhi_preds]; exact hg.beyond c hc
    case types =>
      intro x t hx
      by_cases h : x = st.next
      · subst h
        simp only [St.withPhi, St.write, St.modify, Function.update_self] at hx
        cases hx; exact hty
      · simp only [St.withPhi, St.write, St.modify, Function.update_of_ne h] at hx
        exact hg.types x t hx
  · have hr := Read.refl hg
    refine { hr with next := ?_, phi := ?_, stamp := ?_, down := ?_, types := ?_, ent := ?_, cur := ?_, instrs := ?_,
                     term := ?_, preds := ?_ }
    · exact Nat.le_succ _
    · intro x hx; exact withPhi_phi hx
    · intro x hx; exact withPhi_stamp hx
    · intro x hx; rw [hsub, withPhi_stamp (hg.subLt x hx)]
    · intro x hx
      simp [St.withPhi, St.write, St.modify, Nat.ne_of_lt hx]
    · intro v' b' e he; rw [hento he, hsub, (hg.entFix v' b' e he).1]
    · intro v' b'
      unfold St.norm
      rw [withPhi_cur, withPhi_ent, hsub]
      split
      · rename_i h; rw [h.1, h.2, hcur]; simp [hsp]
      · exact hr.cur v' b'
    · intro c; rw [withPhi_instrs]
    · intro c; rw [withPhi_term]
    · intro c; rw [withPhi_preds]

end

/-! ### The value of the only predecessor -/

theorem pass_good (hg : Good stk st) {v : Var} {b a : BlockId} {id : ValueId} {k : ℕ}
    (hk : st.g.start b = some k) (hs : st.sealed b = true) (hp : (st.blocks b).preds = [a])
    (hid : id < st.next) (hn : st.norm v a = some (st.g.sub id)) (hstk : ∀ e, (v, b, e) ∉ stk)
    (hb : st.norm v b = st.g.ent v b) :
    Good stk { st.write v b id with g := st.g.enter v b (st.g.sub id) } ∧
      Read st { st.write v b id with g := st.g.enter v b (st.g.sub id) } ∧
      St.norm { st.write v b id with g := st.g.enter v b (st.g.sub id) } v b = some (st.g.sub id) := by
  cases he : st.g.ent v b with
  | some e =>
    have hee : e = st.g.sub id := by
      rcases hg.entry v b e he with h | h | h
      · rcases h.2.2 with h | h
        · rw [(hg.waiting v b e h).1] at hs; cases hs
        · exact absurd h (hstk e)
      · exact absurd (by rw [hp]; rfl) h.2.1
      · have := h.2.2 a (by rw [hp]; simp)
        rw [hn] at this; exact (Option.some.inj this).symm
    have hself : st.g.enter v b (st.g.sub id) = st.g := by
      unfold Ghost.enter
      have : Function.update st.g.ent v (Function.update (st.g.ent v) b (some (st.g.sub id))) = st.g.ent := by
        rw [← hee, ← he]; simp
      rw [this]
    have hst : ({ st.write v b id with g := st.g.enter v b (st.g.sub id) } : St) = st.write v b id := by
      rw [hself]; rfl
    rw [hst]
    have hnb : st.norm v b = some (st.g.sub id) := by rw [hb, he, hee]
    obtain ⟨h1, h2, h3⟩ := rewrite_good hg hid hnb
    exact ⟨h1, h2, by rw [h3, hnb]⟩
  | none =>
    have hcur : st.cur v b = none := by
      rw [he] at hb
      unfold St.norm at hb
      simpa using hb
    generalize ht : ({ st.write v b id with g := st.g.enter v b (st.g.sub id) } : St) = t
    have hcurt : ∀ v' b', t.cur v' b' = if v' = v ∧ b' = b then some id else st.cur v' b' := by
      intro v' b'; rw [← ht]; exact write_cur v b id v' b'
    have hentt : ∀ v' b', t.g.ent v' b' = if v' = v ∧ b' = b then some (st.g.sub id) else st.g.ent v' b' := by
      intro v' b'
      rw [← ht]
      simp only [Ghost.enter, Function.update]
      by_cases hv : v' = v
      · subst hv
        by_cases hb : b' = b <;> simp [hb]
      · simp [hv]
    have hsub : t.g.sub = st.g.sub := by rw [← ht]; rfl
    have hnorm : ∀ {v' b' y}, st.norm v' b' = some y → t.norm v' b' = some y := by
      intro v' b' y hy
      unfold St.norm at hy ⊢
      rw [hcurt, hsub]
      split
      · rename_i h; rw [h.1, h.2, hcur] at hy; cases hy
      · exact hy
    have hlt : st.g.stamp (st.g.sub id) ≤ k := by
      rcases hg.forward b k hk with h | ⟨e, he, j, hj, hjk⟩
      · rw [hp] at h; cases h.2
      · rw [hp, List.mem_singleton] at he
        subst he
        unfold St.norm at hn
        cases hc : st.cur v e with
        | none => simp [hc] at hn
        | some y =>
          simp only [hc, Option.map_some, Option.some.injEq] at hn
          have := hg.curStop v e y j hc hj
          rw [hn] at this
          exact le_of_lt (lt_of_lt_of_le this hjk)
    have hblk : t.blocks = st.blocks := by rw [← ht]; rfl
    have hsl : t.sealed = st.sealed := by rw [← ht]; rfl
    have hinc : t.incomplete = st.incomplete := by rw [← ht]; rfl
    have hnext : t.next = st.next := by rw [← ht]; rfl
    have hphi : t.g.phi = st.g.phi := by rw [← ht]; rfl
    have hstamp : t.g.stamp = st.g.stamp := by rw [← ht]; rfl
    have hstart : t.g.start = st.g.start := by rw [← ht]; rfl
    have hstop : t.g.stop = st.g.stop := by rw [← ht]; rfl
    have hclock : t.g.clock = st.g.clock := by rw [← ht]; rfl
    have hcurrent : t.current = st.current := by rw [← ht]; rfl
    have hcount : t.count = st.count := by rw [← ht]; rfl
    have htypes : t.types = st.types := by rw [← ht]; rfl
    have hloops : t.loops = st.loops := by rw [← ht]; rfl
    have hento : ∀ {v' b' e}, st.g.ent v' b' = some e → t.g.ent v' b' = some e := by
      intro v' b' e h
      rw [hentt]
      split
      · rename_i h'; rw [h'.1, h'.2, he] at h; cases h
      · exact h
    have hhp : ∀ {c p ss}, st.HasPhi c p ss → t.HasPhi c p ss := by
      intro c p ss h; unfold St.HasPhi at h ⊢; rw [hblk]; exact h
    refine ⟨?_, ?_, ?_⟩
    · constructor
      case idem => rw [hsub]; exact hg.idem
      case subFresh => rw [hsub, hnext]; exact hg.subFresh
      case subLt => rw [hsub, hnext]; exact hg.subLt
      case subPlain => rw [hsub, hphi]; exact hg.subPlain
      case phiFresh => rw [hnext, hphi]; exact hg.phiFresh
      case phis =>
        intro c φ hφ
        rw [hblk] at hφ
        obtain ⟨h1, h2, ⟨v', h3, h4⟩, h5⟩ := hg.phis c φ hφ
        rw [hnext, hsub, hphi, hstart, hstamp]
        exact ⟨h1, h2, ⟨v', h3, hento h4⟩, h5⟩
      case nodup => rw [hblk]; exact hg.nodup
      case dests => rw [hblk, hnext, hphi]; exact hg.dests
      case curLt =>
        intro v' b' x hx
        rw [hcurt] at hx
        rw [hnext]
        split at hx
        · cases hx; exact hid
        · exact hg.curLt v' b' x hx
      case curStart =>
        intro v' b' x hx
        rw [hcurt] at hx
        rw [hstart]
        split at hx
        · rename_i h; rw [h.2]; exact ⟨k, hk⟩
        · exact hg.curStart v' b' x hx
      case curStop =>
        intro v' b' x j hx hj
        rw [hcurt] at hx
        rw [hstop] at hj
        rw [hstamp, hsub]
        split at hx
        · rename_i h; cases hx
          rw [h.2] at hj
          obtain ⟨_, k', hk', h⟩ := hg.stopLt b j hj
          rw [hk] at hk'; cases hk'
          exact lt_of_le_of_lt hlt h
        · exact hg.curStop v' b' x j hx hj
      case curNow =>
        intro v' x hx
        rw [hcurt] at hx
        rw [hstamp, hsub, hclock]
        split at hx
        · cases hx
          exact lt_of_le_of_lt hlt (hg.startLt b k hk)
        · rw [hcurrent] at hx; exact hg.curNow v' x hx
      case entCur =>
        intro v' b' e h
        rw [hentt] at h
        rw [hcurt]
        split
        · exact ⟨_, rfl⟩
        · rename_i h'; rw [if_neg h'] at h; exact hg.entCur v' b' e h
      case entFix =>
        intro v' b' e h
        rw [hentt] at h
        rw [hsub, hnext]
        split at h
        · cases h; exact ⟨hg.idem _, hg.subLt _ hid⟩
        · exact hg.entFix v' b' e h
      case entStamp =>
        intro v' b' e k' h hk'
        rw [hentt] at h
        rw [hstart] at hk'
        rw [hstamp]
        split at h
        · rename_i h'; cases h
          rw [h'.2, hk] at hk'; cases hk'
          exact hlt
        · exact hg.entStamp v' b' e k' h hk'
      case entry =>
        intro v' b' e h
        rw [hentt] at h
        split at h
        · rename_i h'; cases h
          right; right
          rw [h'.1, h'.2]
          unfold St.Pass
          rw [hsl, hblk, hp]
          refine ⟨hs, by simp, ?_⟩
          intro c hc
          rw [List.mem_singleton] at hc
          subst hc
          exact hnorm hn
        · rcases hg.entry v' b' e h with h | h | h
          · left
            obtain ⟨h1, h2, h3⟩ := h
            unfold St.Open
            rw [hphi, hinc]
            exact ⟨hhp h1, h2, h3⟩
          · right; left
            obtain ⟨h1, h2, h3, ss, h4, h5⟩ := h
            unfold St.PhiOk
            rw [hphi, hsl, hblk]
            refine ⟨h1, h2, h3, ss, hhp h4, ?_⟩
            intro c hc
            obtain ⟨x, hx, hx'⟩ := h5 c hc
            exact ⟨x, hx, by rw [hsub]; exact hnorm hx'⟩
          · right; right
            obtain ⟨h1, h2, h3⟩ := h
            unfold St.Pass
            rw [hsl, hblk]
            exact ⟨h1, h2, fun c hc => hnorm (h3 c hc)⟩
      case waiting =>
        intro v' b' p h
        rw [hinc] at h
        rw [hsl, hphi]
        obtain ⟨h1, h2, h3, h4⟩ := hg.waiting v' b' p h
        exact ⟨h1, hento h2, h3, hhp h4⟩
      case waitNodup => rw [hinc]; exact hg.waitNodup
      case stack =>
        intro v' b' p h
        rw [hsl, hphi]
        obtain ⟨h1, h2, h3, h4⟩ := hg.stack v' b' p h
        exact ⟨h1, hento h2, h3, hhp h4⟩
      case stackNodup => exact hg.stackNodup
      case edge => rw [hblk]; exact hg.edge
      case forward => rw [hblk, hstart, hstop, hsl]; exact hg.forward
      case startLt => rw [hstart, hclock]; exact hg.startLt
      case stopLt => rw [hstart, hstop, hclock]; exact hg.stopLt
      case stopped => rw [hstart, hstop, hcurrent]; exact hg.stopped
      case running => rw [hstart, hstop, hcurrent]; exact hg.running
      case unstarted => rw [hstart, hblk, hinc]; exact hg.unstarted
      case beyond => rw [hcount, hstart, hblk, hsl]; exact hg.beyond
      case types => rw [htypes]; exact hg.types
    · have hr := Read.refl hg
      constructor
      case sub => rw [hsub]; exact hr.sub
      case next => rw [hnext]
      case phi => rw [hphi]; exact hr.phi
      case stamp => rw [hstamp]; exact hr.stamp
      case down => rw [hstamp, hsub]; exact hr.down
      case types => rw [htypes]; exact hr.types
      case ent =>
        intro v' b' e h
        rw [hento h, hsub, (hg.entFix v' b' e h).1]
      case cur =>
        intro v' b'
        unfold St.norm
        rw [hcurt, hentt, hsub]
        split
        · rename_i h; rw [h.1, h.2, hcur]; simp
        · exact hr.cur v' b'
      case instrs => rw [hblk]; exact fun _ => rfl
      case term => rw [hblk]; exact fun _ => rfl
      case preds => rw [hblk]; exact fun _ => rfl
      case count => exact hcount
      case sealed => exact hsl
      case current => exact hcurrent
      case loops => exact hloops
      case start => exact hstart
      case stop => exact hstop
      case clock => exact hclock
    · unfold St.norm
      rw [hcurt, hsub]
      simp

end Lower
end CairoM
