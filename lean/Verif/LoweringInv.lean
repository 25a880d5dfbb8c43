import Verif.Lowering
import Verif.SsaSubst

/-!
# The lowering: invariant of the construction of static single assignment form

Helper lemmas. `Good stk st` says what holds of the state between two operations; `stk` are the phi nodes whose
operands are being collected. `Ext s t` says how a later state extends an earlier one, up to the replacement of
removed phi nodes.
-/

namespace CairoM
namespace Lower

open Mir Lang Source

/-- Value of a variable at the end of a block, up to removed phi nodes. -/
def St.norm (st : St) (v : Var) (b : BlockId) : Option ValueId := (st.cur v b).map st.g.sub

/-- Block `b` has the phi node `p` with operands `ss`. -/
def St.HasPhi (st : St) (b : BlockId) (p : ValueId) (ss : List (BlockId × ValueId)) : Prop :=
  ∃ φ ∈ (st.blocks b).phis, φ.dest = p ∧ φ.sources = ss

/-- The phi node `e` of `v` in `b` waits for its operands. -/
def St.Open (stk : List (Var × BlockId × ValueId)) (st : St) (v : Var) (b : BlockId) (e : ValueId) : Prop :=
  st.HasPhi b e [] ∧ st.g.phi e = some (v, b) ∧ ((v, e) ∈ st.incomplete b ∨ (v, b, e) ∈ stk)

/-- The phi node `e` of `v` in `b` has the values of `v` at the ends of the predecessors as operands. -/
def St.PhiOk (st : St) (v : Var) (b : BlockId) (e : ValueId) : Prop :=
  st.sealed b = true ∧ (st.blocks b).preds.length ≠ 1 ∧ st.g.phi e = some (v, b) ∧
    ∃ ss, st.HasPhi b e ss ∧
      ∀ a ∈ (st.blocks b).preds, ∃ x, ss.lookup a = some x ∧ st.norm v a = some (st.g.sub x)

/-- `v` has the value `e` at the ends of all predecessors of `b`. -/
def St.Pass (st : St) (v : Var) (b : BlockId) (e : ValueId) : Prop :=
  st.sealed b = true ∧ (st.blocks b).preds ≠ [] ∧ ∀ a ∈ (st.blocks b).preds, st.norm v a = some e

/-- The invariant. -/
structure Good (stk : List (Var × BlockId × ValueId)) (st : St) : Prop where
  idem : ∀ x, st.g.sub (st.g.sub x) = st.g.sub x
  subFresh : ∀ x, st.next ≤ x → st.g.sub x = x
  subLt : ∀ x, x < st.next → st.g.sub x < st.next
  subPlain : ∀ x, st.g.phi x = none → st.g.sub x = x
  phiFresh : ∀ x, st.next ≤ x → st.g.phi x = none
  phis : ∀ b, ∀ φ ∈ (st.blocks b).phis,
    φ.dest < st.next ∧ st.g.sub φ.dest = φ.dest ∧ (∃ v, st.g.phi φ.dest = some (v, b) ∧ st.g.ent v b = some φ.dest) ∧
      st.g.start b = some (st.g.stamp φ.dest) ∧ (scalarTy φ.ty).isSome = true
  nodup : ∀ b, ((st.blocks b).phis.map Phi.dest).Nodup
  dests : ∀ b, ∀ i ∈ (st.blocks b).instrs,
    isPhi i = false ∧ ∀ d ∈ i.destinations, d < st.next ∧ st.g.phi d = none
  curLt : ∀ v b x, st.cur v b = some x → x < st.next
  curStart : ∀ v b x, st.cur v b = some x → ∃ k, st.g.start b = some k
  curStop : ∀ v b x j, st.cur v b = some x → st.g.stop b = some j → st.g.stamp (st.g.sub x) < j
  curNow : ∀ v x, st.cur v st.current = some x → st.g.stamp (st.g.sub x) < st.g.clock
  entCur : ∀ v b e, st.g.ent v b = some e → ∃ x, st.cur v b = some x
  entFix : ∀ v b e, st.g.ent v b = some e → st.g.sub e = e ∧ e < st.next
  entStamp : ∀ v b e k, st.g.ent v b = some e → st.g.start b = some k → st.g.stamp e ≤ k
  entry : ∀ v b e, st.g.ent v b = some e → st.Open stk v b e ∨ st.PhiOk v b e ∨ st.Pass v b e
  waiting : ∀ v b p, (v, p) ∈ st.incomplete b →
    st.sealed b = false ∧ st.g.ent v b = some p ∧ st.g.phi p = some (v, b) ∧ st.HasPhi b p []
  waitNodup : ∀ b, (st.incomplete b).Nodup
  stack : ∀ v b p, (v, b, p) ∈ stk →
    st.sealed b = true ∧ st.g.ent v b = some p ∧ st.g.phi p = some (v, b) ∧ st.HasPhi b p []
  stackNodup : stk.Nodup
  edge : ∀ a b, a ∈ (st.blocks b).preds ↔ b ∈ (st.blocks a).term.targets
  forward : ∀ b k, st.g.start b = some k →
    (st.sealed b = true ∧ (st.blocks b).preds = []) ∨
      ∃ e ∈ (st.blocks b).preds, ∃ j, st.g.stop e = some j ∧ j ≤ k
  startLt : ∀ b k, st.g.start b = some k → k < st.g.clock
  stopLt : ∀ b j, st.g.stop b = some j → j ≤ st.g.clock ∧ ∃ k, st.g.start b = some k ∧ k < j
  stopped : ∀ b k, st.g.start b = some k → b ≠ st.current → ∃ j, st.g.stop b = some j
  running : st.g.stop st.current = none ∧ ∃ k, st.g.start st.current = some k
  unstarted : ∀ b, st.g.start b = none →
    (st.blocks b).phis = [] ∧ (st.blocks b).instrs = [] ∧ (st.blocks b).term = .Unreachable ∧ st.incomplete b = []
  beyond : ∀ b, st.count ≤ b → st.g.start b = none ∧ (st.blocks b).preds = [] ∧ st.sealed b = false
  types : ∀ x t, st.types x = some t → (scalarTy t).isSome = true

/-- How a later state extends an earlier one. -/
structure Ext (s t : St) : Prop where
  sub : ∀ x, t.g.sub (s.g.sub x) = t.g.sub x
  next : s.next ≤ t.next
  count : s.count ≤ t.count
  phi : ∀ x, x < s.next → t.g.phi x = s.g.phi x
  stamp : ∀ x, x < s.next → t.g.stamp x = s.g.stamp x
  down : ∀ x, x < s.next → t.g.stamp (t.g.sub x) ≤ s.g.stamp (s.g.sub x)
  types : ∀ x, x < s.next → t.types x = s.types x
  start : ∀ b k, s.g.start b = some k → t.g.start b = some k
  clock : s.g.clock ≤ t.g.clock
  ent : ∀ v b e, s.g.ent v b = some e → t.g.ent v b = some (t.g.sub e)
  cur : ∀ v b k, s.g.start b = some k → b ≠ s.current ∨ (s.blocks b).term ≠ .Unreachable →
    t.norm v b = ((s.cur v b).map t.g.sub).or (t.g.ent v b)
  instrs : ∀ b k, s.g.start b = some k → ∃ l,
    (t.blocks b).instrs.map (Instr.rename t.g.sub) = (s.blocks b).instrs.map (Instr.rename t.g.sub) ++ l ∧
      (b ≠ s.current ∨ (s.blocks b).term ≠ .Unreachable → l = [])
  term : ∀ b, (s.blocks b).term ≠ .Unreachable →
    Terminator.rename t.g.sub (t.blocks b).term = Terminator.rename t.g.sub (s.blocks b).term
  current : t.current = s.current ∨ s.g.start t.current = none

/-- Nothing the current block holds has changed. -/
structure Keep (s t : St) : Prop where
  current : t.current = s.current
  cur : ∀ v, t.norm v s.current = ((s.cur v s.current).map t.g.sub).or (t.g.ent v s.current)

/-! ### Renaming -/

theorem value_rename_comp {σ τ : ValueId → ValueId} (h : ∀ x, τ (σ x) = τ x) (v : Value) :
    Value.rename τ (Value.rename σ v) = Value.rename τ v := by
  cases v <;> simp [Value.rename, h]

theorem instr_rename_comp {σ τ : ValueId → ValueId} (h : ∀ x, τ (σ x) = τ x) (i : Instr) :
    Instr.rename τ (Instr.rename σ i) = Instr.rename τ i := by
  cases i <;> simp [Instr.rename, value_rename_comp h, Place.rename, h]
  all_goals (intro q _; cases q <;> simp [value_rename_comp h])

theorem term_rename_comp {σ τ : ValueId → ValueId} (h : ∀ x, τ (σ x) = τ x) (t : Terminator) :
    Terminator.rename τ (Terminator.rename σ t) = Terminator.rename τ t := by
  cases t <;> simp [Terminator.rename, value_rename_comp h]

theorem value_rename_replace {τ : ValueId → ValueId} {p r : ValueId} (h : τ p = τ r) (v : Value) :
    Value.rename τ (v.replace p r) = Value.rename τ v := by
  cases v <;> simp [Value.rename, Value.replace]
  split <;> simp_all

theorem instr_rename_replace {τ : ValueId → ValueId} {p r : ValueId} (h : τ p = τ r) (i : Instr) :
    Instr.rename τ (i.replace p r) = Instr.rename τ i := by
  have hb : ∀ x, τ (if x = p then r else x) = τ x := by intro x; split <;> simp_all
  cases i <;> simp [Instr.rename, Instr.replace, value_rename_replace h, Place.rename, Place.replace, hb]
  all_goals (intro q _; cases q <;> simp [value_rename_replace h])

theorem term_rename_replace {τ : ValueId → ValueId} {p r : ValueId} (h : τ p = τ r) (t : Terminator) :
    Terminator.rename τ (t.replace p r) = Terminator.rename τ t := by
  cases t <;> simp [Terminator.rename, Terminator.replace, value_rename_replace h]

theorem rename_unreachable {τ : ValueId → ValueId} {t : Terminator} :
    Terminator.rename τ t = .Unreachable ↔ t = .Unreachable := by
  cases t <;> simp [Terminator.rename]

theorem replace_unreachable {p r : ValueId} {t : Terminator} :
    t.replace p r = .Unreachable ↔ t = .Unreachable := by
  cases t <;> simp [Terminator.replace]

theorem replace_targets {p r : ValueId} {t : Terminator} : (t.replace p r).targets = t.targets := by
  cases t <;> simp [Terminator.replace, Terminator.targets]

theorem replace_destinations {p r : ValueId} {i : Instr} : (i.replace p r).destinations = i.destinations := by
  cases i <;> simp [Instr.replace, Instr.destinations]

theorem replace_isPhi {p r : ValueId} {i : Instr} : isPhi (i.replace p r) = isPhi i := by
  cases i <;> simp [Instr.replace, isPhi]

/-! ### Extension is a preorder -/

theorem Ext.norm_of_cur {s t : St} (h : Ext s t) {v b x k} (hs : s.g.start b = some k)
    (hb : b ≠ s.current ∨ (s.blocks b).term ≠ .Unreachable) (hx : s.cur v b = some x) :
    t.norm v b = some (t.g.sub x) := by
  simp [h.cur v b k hs hb, hx]

theorem Ext.refl {s : St} {stk} (hg : Good stk s) : Ext s s where
  sub := hg.idem
  next := le_rfl
  count := le_rfl
  phi := fun _ _ => rfl
  stamp := fun _ _ => rfl
  down := fun _ _ => le_rfl
  types := fun _ _ => rfl
  start := fun _ _ h => h
  clock := le_rfl
  ent := fun v b e h => by rw [h, (hg.entFix v b e h).1]
  cur := fun v b k _ _ => by
    unfold St.norm
    cases hc : s.cur v b with
    | some x => simp
    | none =>
      cases he : s.g.ent v b with
      | none => simp
      | some e => obtain ⟨x, hx⟩ := hg.entCur v b e he; simp [hc] at hx
  instrs := fun _ _ _ => ⟨[], by simp, fun _ => rfl⟩
  term := fun _ _ => rfl
  current := .inl rfl

theorem Ext.trans {s t u : St} (hst : Ext s t) (htu : Ext t u) : Ext s u where
  sub x := by rw [← htu.sub, hst.sub, htu.sub]
  next := hst.next.trans htu.next
  count := hst.count.trans htu.count
  phi x hx := by rw [htu.phi x (lt_of_lt_of_le hx hst.next), hst.phi x hx]
  stamp x hx := by rw [htu.stamp x (lt_of_lt_of_le hx hst.next), hst.stamp x hx]
  down x hx := (htu.down x (lt_of_lt_of_le hx hst.next)).trans (hst.down x hx)
  types x hx := by rw [htu.types x (lt_of_lt_of_le hx hst.next), hst.types x hx]
  start b k h := htu.start b k (hst.start b k h)
  clock := hst.clock.trans htu.clock
  ent v b e h := by rw [htu.ent v b _ (hst.ent v b e h), htu.sub]
  cur v b k hk hb := by
    have hb' : b ≠ t.current ∨ (t.blocks b).term ≠ .Unreachable := by
      rcases hb with hb | hb
      · left
        rintro rfl
        rcases hst.current with h | h
        · exact hb h
        · rw [hk] at h; cases h
      · right
        intro h
        have := hst.term b hb
        rw [h] at this
        exact hb (rename_unreachable.1 this.symm)
    rw [htu.cur v b k (hst.start b k hk) hb']
    have h1 := hst.cur v b k hk hb
    have h2 : (t.cur v b).map u.g.sub = (t.norm v b).map u.g.sub := by
      unfold St.norm; cases t.cur v b <;> simp [htu.sub]
    rw [h2, h1]
    cases hc : s.cur v b with
    | some x => simp [htu.sub]
    | none =>
      cases he : t.g.ent v b with
      | none => simp
      | some e => simp [htu.ent v b e he]
  instrs b k hk := by
    obtain ⟨l, h1, h2⟩ := hst.instrs b k hk
    obtain ⟨l', h3, h4⟩ := htu.instrs b k (hst.start b k hk)
    refine ⟨l.map (Instr.rename u.g.sub) ++ l', ?_, ?_⟩
    · rw [h3]
      have := congrArg (List.map (Instr.rename u.g.sub)) h1
      simp only [List.map_map, List.map_append, Function.comp_def, instr_rename_comp htu.sub] at this
      rw [this, List.append_assoc]
    · intro hb
      have hb' : b ≠ t.current ∨ (t.blocks b).term ≠ .Unreachable := by
        rcases hb with hb | hb
        · left
          rintro rfl
          rcases hst.current with h | h
          · exact hb h
          · rw [hk] at h; cases h
        · right
          intro h
          have := hst.term b hb
          rw [h] at this
          exact hb (rename_unreachable.1 this.symm)
      simp [h2 hb, h4 hb']
  term b hb := by
    have h1 := hst.term b hb
    have hb' : (t.blocks b).term ≠ .Unreachable := by
      intro h
      rw [h] at h1
      exact hb (rename_unreachable.1 h1.symm)
    rw [htu.term b hb', ← term_rename_comp htu.sub, h1, term_rename_comp htu.sub]
  current := by
    rcases htu.current with h | h
    · rw [h]; exact hst.current
    · right
      cases hs : s.g.start u.current with
      | none => rfl
      | some k => rw [hst.start _ k hs] at h; cases h

theorem Keep.refl {s : St} {stk} (hg : Good stk s) : Keep s s where
  current := rfl
  cur v := by
    unfold St.norm
    cases hc : s.cur v s.current with
    | some x => simp
    | none =>
      cases he : s.g.ent v s.current with
      | none => simp
      | some e => obtain ⟨x, hx⟩ := hg.entCur v _ e he; simp [hc] at hx

theorem Keep.trans {s t u : St} (htu : Ext t u) (h1 : Keep s t) (h2 : Keep t u) : Keep s u where
  current := h2.current.trans h1.current
  cur v := by
    have := h2.cur v
    rw [h1.current] at this
    rw [this]
    have h2 : (t.cur v s.current).map u.g.sub = (t.norm v s.current).map u.g.sub := by
      unfold St.norm; cases t.cur v s.current <;> simp [htu.sub]
    rw [h2, h1.cur v]
    cases hc : s.cur v s.current with
    | some x => simp [htu.sub]
    | none =>
      cases he : t.g.ent v s.current with
      | none => simp
      | some e => simp [htu.ent v _ e he]

end Lower
end CairoM
