import Verif.WasmOp

/-!
# The WebAssembly front end: simulation

Runs of a list of nodes are followed by runs of the lowered blocks.
-/

namespace CairoM
namespace Wasm

open Mir Lang

/-! ### The conditions on a function -/

/-- Which outputs of the nodes are truth values. -/
def flagsOf (ns : List Node) (o : Origin) : Bool :=
  match ns[o.node]? with
  | some (.op p _) => p.isFlag
  | _ => false

/-- A branch to a label. -/
def Target.isLabel : Target → Bool
  | .label _ => true
  | .outer _ => false

mutual
/-- Truth values are used as conditions only; calls have one result; at the top level (`top`) a function does not return
from a conditional branch. -/
def Node.words (m : FuncTypes) (fl : Origin → Bool) (top : Bool) : Node → Bool
  | .op o ins => ins.all (fun i => !fl i) && o.callOk m ins.length
  | .br _ ins => ins.all fun i => !fl i
  | .brIf t ins => (ins.dropLast.all fun i => !fl i) && (!top || t.isLabel)
  | .brIfZero t ins => (ins.dropLast.all fun i => !fl i) && (!top || t.isLabel)
  | .loop ins body => (ins.all fun i => !fl i) && wordsOk m (flagsOf body) false body
  | _ => true
/-- The condition for all nodes of a list. -/
def wordsOk (m : FuncTypes) (fl : Origin → Bool) (top : Bool) : List Node → Bool
  | [] => true
  | n :: ns => n.words m fl top && wordsOk m fl top ns
end

/-- Whether the output of the node is a truth value. -/
def Node.isFlag : Node → Bool
  | .op p _ => p.isFlag
  | _ => false

/-- `fl` describes the nodes from number `idx` on. -/
def Flags (fl : Origin → Bool) (idx : ℕ) (ns : List Node) : Prop :=
  ∀ j n, ns[j]? = some n → ∀ q, fl ⟨idx + j, q⟩ = n.isFlag

theorem Flags.of (ns : List Node) : Flags (flagsOf ns) 0 ns := by
  intro j n h q
  simp only [flagsOf, Nat.zero_add, h]
  cases n <;> rfl

theorem Flags.tail {fl : Origin → Bool} {idx : ℕ} {n : Node} {ns : List Node} (h : Flags fl idx (n :: ns)) :
    Flags fl (idx + 1) ns := by
  intro j k hj q
  have := h (j + 1) k (by simpa using hj) q
  rw [← this]
  congr 2
  omega

theorem Flags.drop {fl : Origin → Bool} : ∀ {pre ns : List Node} {idx : ℕ}, Flags fl idx (pre ++ ns) → Flags fl (idx + pre.length) ns
  | [], ns, idx, h => h
  | n :: pre, ns, idx, h => by
    have := Flags.drop (pre := pre) (Flags.tail h)
    rw [List.length_cons, show idx + (pre.length + 1) = idx + 1 + pre.length by omega]
    exact this

theorem wordsOk_append (m : FuncTypes) (fl : Origin → Bool) (top : Bool) :
    ∀ ns ms, wordsOk m fl top (ns ++ ms) = (wordsOk m fl top ns && wordsOk m fl top ms)
  | [], ms => by simp [wordsOk]
  | n :: ns, ms => by simp only [List.cons_append, wordsOk, wordsOk_append m fl top ns ms, Bool.and_assoc]

/-! ### Runs of the lowered function -/

/-- The finished function. -/
structure Final (F : Function) (sF : St) (nres : ℕ) : Prop where
  blocks : ∀ (b : ℕ) (c : Block), sF.blocks[b]? = some c →
    F.blocks[b]? = some { c with instrs := finishInstrs sF.deferred b c.instrs }
  rets : returnTys F = (List.replicate nres MirType.U32).map some

/-- The lowered function returns `w` when run from block `b`. -/
def Ret (mcalls : Lang.Calls) (F : Function) (pred : Option ℕ) (b : ℕ) (ρ : Lang.Env) (w : List Val) : Prop :=
  ∃ n, Lang.exec mcalls F n pred b ρ = .returned w

/-- The same from the middle of block `b`. -/
def Resume (mcalls : Lang.Calls) (F : Function) (b : ℕ) (is : List Instr) (tm : Terminator) (ρ : Lang.Env) (w : List Val) : Prop :=
  ∃ ρ', evalInstrs mcalls is ρ = some ρ' ∧ (evalTerm (returnTys F) ρ' tm = some (.ret w) ∨
    ∃ t, evalTerm (returnTys F) ρ' tm = some (.goto t) ∧ Ret mcalls F (some b) t ρ' w)

/-- The same from the end of the current block of a state. -/
def Goes (mcalls : Lang.Calls) (F : Function) (sF : St) (s : St) (ρ : Lang.Env) (w : List Val) : Prop :=
  ∀ (c c' : Block) more, s.blocks[s.current]? = some c → sF.blocks[s.current]? = some c' → c'.instrs = c.instrs ++ more →
    Resume mcalls F s.current more c'.term ρ w

/-- The phi nodes `ds` of block `b` get the integers `vs` when control comes from block `p`. -/
def EdgeVals (sF : St) (b p : ℕ) (ds : List ℕ) (ρ : Lang.Env) (vs : List I32) : Prop :=
  ∀ (i d : ℕ) (x : I32), ds[i]? = some d → vs[i]? = some x →
    ∃ v : ℕ, (operandsFor sF.deferred b d).lookup p = some (.Operand v) ∧ ρ v = some (word x)

/-- Several names get values. -/
def updates (ρ : Lang.Env) : List ℕ → List I32 → Lang.Env
  | d :: ds, x :: xs => updates (Function.update ρ d (some (word x))) ds xs
  | _, _ => ρ

theorem updates_ne : ∀ (ds : List ℕ) (xs : List I32) (ρ : Lang.Env) (v : ℕ), v ∉ ds → updates ρ ds xs v = ρ v
  | [], xs, ρ, v, _ => by cases xs <;> rfl
  | d :: ds, [], ρ, v, _ => rfl
  | d :: ds, x :: xs, ρ, v, h => by
    simp only [List.mem_cons, not_or] at h
    simp only [updates]
    rw [updates_ne ds xs _ v h.2]
    exact Function.update_of_ne h.1 _ _

theorem updates_get : ∀ (ds : List ℕ) (xs : List I32) (ρ : Lang.Env) (i d : ℕ) (x : I32), ds.Nodup → ds[i]? = some d →
    xs[i]? = some x → updates ρ ds xs d = some (word x)
  | [], xs, ρ, i, d, x, _, h, _ => by simp at h
  | d' :: ds, [], ρ, i, d, x, _, _, h => by simp at h
  | d' :: ds, x' :: xs, ρ, 0, d, x, hn, h1, h2 => by
    simp only [List.getElem?_cons_zero, Option.some.injEq] at h1 h2
    subst h1 h2
    simp only [updates]
    rw [updates_ne ds xs _ d' (List.nodup_cons.mp hn).1]
    exact Function.update_self _ _ _
  | d' :: ds, x' :: xs, ρ, i + 1, d, x, hn, h1, h2 => by
    simp only [updates]
    exact updates_get ds xs _ i d x (List.nodup_cons.mp hn).2 (by simpa using h1) (by simpa using h2)

theorem finish_more (D : List Deferred) (b : ℕ) {more : List Instr} (h : ∀ i ∈ more, notPhi i) :
    finishInstrs D b more = more := by
  cases more with
  | nil => rfl
  | cons i is =>
    have := h i (by simp)
    cases i <;> first | rfl | exact this.elim

theorem finish_phis (D : List Deferred) (b : ℕ) {more : List Instr} (h : ∀ i ∈ more, notPhi i) : ∀ ds : List ℕ,
    finishInstrs D b (emptyPhis ds ++ more) = (ds.map fun d => Instr.Phi d .U32 (operandsFor D b d)) ++ more
  | [] => finish_more D b h
  | d :: ds => by
    have := finish_phis D b h ds
    simp only [emptyPhis] at this
    simp only [emptyPhis, List.map_cons, List.cons_append, finishInstrs, this]

theorem evalPhis_more (ρ : Lang.Env) (p : Option ℕ) {more : List Instr} (h : ∀ i ∈ more, notPhi i) (acc : Lang.Env) :
    evalPhis ρ p more acc = some (acc, more) := by
  cases more with
  | nil => rfl
  | cons i is =>
    have := h i (by simp)
    cases i <;> first | rfl | exact this.elim

theorem evalPhis_sim {sF : St} {b p : ℕ} {ρ : Lang.Env} {more : List Instr} (h : ∀ i ∈ more, notPhi i) :
    ∀ (ds : List ℕ) (vs : List I32) (acc : Lang.Env), ds.length = vs.length → EdgeVals sF b p ds ρ vs →
    evalPhis ρ (some p) ((ds.map fun d => Instr.Phi d .U32 (operandsFor sF.deferred b d)) ++ more) acc =
      some (updates acc ds vs, more)
  | [], vs, acc, hl, he => by
    simp only [List.map_nil, List.nil_append, evalPhis_more ρ (some p) h]
    cases vs <;> rfl
  | d :: ds, [], acc, hl, he => by simp at hl
  | d :: ds, x :: vs, acc, hl, he => by
    obtain ⟨v, h1, h2⟩ := he 0 d x rfl rfl
    have ih := evalPhis_sim h ds vs (Function.update acc d (some (word x))) (by simpa using hl)
      (fun i d x h3 h4 => he (i + 1) d x (by simpa using h3) (by simpa using h4))
    simp only [List.map_cons, List.cons_append, evalPhis, phiValue, scalarTy, Option.bind_eq_bind, Option.bind_some, h1, readAt, h2,
      ih, updates]

/-- Arriving at a block. -/
theorem arrive {mcalls : Lang.Calls} {F : Function} {sF : St} {nres : ℕ} (hF : Final F sF nres) {b p : ℕ} {ds : List ℕ} {c : Block}
    {more : List Instr} {ρ : Lang.Env} {vs : List I32} {w : List Val} (hb : sF.blocks[b]? = some c)
    (hi : c.instrs = emptyPhis ds ++ more) (hm : ∀ i ∈ more, notPhi i) (hl : ds.length = vs.length)
    (he : EdgeVals sF b p ds ρ vs) (hr : Resume mcalls F b more c.term (updates ρ ds vs) w) :
    Ret mcalls F (some p) b ρ w := by
  obtain ⟨ρ', h1, h2⟩ := hr
  have hbl := hF.blocks b c hb
  rw [hi, finish_phis _ _ hm] at hbl
  rcases h2 with h2 | ⟨t, h2, n, h3⟩
  · refine ⟨1, ?_⟩
    simp only [Lang.exec, hbl, evalBlock, evalPhis_sim hm ds vs ρ hl he, Option.bind_eq_bind, Option.bind_some, h1, h2]
  · refine ⟨n + 1, ?_⟩
    simp only [Lang.exec, hbl, evalBlock, evalPhis_sim hm ds vs ρ hl he, Option.bind_eq_bind, Option.bind_some, h1, h2]
    exact h3

/-- The blocks of `s` in the finished function. -/
theorem Le.final {s sF : St} (h : Le s sF) {b : ℕ} {c : Block} (hb : s.blocks[b]? = some c) :
    ∃ (c' : Block) (more : List Instr), sF.blocks[b]? = some c' ∧ c'.instrs = c.instrs ++ more ∧ ∀ i ∈ more, notPhi i := by
  obtain ⟨c', h1, more, h2, h3⟩ := h.blocks b c hb
  exact ⟨c', more, h1, h2, h3⟩

/-- Arriving at an open block without phi nodes. -/
theorem arrive_empty {mcalls : Lang.Calls} {F : Function} {sF : St} {nres : ℕ} (hF : Final F sF nres) {s : St} (hle : Le s sF)
    {p : ℕ} {ρ : Lang.Env} {w : List Val} {tm : Terminator} (hb : s.blocks[s.current]? = some ⟨[], tm⟩)
    (hg : Goes mcalls F sF s ρ w) : Ret mcalls F (some p) s.current ρ w := by
  obtain ⟨c', more, h1, h2, h3⟩ := hle.final hb
  exact arrive hF (ds := []) (vs := []) h1 h2 h3 rfl (fun i d x h => by simp at h) (hg _ c' more hb h1 h2)

/-- Arriving at an open block that has phi nodes only. -/
theorem arrive_label {mcalls : Lang.Calls} {F : Function} {sF : St} {nres : ℕ} (hF : Final F sF nres) {s : St} (hle : Le s sF)
    {p : ℕ} {ds : List ℕ} {vs : List I32} {ρ : Lang.Env} {w : List Val} {tm : Terminator}
    (hb : s.blocks[s.current]? = some ⟨emptyPhis ds, tm⟩)
    (hl : ds.length = vs.length) (he : EdgeVals sF s.current p ds ρ vs) (hg : Goes mcalls F sF s (updates ρ ds vs) w) :
    Ret mcalls F (some p) s.current ρ w := by
  obtain ⟨c', more, h1, h2, h3⟩ := hle.final hb
  exact arrive hF h1 h2 h3 hl he (hg _ c' more hb h1 h2)

/-- From a block that is closed in a later state. -/
theorem Goes.closed {mcalls : Lang.Calls} {F : Function} {sF s t : St} {c : Block} {ρ : Lang.Env} {w : List Val} {tm : Terminator}
    (hb : s.blocks[s.current]? = some c) (ht : t.blocks[s.current]? = some { c with term := tm }) (htm : tm ≠ .Unreachable)
    (hle : Le t sF) (hr : Resume mcalls F s.current [] tm ρ w) : Goes mcalls F sF s ρ w := by
  intro c0 c' more h1 h2 h3
  rw [hb, Option.some.injEq] at h1
  subst h1
  have := hle.closed _ _ ht htm
  rw [this, Option.some.injEq] at h2
  subst h2
  have : more = [] := by simpa using h3
  subst this
  exact hr

theorem evalInstrs_append (mcalls : Lang.Calls) : ∀ (is js : List Instr) (ρ ρ' : Lang.Env), evalInstrs mcalls is ρ = some ρ' →
    evalInstrs mcalls (is ++ js) ρ = evalInstrs mcalls js ρ'
  | [], js, ρ, ρ', h => by
    simp only [evalInstrs, Option.some.injEq] at h
    subst h
    rfl
  | i :: is, js, ρ, ρ', h => by
    simp only [evalInstrs, List.cons_append] at h ⊢
    cases hi : evalInstr mcalls i ρ with
    | none => rw [hi] at h; cases h
    | some ρ1 =>
      rw [hi] at h
      exact evalInstrs_append mcalls is js ρ1 ρ' h

/-- Through instructions of the current block. -/
theorem Goes.emits {mcalls : Lang.Calls} {F : Function} {sF s t : St} {is : List Instr} {ρ ρ' : Lang.Env} {w : List Val}
    (hblocks : ∀ c, s.blocks[s.current]? = some c → t.blocks[s.current]? = some { c with instrs := c.instrs ++ is })
    (hcur : t.current = s.current) (hle : Le t sF) (he : evalInstrs mcalls is ρ = some ρ')
    (hg : Goes mcalls F sF t ρ' w) : Goes mcalls F sF s ρ w := by
  intro c c' more h1 h2 h3
  have h4 := hblocks c h1
  obtain ⟨c2, more2, h5, h6, h7⟩ := hle.final h4
  rw [h2, Option.some.injEq] at h5
  subst h5
  have hm : more = is ++ more2 := by
    rw [h3, List.append_assoc] at h6
    exact List.append_cancel_left h6
  obtain ⟨ρ2, g1, g2⟩ := hg _ c' more2 (by rw [hcur]; exact h4) (by rw [hcur]; exact h2) h6
  refine ⟨ρ2, ?_, ?_⟩
  · rw [hm, evalInstrs_append mcalls is more2 ρ ρ' he]
    exact g1
  · rw [hcur] at g2
    exact g2

/-! ### Operands on an edge -/

theorem lookup_unique {α : Type} {l : List (ℕ × α)} {k : ℕ} {a : α} (h1 : ∃ x ∈ l, x.1 = k) (h2 : ∀ x ∈ l, x.1 = k → x.2 = a) :
    l.lookup k = some a := by
  induction l with
  | nil => obtain ⟨x, hx, _⟩ := h1; simp at hx
  | cons y l ih =>
    obtain ⟨k', a'⟩ := y
    rw [List.lookup_cons]
    by_cases e : k = k'
    · subst e
      have := h2 (k, a') (by simp) rfl
      simp only [beq_self_eq_true]
      rw [← this]
    · rw [beq_eq_false_iff_ne.mpr e]
      refine ih ?_ (fun x hx => h2 x (List.mem_cons_of_mem _ hx))
      obtain ⟨x, hx, hk⟩ := h1
      rcases List.mem_cons.mp hx with rfl | hx
      · exact absurd hk.symm e
      · exact ⟨x, hx, hk⟩

theorem mem_zip_unique {ds vs : List ℕ} (hn : ds.Nodup) {i d v w : ℕ} (hd : ds[i]? = some d) (hv : vs[i]? = some v)
    (hm : (d, w) ∈ ds.zip vs) : w = v := by
  obtain ⟨j, hj⟩ := List.mem_iff_getElem?.mp hm
  rw [List.getElem?_zip_eq_some] at hj
  obtain ⟨hi, e1⟩ := List.getElem?_eq_some_iff.mp hd
  obtain ⟨hj', e2⟩ := List.getElem?_eq_some_iff.mp hj.1
  have : i = j := (List.Nodup.getElem_inj_iff hn).mp (e1.trans e2.symm)
  subst this
  rw [hv] at hj
  simpa using hj.2.symm

/-- The operands recorded when the current block ends are those found later. -/
theorem edge_vals {sF s t : St} {L : List ℕ} (hi : Inv s L true) {b : ℕ} {ds vs : List ℕ}
    (hd : t.deferred = s.deferred ++ edges s b ds vs) (hc : Closed t s.current) (hle : Le t sF) (hn : ds.Nodup)
    {ρ : Lang.Env} {xs : List I32} (hx : ∀ (i : ℕ) (x : I32), i < ds.length → xs[i]? = some x →
      ∃ v, vs[i]? = some v ∧ ρ v = some (word x)) : EdgeVals sF b s.current ds ρ xs := by
  intro i d x h1 h2
  obtain ⟨v, h3, h4⟩ := hx i x (List.getElem?_eq_some_iff.mp h1).1 h2
  refine ⟨v, ?_, h4⟩
  have hopen : ¬ Closed s s.current := by
    rintro ⟨c, g1, g2⟩
    obtain ⟨c', g3, g4⟩ := hi.current rfl
    rw [g1, Option.some.injEq] at g3
    subst g3
    exact g2 g4
  apply lookup_unique
  · refine ⟨(s.current, .Operand v), ?_, rfl⟩
    simp only [operandsFor, List.mem_map, List.mem_filter]
    refine ⟨⟨b, d, s.current, .Operand v⟩, ⟨hle.defers _ ?_, by simp⟩, rfl⟩
    rw [hd]
    refine List.mem_append.mpr (Or.inr ?_)
    simp only [edges, List.mem_map]
    refine ⟨(d, v), ?_, rfl⟩
    refine List.mem_iff_getElem?.mpr ⟨i, ?_⟩
    rw [List.getElem?_zip_eq_some]
    exact ⟨h1, h3⟩
  · intro y hy hk
    simp only [operandsFor, List.mem_map, List.mem_filter, decide_eq_true_eq] at hy
    obtain ⟨e, ⟨g1, g2, g3⟩, rfl⟩ := hy
    simp only at hk ⊢
    have g4 := hle.sealed e g1 (hk ▸ hc)
    rw [hd] at g4
    rcases List.mem_append.mp g4 with g4 | g4
    · exact absurd (hk ▸ hi.sources e g4) hopen
    · simp only [edges, List.mem_map] at g4
      obtain ⟨p, hp, rfl⟩ := g4
      simp only at g3 ⊢
      have : (d, p.2) ∈ ds.zip vs := by rw [← g3]; exact hp
      rw [mem_zip_unique hn h1 h3 this]

end Wasm
end CairoM
