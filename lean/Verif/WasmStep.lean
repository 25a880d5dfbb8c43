import Verif.WasmEmit

/-!
# The WebAssembly front end: nodes and lists of nodes

What the second pass does on branches and loops, and that a whole list of nodes keeps the invariant.
-/

namespace CairoM
namespace Wasm

open Mir

/-- The operands recorded on an edge from the current block. -/
def edges (s : St) (b : ℕ) (ds vs : List ℕ) : List Deferred :=
  (ds.zip vs).map fun p => ⟨b, p.1, s.current, .Operand p.2⟩

theorem edges_source (s : St) (b : ℕ) (ds vs : List ℕ) : ∀ d ∈ edges s b ds vs, d.source = s.current := by
  intro d hd
  simp only [edges, List.mem_map] at hd
  obtain ⟨p, _, rfl⟩ := hd
  rfl

theorem inputs_congr {s t : St} (h : t.scopes = s.scopes) : ∀ ins, t.inputs ins = s.inputs ins
  | [] => rfl
  | o :: os => by simp only [St.inputs, St.input, h, inputs_congr h os]

theorem br_spec {m : FuncTypes} {s t : St} {idx : ℕ} {tg : Target} {ins : List Origin}
    (h : s.genNode m idx (.br tg ins) = .ok t) : ∃ vs, s.inputs ins = .ok vs ∧
      ((∃ b ds, targetOf s tg = some (b, ds) ∧
        t = { s with blocks := s.blocks.modify s.current fun c => { c with term := .Jump b }
                     deferred := s.deferred ++ edges s b ds vs
                     current := b }) ∨
      (∃ d, tg = .outer d ∧ s.loops = [] ∧
        t = { s with blocks := (s.blocks ++ [(⟨[], .Return (vs.map .Operand)⟩ : Block)]).modify s.current fun c =>
                       { c with term := .Jump s.blocks.length }
                     current := s.blocks.length })) := by
  simp only [St.genNode] at h
  obtain ⟨⟨s1, b⟩, h1, h⟩ := bindOk h
  obtain ⟨s2, h2, h⟩ := bindOk h
  obtain ⟨s3, h3, h⟩ := bindOk h
  cases h
  obtain ⟨_, rfl⟩ := setTerm_spec h3
  rcases resolve_spec h1 with ⟨rfl, hr⟩ | ⟨d, vs, rfl, hl, hv, rfl, rfl⟩
  · rcases record_spec h2 with ⟨b', ds, vs, ht, hv, rfl⟩ | ⟨d, rfl, hl, rfl⟩
    · refine ⟨vs, hv, Or.inl ⟨b', ds, ht, ?_⟩⟩
      have : b = b' := by
        rcases hr with ⟨id, rfl, hl⟩ | ⟨d, l, rfl, hl, rfl⟩
        · simp only [targetOf, hl] at ht
          split at ht
          · rename_i e1 _
            simp_all
          · cases ht
        · simp only [targetOf, hl, Option.map_some, Option.some.injEq, Prod.mk.injEq] at ht
          exact ht.1
      subst this
      rfl
    · rcases hr with ⟨id, h5, _⟩ | ⟨d', l, h5, h6, _⟩
      · cases h5
      · cases h5
        rw [hl] at h6
        cases h6
  · refine ⟨vs, hv, Or.inr ⟨d, rfl, hl, ?_⟩⟩
    rcases record_spec h2 with ⟨b', ds, vs', ht, hv', rfl⟩ | ⟨d', e, hl', rfl⟩
    · simp [targetOf, hl] at ht
    · rfl

theorem cond_spec {s t : St} {onTrue : Bool} {tg : Target} {ins : List Origin}
    (h : s.condBranch onTrue tg ins = .ok t) : ∃ o c, ins.getLast? = some o ∧ getIn s.scopes o = some c ∧
      ((∃ b ds vs, targetOf s tg = some (b, ds) ∧ s.inputs ins.dropLast = .ok vs ∧
        t = { s with blocks := (s.blocks ++ [(⟨[], .Unreachable⟩ : Block)]).modify s.current fun x =>
                       { x with term := if onTrue then .If (.Operand c) b s.blocks.length
                                        else .If (.Operand c) s.blocks.length b }
                     deferred := s.deferred ++ edges s b ds vs
                     current := s.blocks.length }) ∨
      (∃ (d : ℕ) (vs : List ℕ), tg = .outer d ∧ s.loops = [] ∧
        t = { s with blocks := (s.blocks ++ [(⟨[], .Return (vs.map .Operand)⟩ : Block)] ++ [(⟨[], .Unreachable⟩ : Block)]).modify s.current fun x =>
                       { x with term := if onTrue then .If (.Operand c) s.blocks.length (s.blocks.length + 1)
                                        else .If (.Operand c) (s.blocks.length + 1) s.blocks.length }
                     current := s.blocks.length + 1 })) := by
  unfold St.condBranch at h
  cases hl : ins.getLast? with
  | none => simp only [hl] at h; cases h
  | some o =>
    simp only [hl] at h
    obtain ⟨c, h0, h⟩ := bindOk h
    obtain ⟨⟨s1, b⟩, h1, h⟩ := bindOk h
    obtain ⟨s2, h2, h⟩ := bindOk h
    obtain ⟨s3, h3, h⟩ := bindOk h
    cases h
    obtain ⟨_, rfl⟩ := setTerm_spec h3
    have hc : getIn s.scopes o = some c := by
      unfold St.input at h0
      cases hg : getIn s.scopes o with
      | none => rw [hg] at h0; cases h0
      | some v => rw [hg] at h0; cases h0; rfl
    refine ⟨o, c, rfl, hc, ?_⟩
    rcases resolve_spec h1 with ⟨rfl, hr⟩ | ⟨d, vs, rfl, hlo, hv, rfl, rfl⟩
    · rcases record_spec h2 with ⟨b', ds, vs, ht, hv, rfl⟩ | ⟨d, rfl, hlo, rfl⟩
      · have ht' : targetOf s1 tg = some (b', ds) := by
          cases tg <;> exact ht
        refine Or.inl ⟨b', ds, vs, ht', by rw [← hv]; symm; apply inputs_congr; rfl, ?_⟩
        have : b = b' := by
          rcases hr with ⟨id, rfl, hlo⟩ | ⟨d, l, rfl, hlo, rfl⟩
          · simp only [targetOf, hlo] at ht'
            split at ht'
            · rename_i e1 _
              simp_all
            · cases ht'
          · simp only [targetOf, hlo, Option.map_some, Option.some.injEq, Prod.mk.injEq] at ht'
            exact ht'.1
        subst this
        rfl
      · rcases hr with ⟨id, h5, _⟩ | ⟨d', l, h5, h6, _⟩
        · cases h5
        · cases h5
          have hlo : s1.loops[d]? = none := hlo
          rw [hlo] at h6
          cases h6
    · refine Or.inr ⟨d, vs, rfl, hlo, ?_⟩
      rcases record_spec h2 with ⟨b', ds, vs', ht, hv', rfl⟩ | ⟨d', e, hl', rfl⟩
      · simp [targetOf, St.addBlock, hlo] at ht
      · simp only [St.addBlock, List.length_append, List.length_singleton]

theorem entry_spec : ∀ (ins : List Origin) (ds : List ℕ) (s t : St) (h : ℕ), s.entry h ins ds = .ok t →
    ∃ vs, s.inputs (ins.take ds.length) = .ok vs ∧ t = { s with deferred := s.deferred ++ edges s h ds vs }
  | [], ds, s, t, h, e => by
    simp only [St.entry, Except.ok.injEq] at e
    subst e
    exact ⟨[], by simp [St.inputs], by simp [edges]⟩
  | o :: os, [], s, t, h, e => by
    simp only [St.entry, Except.ok.injEq] at e
    subst e
    exact ⟨[], by simp [St.inputs], by simp [edges]⟩
  | o :: os, d :: ds, s, t, h, e => by
    simp only [St.entry] at e
    obtain ⟨v, h1, e⟩ := bindOk e
    obtain ⟨vs, h2, h3⟩ := entry_spec os ds _ t h e
    refine ⟨v :: vs, ?_, ?_⟩
    · simp only [List.length_cons, List.take_succ_cons, St.inputs, h1]
      rw [inputs_congr (t := s.defer h [d] [v]) (s := s) rfl] at h2
      rw [h2]
      rfl
    · rw [h3]
      simp [St.defer, edges]

/-- The state in which the body of a loop is lowered. -/
def bodyState (s : St) (n : ℕ) (vs : List ℕ) (types : ℕ → Option MirType) : St :=
  { s with
    blocks := (((s.blocks ++ [(⟨emptyPhis (List.range' s.next n), .Unreachable⟩ : Block)]).modify s.current fun c =>
        { c with term := .Jump s.blocks.length }) ++ [(⟨[], .Unreachable⟩ : Block)]).modify s.blocks.length fun c =>
        { c with term := .Jump (s.blocks.length + 1) }
    next := s.next + n
    types := types
    deferred := s.deferred ++ edges s s.blocks.length (List.range' s.next n) vs
    current := s.blocks.length + 1
    loops := ⟨s.blocks.length, List.range' s.next n⟩ :: s.loops
    scopes := (named 0 0 (List.range' s.next n)) :: s.scopes }

theorem loop_spec {m : FuncTypes} {s t : St} {idx : ℕ} {ins : List Origin} {body : List Node}
    (h : s.genNode m idx (.loop ins body) = .ok t) : ∃ ts rest vs types sB sC, body = .inputs ts :: rest ∧
      s.inputs (ins.take ts.length) = .ok vs ∧
      (bodyState s ts.length vs types).allocate 0 body = .ok sB ∧ sB.genNodes m 0 body = .ok sC ∧
      t = { sC with scopes := sC.scopes.tail, loops := sC.loops.tail } := by
  unfold St.genNode at h
  split at h
  rename_i s0 h0 he
  cases he
  simp only at h
  split at h
  · rename_i ts rest
    obtain ⟨us, h1, h⟩ := bindOk h
    have hu := mirTypes_ok h1
    subst hu
    have hph := phis_spec ts.length (s.addBlock).1 s.blocks [] rfl
    simp only [List.nil_append] at hph
    simp only [St.addBlock] at h hph
    rw [hph.1, hph.2] at h
    obtain ⟨s1, h2, h⟩ := bindOk h
    obtain ⟨s2, h3, h⟩ := bindOk h
    obtain ⟨s3, h4, h⟩ := bindOk h
    obtain ⟨sB, h5, h⟩ := bindOk h
    obtain ⟨sC, h6, h⟩ := bindOk h
    cases h
    obtain ⟨vs, hv, rfl⟩ := entry_spec _ _ _ _ _ h2
    obtain ⟨_, rfl⟩ := setTerm_spec h3
    obtain ⟨_, rfl⟩ := setTerm_spec h4
    rw [insertAll_spec 0 _ 0 _ [] s.scopes rfl] at h5
    refine ⟨ts, rest, vs, ((s.addBlock).1.phis s.blocks.length (List.replicate ts.length .U32)).1.types, sB, sC, rfl, ?_, ?_, h6, rfl⟩
    · rw [List.length_range'] at hv
      rw [← hv]
      symm
      apply inputs_congr
      rfl
    · rw [← h5]
      congr 1
      simp only [bodyState, List.append_nil, St.addBlock, List.length_append, List.length_modify, List.length_singleton, edges]
  · cases h

/-! ### The invariant -/

theorem pending_lt {s : St} {L : List ℕ} {live : Bool} (h : Inv s L live) {id : ℕ} (hid : id ∈ L) {b : ℕ}
    (hb : s.labels.lookup id = some b) : b < s.blocks.length := by
  obtain ⟨b', ds, h1, h2, h3, _⟩ := h.pending id hid
  rw [hb, Option.some.injEq] at h1
  subst h1
  exact (List.getElem?_eq_some_iff.mp h3).1

theorem current_lt {s : St} {L : List ℕ} (h : Inv s L true) : s.current < s.blocks.length := by
  obtain ⟨c, h1, _⟩ := h.current rfl
  exact (List.getElem?_eq_some_iff.mp h1).1

/-- The current block ends and a new one begins. -/
theorem fork_ok {s t : St} {L : List ℕ} (h : Inv s L true) (x : Block) (hx : x.term = .Unreachable) (tm : Terminator)
    (htm : tm ≠ .Unreachable) (new : List Deferred) (hnew : ∀ d ∈ new, d.source = s.current)
    (hb : t.blocks = (s.blocks ++ [x]).modify s.current fun b => { b with term := tm }) (hl : t.labels = s.labels)
    (hp : t.labelPhis = s.labelPhis) (hd : t.deferred = s.deferred ++ new) (hn : s.next ≤ t.next)
    (hc : t.current = s.blocks.length) (hloops : t.loops = s.loops) :
    Le s t ∧ Inv t L true ∧ t.blocks[s.blocks.length]? = some x := by
  have l1 : Le s { s with blocks := s.blocks ++ [x] } := add_ok rfl rfl rfl rfl (Nat.le_refl _)
  have i1 : Inv { s with blocks := s.blocks ++ [x] } L true := add_inv h rfl rfl rfl rfl (Nat.le_refl _) rfl rfl
  have c1 := close_ok (t := { t with loops := s.loops }) i1 tm htm new hnew hb hl hp hd hn rfl
  have hlt := current_lt h
  have hget : t.blocks[s.blocks.length]? = some x := by
    rw [hb, get_modify, if_neg (by omega)]
    simp
  refine ⟨(l1.trans c1.1).trans (same_ok rfl rfl rfl rfl (Nat.le_refl _)), ?_, hget⟩
  refine Inv.goto (t := t) c1.2 (c := x) (by rw [hc]; exact hget) hx ?_ rfl rfl rfl rfl (Nat.le_refl _) hloops
  intro id hid e
  have e' : s.labels.lookup id = some t.current := hl ▸ e
  have := pending_lt h hid e'
  omega

theorem br_ok {m : FuncTypes} {s t : St} {idx : ℕ} {tg : Target} {ins : List Origin} {L : List ℕ}
    (h : s.genNode m idx (.br tg ins) = .ok t) (hi : Inv s L true) : Le s t ∧ Inv t L false := by
  obtain ⟨vs, hv, ⟨b, ds, ht, rfl⟩ | ⟨d, rfl, hl, rfl⟩⟩ := br_spec h
  · exact close_ok hi (.Jump b) (by simp) _ (edges_source s b ds vs) rfl rfl rfl rfl (Nat.le_refl _) rfl
  · have l1 : Le s { s with blocks := s.blocks ++ [(⟨[], .Return (vs.map .Operand)⟩ : Block)] } :=
      add_ok rfl rfl rfl rfl (Nat.le_refl _)
    have i1 : Inv { s with blocks := s.blocks ++ [(⟨[], .Return (vs.map .Operand)⟩ : Block)] } L true :=
      add_inv hi rfl rfl rfl rfl (Nat.le_refl _) rfl rfl
    have c1 := close_ok i1 (.Jump s.blocks.length) (by simp) []
      (t := { s with blocks := (s.blocks ++ [(⟨[], .Return (vs.map .Operand)⟩ : Block)]).modify s.current fun c =>
                       { c with term := .Jump s.blocks.length }
                     current := s.blocks.length }) (by simp) rfl rfl rfl (by simp) (Nat.le_refl _) rfl
    exact ⟨l1.trans c1.1, c1.2⟩

theorem cond_ok {s t : St} {onTrue : Bool} {tg : Target} {ins : List Origin} {L : List ℕ}
    (h : s.condBranch onTrue tg ins = .ok t) (hi : Inv s L true) : Le s t ∧ Inv t L true := by
  obtain ⟨o, c, _, _, ⟨b, ds, vs, ht, hv, rfl⟩ | ⟨d, vs, rfl, hl, rfl⟩⟩ := cond_spec h
  · have := fork_ok hi ⟨[], .Unreachable⟩ rfl (if onTrue then .If (.Operand c) b s.blocks.length
        else .If (.Operand c) s.blocks.length b) (by split <;> simp) _ (edges_source s b ds vs)
        (t := { s with blocks := (s.blocks ++ [(⟨[], .Unreachable⟩ : Block)]).modify s.current fun x =>
                       { x with term := if onTrue then .If (.Operand c) b s.blocks.length
                                        else .If (.Operand c) s.blocks.length b }
                       deferred := s.deferred ++ edges s b ds vs
                       current := s.blocks.length })
        rfl rfl rfl rfl (Nat.le_refl _) rfl rfl
    exact ⟨this.1, this.2.1⟩
  · have l1 : Le s { s with blocks := s.blocks ++ [(⟨[], .Return (vs.map .Operand)⟩ : Block)] } :=
      add_ok rfl rfl rfl rfl (Nat.le_refl _)
    have i1 : Inv { s with blocks := s.blocks ++ [(⟨[], .Return (vs.map .Operand)⟩ : Block)] } L true :=
      add_inv hi rfl rfl rfl rfl (Nat.le_refl _) rfl rfl
    have := fork_ok i1 ⟨[], .Unreachable⟩ rfl (if onTrue then .If (.Operand c) s.blocks.length (s.blocks.length + 1)
        else .If (.Operand c) (s.blocks.length + 1) s.blocks.length) (by split <;> simp) []
        (t := { s with blocks := (s.blocks ++ [(⟨[], .Return (vs.map .Operand)⟩ : Block)] ++ [(⟨[], .Unreachable⟩ : Block)]).modify s.current fun x =>
                       { x with term := if onTrue then .If (.Operand c) s.blocks.length (s.blocks.length + 1)
                                        else .If (.Operand c) (s.blocks.length + 1) s.blocks.length }
                       current := s.blocks.length + 1 })
        (by simp) rfl rfl rfl (by simp) (Nat.le_refl _) (by simp) rfl
    exact ⟨l1.trans this.1, this.2.1⟩

/-- Entering a loop. -/
theorem body_ok {s : St} {L : List ℕ} (hi : Inv s L true) (n : ℕ) (vs : List ℕ) (types : ℕ → Option MirType) :
    Le s (bodyState s n vs types) ∧ Inv (bodyState s n vs types) L true ∧
      (bodyState s n vs types).blocks[s.blocks.length]? =
        some ⟨emptyPhis (List.range' s.next n), .Jump (s.blocks.length + 1)⟩ ∧
      (bodyState s n vs types).blocks[s.blocks.length + 1]? = some ⟨[], .Unreachable⟩ := by
  obtain ⟨s1, hs1⟩ : ∃ s1 : St, s1 = { s with
      blocks := (s.blocks ++ [(⟨emptyPhis (List.range' s.next n), .Unreachable⟩ : Block)]).modify s.current fun c =>
        { c with term := .Jump s.blocks.length }
      next := s.next + n
      deferred := s.deferred ++ edges s s.blocks.length (List.range' s.next n) vs
      current := s.blocks.length } := ⟨_, rfl⟩
  have f1 := fork_ok (t := s1) hi ⟨emptyPhis (List.range' s.next n), .Unreachable⟩ rfl (.Jump s.blocks.length) (by simp)
    _ (edges_source s s.blocks.length (List.range' s.next n) vs) (by rw [hs1]) (by rw [hs1]) (by rw [hs1]) (by rw [hs1])
    (by rw [hs1]; simp) (by rw [hs1]) (by rw [hs1])
  have hlen : s1.blocks.length = s.blocks.length + 1 := by rw [hs1]; simp
  have hcur : s1.current = s.blocks.length := by rw [hs1]
  obtain ⟨t, ht⟩ : ∃ t : St, t = { bodyState s n vs types with loops := s.loops } := ⟨_, rfl⟩
  have hbl : t.blocks = (s1.blocks ++ [(⟨[], .Unreachable⟩ : Block)]).modify s1.current fun b =>
      { b with term := .Jump (s.blocks.length + 1) } := by rw [ht, hs1]; rfl
  have f2 := fork_ok (t := t) f1.2.1 ⟨[], .Unreachable⟩ rfl (.Jump (s.blocks.length + 1)) (by simp) [] (by simp)
    hbl (by rw [ht, hs1]; rfl) (by rw [ht, hs1]; rfl) (by rw [ht, hs1]; simp [bodyState])
    (by rw [ht, hs1]; simp [bodyState]) (by rw [hlen, ht]; simp [bodyState]) (by rw [ht, hs1])
  have hT : (bodyState s n vs types).blocks = t.blocks := by rw [ht]
  refine ⟨(f1.1.trans f2.1).trans (same_ok hT (by rw [ht]) (by rw [ht]) (by rw [ht]) (by rw [ht])), ?_, ?_, ?_⟩
  · have i := f2.2.1
    rw [ht] at i
    refine ⟨i.current, i.pending, i.apart, i.phisApart, i.sources, i.known, ?_⟩
    intro l hl
    simp only [bodyState, List.mem_cons] at hl
    rcases hl with rfl | hl
    · exact List.nodup_range'
    · exact i.loops l hl
  · rw [hT, hbl, get_modify, if_pos hcur, add_get f1.2.2]
    rfl
  · rw [hT, ← hlen]
    exact f2.2.2

/-- Whether the node's outputs are named in the second pass. -/
def Node.isOp : Node → Bool
  | .op .. => true
  | _ => false

/-- Whether the current block is open after a node. -/
def Node.opens : Node → Bool
  | .br .. => false
  | .loop .. => false
  | _ => true

/-- What the second pass does on nodes whose labels are, without and with those in loops, `top` and `inner`. -/
structure Gen (s t : St) (P : List ℕ) (live : Bool) (inner : List ℕ) (idx : ℕ) (ns : List Node) : Prop where
  le : Le s t
  inv : Inv t P live
  labels : ∀ id, id ∉ inner → t.labels.lookup id = s.labels.lookup id
  phis : ∀ id, id ∉ inner → t.labelPhis.lookup id = s.labelPhis.lookup id
  loops : t.loops = s.loops
  params : t.params = s.params
  scope : ∀ m ms, s.scopes = m :: ms → ∃ m', t.scopes = m' :: ms ∧
    ∀ o : Origin, (∀ j n, ns[j]? = some n → n.isOp = true → o.node ≠ idx + j) → m'.lookup o = m.lookup o

theorem topIds_cons (n : Node) (ns : List Node) : topIds (n :: ns) = topIds [n] ++ topIds ns := by
  cases n <;> rfl

theorem Gen.congr {s t u : St} {P : List ℕ} {live : Bool} {inner : List ℕ} {idx : ℕ} {ns : List Node}
    (hle : Le s u) (hinv : Inv u P live) (h : Gen s t P live inner idx ns)
    (hl : u.labels = t.labels) (hp : u.labelPhis = t.labelPhis) (hw : u.loops = t.loops) (hq : u.params = t.params)
    (hs : u.scopes = t.scopes) : Gen s u P live inner idx ns :=
  ⟨hle, hinv, by rw [hl]; exact h.labels, by rw [hp]; exact h.phis, by rw [hw]; exact h.loops, by rw [hq]; exact h.params,
    by rw [hs]; exact h.scope⟩

/-- Nothing but blocks changes. -/
theorem Gen.plain {s t : St} {P : List ℕ} {live : Bool} {idx : ℕ} {ns : List Node} (hle : Le s t) (hinv : Inv t P live)
    (hl : t.labels = s.labels) (hp : t.labelPhis = s.labelPhis) (hw : t.loops = s.loops) (hq : t.params = s.params)
    (hs : t.scopes = s.scopes) : Gen s t P live [] idx ns :=
  ⟨hle, hinv, fun _ _ => by rw [hl], fun _ _ => by rw [hp], hw, hq, fun m ms h => ⟨m, hs.trans h, fun _ _ => rfl⟩⟩

theorem op_gen {m : FuncTypes} {s t : St} {idx : ℕ} {o : Op} {ins : List Origin} {L : List ℕ}
    (h : s.genNode m idx (.op o ins) = .ok t) (hi : Inv s L true) : ∃ vs is r k u, s.inputs ins = .ok vs ∧
      code m o vs s.next = some (is, r, k) ∧ Emits s u is ∧ u.next = s.next + k ∧
      t = (match r with | some v => u.insert ⟨idx, 0⟩ v | none => u) ∧ Le s t ∧ Inv t L true := by
  simp only [St.genNode] at h
  obtain ⟨⟨u, r⟩, h1, h⟩ := bindOk h
  cases h
  obtain ⟨vs, is, k, hv, hc, he, hn⟩ := convert_spec h1
  have ok := he.ok (by omega) hi (code_notPhi hc).1
  refine ⟨vs, is, r, k, u, hv, hc, he, hn, rfl, ?_⟩
  cases r with
  | none => exact ok
  | some v =>
    have hsame : ∀ w : St, w = u.insert ⟨idx, 0⟩ v → w.blocks = u.blocks ∧ w.labels = u.labels ∧ w.labelPhis = u.labelPhis ∧
        w.deferred = u.deferred ∧ w.next = u.next ∧ w.current = u.current ∧ w.loops = u.loops := by
      rintro w rfl
      unfold St.insert
      split <;> simp
    obtain ⟨a1, a2, a3, a4, a5, a6, a7⟩ := hsame _ rfl
    exact ⟨ok.1.trans (same_ok a1 a2 a3 a4 (Nat.le_of_eq a5.symm)), same_inv ok.2 a1 a2 a3 a4 (Nat.le_of_eq a5.symm) a6 a7⟩

/-- Whether the node is a label. -/
def Node.isLabel : Node → Bool
  | .label .. => true
  | _ => false

theorem insert_same (s : St) (o : Origin) (v : ℕ) : (s.insert o v).blocks = s.blocks ∧ (s.insert o v).labels = s.labels ∧
    (s.insert o v).labelPhis = s.labelPhis ∧ (s.insert o v).loops = s.loops ∧ (s.insert o v).params = s.params := by
  unfold St.insert
  split <;> simp

theorem seqOk_cons {live : Bool} {n : Node} {ns : List Node} (h : seqOk live (n :: ns) = true) :
    (live = true ∨ n.isLabel = true) ∧ seqOk n.opens ns = true := by
  cases live <;> cases n <;> simp_all [seqOk, Node.isLabel, Node.opens]

mutual
theorem genNode_ok (m : FuncTypes) : ∀ (n : Node) (s t : St) (idx : ℕ) (P : List ℕ) (live : Bool),
    s.genNode m idx n = .ok t → (live = true ∨ n.isLabel = true) → n.deepOk = true → Inv s (topIds [n] ++ P) live →
    (topIds [n] ++ n.inner).Nodup → (∀ id ∈ P, id ∉ topIds [n] ∧ id ∉ n.inner) → Fresh s n.inner →
    s.scopes ≠ [] → Gen s t P n.opens n.inner idx [n]
  | .inputs ts, s, t, idx, P, live, h, hl, hd, hi, hnd, hP, hf, hs => by
    simp only [St.genNode, Except.ok.injEq] at h
    subst h
    simp only [Node.isLabel, Bool.false_eq_true, or_false] at hl
    subst hl
    exact Gen.plain (Le.refl _) hi rfl rfl rfl rfl rfl
  | .op o ins, s, t, idx, P, live, h, hl, hd, hi, hnd, hP, hf, hs => by
    simp only [Node.isLabel, Bool.false_eq_true, or_false] at hl
    subst hl
    obtain ⟨vs, is, r, k, u, hv, hc, he, hn, ht, hle, hinv⟩ := op_gen h hi
    cases r with
    | none =>
      simp only at ht
      subst ht
      exact Gen.plain hle hinv he.labels he.phis he.loops he.params he.scopes
    | some v =>
      simp only at ht
      subst ht
      obtain ⟨_, a2, a3, a7, a8⟩ := insert_same u ⟨idx, 0⟩ v
      refine ⟨hle, hinv, fun _ _ => by rw [a2, he.labels], fun _ _ => by rw [a3, he.phis], a7.trans he.loops,
        a8.trans he.params, fun mm ms hm => ⟨(⟨idx, 0⟩, v) :: mm, by simp [St.insert, he.scopes, hm], fun o' ho => ?_⟩⟩
      have := ho 0 (.op o ins) (by simp) rfl
      rw [List.lookup_cons, beq_eq_false_iff_ne.mpr (by rintro rfl; exact this rfl)]
  | .label id ts, s, t, idx, P, live, h, hl, hd, hi, hnd, hP, hf, hs => by
    simp only [St.genNode] at h
    have hi' : Inv s (id :: P) live := hi
    obtain ⟨b, ds, h1, h2, h3, h4, h5, h6⟩ := hi'.pending id (by simp)
    rw [h1] at h
    simp only [Except.ok.injEq] at h
    subst h
    refine Gen.plain (same_ok rfl rfl rfl rfl (Nat.le_refl _)) ?_ rfl rfl rfl rfl rfl
    refine (hi'.fewer fun i h => List.mem_cons_of_mem _ h).goto (c := ⟨emptyPhis ds, .Unreachable⟩) h3 rfl ?_ rfl rfl rfl rfl
      (Nat.le_refl _) rfl
    intro j hj e
    refine hi'.apart id (by simp) j (List.mem_cons_of_mem _ hj) ?_ b h1 e
    rintro rfl
    exact (hP id hj).1 (by simp [topIds])
  | .br tg ins, s, t, idx, P, live, h, hl, hd, hi, hnd, hP, hf, hs => by
    simp only [Node.isLabel, Bool.false_eq_true, or_false] at hl
    subst hl
    obtain ⟨l1, i1⟩ := br_ok h hi
    obtain ⟨vs, hv, ⟨b, ds, ht, rfl⟩ | ⟨d, rfl, hl, rfl⟩⟩ := br_spec h
    · exact Gen.plain l1 i1 rfl rfl rfl rfl rfl
    · exact Gen.plain l1 i1 rfl rfl rfl rfl rfl
  | .brIf tg ins, s, t, idx, P, live, h, hl, hd, hi, hnd, hP, hf, hs => by
    simp only [Node.isLabel, Bool.false_eq_true, or_false] at hl
    subst hl
    simp only [St.genNode] at h
    obtain ⟨l1, i1⟩ := cond_ok h hi
    obtain ⟨o, c, _, _, ⟨b, ds, vs, ht, hv, rfl⟩ | ⟨d, vs, rfl, hl, rfl⟩⟩ := cond_spec h
    · exact Gen.plain l1 i1 rfl rfl rfl rfl rfl
    · exact Gen.plain l1 i1 rfl rfl rfl rfl rfl
  | .brIfZero tg ins, s, t, idx, P, live, h, hl, hd, hi, hnd, hP, hf, hs => by
    simp only [Node.isLabel, Bool.false_eq_true, or_false] at hl
    subst hl
    simp only [St.genNode] at h
    obtain ⟨l1, i1⟩ := cond_ok h hi
    obtain ⟨o, c, _, _, ⟨b, ds, vs, ht, hv, rfl⟩ | ⟨d, vs, rfl, hl, rfl⟩⟩ := cond_spec h
    · exact Gen.plain l1 i1 rfl rfl rfl rfl rfl
    · exact Gen.plain l1 i1 rfl rfl rfl rfl rfl
  | .brTable _, s, t, idx, P, live, h, hl, hd, hi, hnd, hP, hf, hs => by
    simp only [St.genNode] at h
    cases h
  | .loop ins body, s, t, idx, P, live, h, hl, hd, hi, hnd, hP, hf, hs => by
    simp only [Node.isLabel, Bool.false_eq_true, or_false] at hl
    subst hl
    obtain ⟨ts, rest, vs, types, sB, sC, hb, hv, ha, hg, rfl⟩ := loop_spec h
    have hi' : Inv s P true := hi
    obtain ⟨lA, iA, _, _⟩ := body_ok hi' ts.length vs types
    simp only [topIds, Node.inner, List.nil_append, List.mem_append, not_or] at hnd hP hf ⊢
    simp only [Node.deepOk, Bool.and_eq_true] at hd
    obtain ⟨n1, n2, n3⟩ := List.nodup_append.mp hnd
    have hAl : (bodyState s ts.length vs types).labels = s.labels := rfl
    have hAp : (bodyState s ts.length vs types).labelPhis = s.labelPhis := rfl
    have al := allocate_ok body (bodyState s ts.length vs types) sB P true 0 _ s.scopes ha iA
      (fun i hi => hf i (List.mem_append.mpr (Or.inl hi))) n1 rfl
    obtain ⟨m', e1, _, _⟩ := al.scope
    have ih := genNodes_ok m body sB sC 0 P true hg hd.1 hd.2 al.inv hnd (fun i hi => (hP i hi).2)
      (fun i hi => by
        have hne : i ∉ topIds body := fun h => n3 i h i hi rfl
        rw [al.labels i hne, al.phis i hne]
        exact hf i (List.mem_append.mpr (Or.inr hi))) (by rw [e1]; simp)
    obtain ⟨m'', e2, _⟩ := ih.scope m' s.scopes e1
    have hw : sC.loops = ⟨s.blocks.length, List.range' s.next ts.length⟩ :: s.loops := by
      rw [ih.loops, al.loops]
      rfl
    refine ⟨((lA.trans al.le).trans ih.le).trans (same_ok rfl rfl rfl rfl (Nat.le_refl _)), ?_, ?_, ?_, ?_, ?_, ?_⟩
    · refine ⟨fun h => by simp [Node.opens] at h, fun id hid => ?_, ih.inv.apart, ih.inv.phisApart, ih.inv.sources, ih.inv.known,
        fun l hl => ih.inv.loops l (List.mem_of_mem_tail hl)⟩
      obtain ⟨b, ds, h1, h2, h3, h4, h5⟩ := ih.inv.pending id hid
      exact ⟨b, ds, h1, h2, h3, fun h => by simp [Node.opens] at h, h5⟩
    · intro i hi
      simp only [List.mem_append, not_or] at hi
      exact (ih.labels i hi.2).trans (al.labels i hi.1)
    · intro i hi
      simp only [List.mem_append, not_or] at hi
      exact (ih.phis i hi.2).trans (al.phis i hi.1)
    · rw [hw]
      rfl
    · exact ih.params.trans al.params
    · intro mm ms hm
      exact ⟨mm, by rw [e2]; exact hm, fun _ _ => rfl⟩
theorem genNodes_ok (m : FuncTypes) : ∀ (ns : List Node) (s t : St) (idx : ℕ) (P : List ℕ) (live : Bool),
    s.genNodes m idx ns = .ok t → seqOk live ns = true → deepOk ns = true → Inv s (topIds ns ++ P) live →
    (topIds ns ++ innerIds ns).Nodup → (∀ id ∈ P, id ∉ topIds ns ∧ id ∉ innerIds ns) → Fresh s (innerIds ns) →
    s.scopes ≠ [] → Gen s t P false (innerIds ns) idx ns
  | [], s, t, idx, P, live, h, hl, hd, hi, hnd, hP, hf, hs => by
    simp only [St.genNodes, Except.ok.injEq] at h
    subst h
    exact Gen.plain (Le.refl _) hi.weaken rfl rfl rfl rfl rfl
  | n :: ns, s, t, idx, P, live, h, hl, hd, hi, hnd, hP, hf, hs => by
    simp only [St.genNodes] at h
    obtain ⟨s1, h1, h⟩ := bindOk h
    obtain ⟨q1, q2⟩ := seqOk_cons hl
    simp only [deepOk, Bool.and_eq_true] at hd
    rw [topIds_cons] at hi hnd hP
    simp only [innerIds] at hnd hP hf ⊢
    have hperm : ((topIds [n] ++ n.inner) ++ (topIds ns ++ innerIds ns)).Nodup := by
      refine (List.Perm.nodup_iff ?_).mp hnd
      rw [List.append_assoc, List.append_assoc]
      refine List.Perm.append_left _ ?_
      rw [← List.append_assoc, ← List.append_assoc]
      exact List.Perm.append_right _ List.perm_append_comm
    obtain ⟨n1, n2, n3⟩ := List.nodup_append.mp hperm
    have g1 := genNode_ok m n s s1 idx (topIds ns ++ P) live h1 q1 hd.1 (by rw [← List.append_assoc]; exact hi) n1
      (fun i hi => by
        rcases List.mem_append.mp hi with hi' | hi'
        · constructor
          · exact fun h => n3 i (List.mem_append.mpr (Or.inl h)) i (List.mem_append.mpr (Or.inl hi')) rfl
          · exact fun h => n3 i (List.mem_append.mpr (Or.inr h)) i (List.mem_append.mpr (Or.inl hi')) rfl
        · have := hP i hi'
          simp only [List.mem_append, not_or] at this
          exact ⟨this.1.1, this.2.1⟩)
      (fun i hi => hf i (List.mem_append.mpr (Or.inl hi))) hs
    have hs1 : s1.scopes ≠ [] := by
      cases hm : s.scopes with
      | nil => exact absurd hm hs
      | cons mm ms =>
        obtain ⟨m', e, _⟩ := g1.scope mm ms hm
        rw [e]
        simp
    have g2 := genNodes_ok m ns s1 t (idx + 1) P n.opens h q2 hd.2 g1.inv n2
      (fun i hi => by
        have := hP i hi
        simp only [List.mem_append, not_or] at this
        exact ⟨this.1.2, this.2.2⟩)
      (fun i hi => by
        have hne : i ∉ n.inner := fun h =>
          n3 i (List.mem_append.mpr (Or.inr h)) i (List.mem_append.mpr (Or.inr hi)) rfl
        rw [g1.labels i hne, g1.phis i hne]
        exact hf i (List.mem_append.mpr (Or.inr hi))) hs1
    refine ⟨g1.le.trans g2.le, g2.inv, ?_, ?_, g2.loops.trans g1.loops, g2.params.trans g1.params, ?_⟩
    · intro i hi
      simp only [List.mem_append, not_or] at hi
      exact (g2.labels i hi.2).trans (g1.labels i hi.1)
    · intro i hi
      simp only [List.mem_append, not_or] at hi
      exact (g2.phis i hi.2).trans (g1.phis i hi.1)
    · intro mm ms hm
      obtain ⟨m1, e1, f1⟩ := g1.scope mm ms hm
      obtain ⟨m2, e2, f2⟩ := g2.scope m1 ms e1
      refine ⟨m2, e2, fun o ho => ?_⟩
      rw [f2 o (fun j n hj hn => by
        have := ho (j + 1) n (by simpa using hj) hn
        omega)]
      exact f1 o (fun j n' hj hn => by
        cases j with
        | zero => exact ho 0 n' (by simpa using hj) hn
        | succ j => simp at hj)
end

/-- Lowering a list of nodes in two parts. -/
theorem genNodes_append (m : FuncTypes) : ∀ (ns ms : List Node) (s t : St) (idx : ℕ), s.genNodes m idx (ns ++ ms) = .ok t →
    ∃ u, s.genNodes m idx ns = .ok u ∧ u.genNodes m (idx + ns.length) ms = .ok t
  | [], ms, s, t, idx, h => ⟨s, rfl, h⟩
  | n :: ns, ms, s, t, idx, h => by
    simp only [List.cons_append, St.genNodes] at h
    obtain ⟨s1, h1, h⟩ := bindOk h
    obtain ⟨u, h2, h3⟩ := genNodes_append m ns ms s1 t (idx + 1) h
    refine ⟨u, ?_, ?_⟩
    · simp only [St.genNodes, h1]
      exact h2
    · rw [List.length_cons, show idx + (ns.length + 1) = idx + 1 + ns.length by omega]
      exact h3

theorem seqOk_append : ∀ (ns ms : List Node) (live : Bool) (id : ℕ) (ts : List ValType),
    seqOk live (ns ++ .label id ts :: ms) = true → seqOk live ns = true ∧ seqOk true ms = true
  | [], ms, live, id, ts, h => by
    cases live <;> simp_all [seqOk]
  | n :: ns, ms, live, id, ts, h => by
    cases live <;> cases n <;> simp only [List.cons_append, seqOk, Bool.false_eq_true] at h ⊢ <;>
      exact seqOk_append ns ms _ id ts h

theorem topIds_append : ∀ ns ms : List Node, topIds (ns ++ ms) = topIds ns ++ topIds ms
  | [], ms => rfl
  | n :: ns, ms => by
    rw [List.cons_append, topIds_cons, topIds_append ns ms, topIds_cons n ns, List.append_assoc]

theorem innerIds_append : ∀ ns ms : List Node, innerIds (ns ++ ms) = innerIds ns ++ innerIds ms
  | [], ms => rfl
  | n :: ns, ms => by
    simp only [List.cons_append, innerIds, innerIds_append ns ms, List.append_assoc]

theorem deepOk_append : ∀ ns ms : List Node, deepOk (ns ++ ms) = (deepOk ns && deepOk ms)
  | [], ms => by simp [deepOk]
  | n :: ns, ms => by
    simp only [List.cons_append, deepOk, deepOk_append ns ms, Bool.and_assoc]

end Wasm
end CairoM
