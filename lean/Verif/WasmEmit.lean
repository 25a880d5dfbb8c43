import Verif.WasmGen

/-!
# The WebAssembly front end: operators and branches

`code` describes the instructions emitted for an operator as a function of the names of its inputs and the next free
name; `convert_spec` shows that this is what `convert` emits.
-/

namespace CairoM
namespace Wasm

open Mir

attribute [local irreducible] topCell signBit

/-- Instructions were added to the current block, and names were taken. -/
structure Emits (s t : St) (more : List Instr) : Prop where
  get : ∀ j : ℕ, t.blocks[j]? =
    if s.current = j then s.blocks[j]?.map (fun b => { b with instrs := b.instrs ++ more }) else s.blocks[j]?
  labels : t.labels = s.labels
  phis : t.labelPhis = s.labelPhis
  deferred : t.deferred = s.deferred
  current : t.current = s.current
  loops : t.loops = s.loops
  scopes : t.scopes = s.scopes
  params : t.params = s.params

theorem Emits.fresh (s : St) (ty : MirType) : Emits s (s.fresh ty).1 [] :=
  ⟨fun j => by simp [St.fresh], rfl, rfl, rfl, rfl, rfl, rfl, rfl⟩

theorem Emits.push {s t : St} {i : Instr} (h : s.push i = .ok t) : Emits s t [i] ∧ t.next = s.next := by
  unfold St.push at h
  split at h
  · cases h
    exact ⟨⟨fun j => get_modify _ _ _ _, rfl, rfl, rfl, rfl, rfl, rfl, rfl⟩, rfl⟩
  · cases h

theorem Emits.trans {s t u : St} {is js : List Instr} (h : Emits s t is) (k : Emits t u js) : Emits s u (is ++ js) := by
  refine ⟨fun j => ?_, k.labels.trans h.labels, k.phis.trans h.phis, k.deferred.trans h.deferred, k.current.trans h.current,
    k.loops.trans h.loops, k.scopes.trans h.scopes, k.params.trans h.params⟩
  rw [k.get, h.get, h.current]
  by_cases e : s.current = j
  · simp [e, Function.comp_def, List.append_assoc]
  · simp [e]

theorem Emits.modify {s t : St} {more : List Instr} (h : Emits s t more) :
    t.blocks = s.blocks.modify s.current fun b => { b with instrs := b.instrs ++ more } := by
  apply List.ext_getElem?
  intro j
  rw [h.get, get_modify]

theorem Emits.ok {s t : St} {L : List ℕ} {more : List Instr} (h : Emits s t more) (hn : s.next ≤ t.next) (hi : Inv s L true)
    (hm : ∀ i ∈ more, notPhi i) : Le s t ∧ Inv t L true :=
  push_ok hi more hm h.modify h.labels h.phis h.deferred hn h.current h.loops

/-! ### Operators -/

/-- The address computation. -/
def addressCode (a offset n : ℕ) : List Instr :=
  [.BinaryOp .U32Div n (.Operand a) (.Literal (.Integer 2)), .Cast (n + 1) (.Operand n) .U32 .Felt,
    .BinaryOp .Sub (n + 2) (.Literal (.Integer (topCell offset))) (.Operand (n + 1))]

/-- The instructions for a binary operator. -/
def binCode (b : Bin) (l r n : ℕ) : Option (List Instr × Option ℕ × ℕ) :=
  match signedOp b with
  | none => (binOp b).map fun op => ([.BinaryOp op n (.Operand l) (.Operand r)], some n, 1)
  | some op => some ([.BinaryOp .U32Add n (.Operand l) (.Literal (.Integer signBit)),
      .BinaryOp .U32Add (n + 1) (.Operand r) (.Literal (.Integer signBit)),
      .BinaryOp op (n + 2) (.Operand n) (.Operand (n + 1))], some (n + 2), 3)

/-- The instruction for a call. -/
def callCode (f : ℕ) (vs : List ℕ) (t : List ValType × List ValType) (n : ℕ) : Instr :=
  .Call [n] f (vs.map .Operand) ⟨List.replicate t.1.length .U32, List.replicate t.2.length .U32⟩

/-- The instructions for an operator, the name of its result and the number of names taken. -/
def code (m : FuncTypes) (o : Op) (vs : List ℕ) (n : ℕ) : Option (List Instr × Option ℕ × ℕ) :=
  match o with
  | .bin b =>
    match vs with
    | l :: r :: _ => binCode b l r n
    | _ => none
  | .eqz =>
    match vs with
    | l :: _ => some ([.BinaryOp .U32Eq n (.Operand l) (.Literal (.Integer 0))], some n, 1)
    | _ => none
  | .const v => some ([.Assign n (.Literal (.Integer v)) .U32], some n, 1)
  | .call f => (m f).map fun t => ([callCode f vs t n], some n, 1)
  | .load offset =>
    match vs with
    | a :: _ => some (addressCode a offset n ++ [.Load (n + 3) ⟨n + 2, []⟩ .U32], some (n + 3), 4)
    | _ => none
  | .store offset =>
    match vs with
    | a :: v :: _ => some (addressCode a offset n ++ [.Store ⟨n + 2, []⟩ (.Operand v) .U32], none, 3)
    | _ => none
  | .localAccess => none
  | .other => none

theorem address_spec {s t : St} {a offset c : ℕ} (h : s.address a offset = .ok (t, c)) :
    c = s.next + 2 ∧ t.next = s.next + 3 ∧ Emits s t (addressCode a offset s.next) := by
  unfold St.address at h
  obtain ⟨s1, h1, h⟩ := bindOk h
  obtain ⟨s2, h2, h⟩ := bindOk h
  obtain ⟨s3, h3, h⟩ := bindOk h
  cases h
  have e := (((Emits.fresh s .U32).trans (Emits.fresh _ .Felt)).trans (Emits.fresh _ .Felt)).trans (Emits.push h1).1
  have e := (e.trans (Emits.push h2).1).trans (Emits.push h3).1
  refine ⟨rfl, ?_, e⟩
  rw [(Emits.push h3).2, (Emits.push h2).2, (Emits.push h1).2]

theorem convert_spec {m : FuncTypes} {s t : St} {o : Op} {ins : List Origin} {r : Option ℕ}
    (h : s.convert m o ins = .ok (t, r)) : ∃ vs is k, s.inputs ins = .ok vs ∧ code m o vs s.next = some (is, r, k) ∧
      Emits s t is ∧ t.next = s.next + k := by
  unfold St.convert at h
  obtain ⟨vs, hv, h⟩ := bindOk h
  refine ⟨vs, ?_⟩
  rw [hv]
  cases o with
  | bin b =>
    rcases vs with _ | ⟨l, _ | ⟨r', rest⟩⟩
    · simp only [reduceCtorEq] at h
    · simp only [reduceCtorEq] at h
    simp only at h
    cases hs : signedOp b with
    | none =>
      simp only [hs, St.binop] at h
      cases hb : binOp b with
      | none => simp only [hb, reduceCtorEq] at h
      | some op =>
        simp only [hb] at h
        obtain ⟨s1, h1, h⟩ := bindOk h
        cases h
        exact ⟨_, 1, rfl, by simp only [code, binCode, hs, hb, Option.map_some]; rfl,
          (Emits.fresh s _).trans (Emits.push h1).1, by rw [(Emits.push h1).2]; rfl⟩
    | some op =>
      simp only [hs] at h
      obtain ⟨s1, h1, h⟩ := bindOk h
      obtain ⟨s2, h2, h⟩ := bindOk h
      obtain ⟨s3, h3, h⟩ := bindOk h
      cases h
      have e := (((Emits.fresh s .U32).trans (Emits.fresh _ .U32)).trans (Emits.fresh _ .Bool)).trans (Emits.push h1).1
      have e := (e.trans (Emits.push h2).1).trans (Emits.push h3).1
      refine ⟨_, 3, rfl, by simp only [code, binCode, hs]; rfl, e, ?_⟩
      rw [(Emits.push h3).2, (Emits.push h2).2, (Emits.push h1).2]
      rfl
  | eqz =>
    rcases vs with _ | ⟨l, rest⟩
    · simp only [reduceCtorEq] at h
    simp only at h
    obtain ⟨s1, h1, h⟩ := bindOk h
    cases h
    exact ⟨_, 1, rfl, by simp only [code]; rfl, (Emits.fresh s _).trans (Emits.push h1).1, by rw [(Emits.push h1).2]; rfl⟩
  | const v =>
    simp only at h
    obtain ⟨s1, h1, h⟩ := bindOk h
    cases h
    exact ⟨_, 1, rfl, by simp only [code]; rfl, (Emits.fresh s _).trans (Emits.push h1).1, by rw [(Emits.push h1).2]; rfl⟩
  | call f =>
    simp only at h
    cases hm : m f with
    | none => simp only [hm, reduceCtorEq] at h
    | some p =>
      obtain ⟨ps, rs⟩ := p
      simp only [hm] at h
      obtain ⟨ps', h1, h⟩ := bindOk h
      obtain ⟨rs', h2, h⟩ := bindOk h
      obtain ⟨s1, h3, h⟩ := bindOk h
      cases h
      rw [mirTypes_ok h1, mirTypes_ok h2] at h3
      exact ⟨_, 1, rfl, by simp only [code, hm, Option.map_some]; rfl, (Emits.fresh s _).trans (Emits.push h3).1,
        by rw [(Emits.push h3).2]; rfl⟩
  | load offset =>
    rcases vs with _ | ⟨a, rest⟩
    · simp only [reduceCtorEq] at h
    simp only at h
    obtain ⟨⟨s1, c⟩, h1, h⟩ := bindOk h
    obtain ⟨s2, h2, h⟩ := bindOk h
    cases h
    obtain ⟨rfl, hn, he⟩ := address_spec h1
    have e := (he.trans (Emits.fresh _ .U32)).trans (Emits.push h2).1
    have h3 : (s1.fresh .U32).2 = s.next + 3 := hn
    simp only [h3] at e
    refine ⟨_, 4, rfl, ?_, e, ?_⟩
    · simp only [code, h3]
      rfl
    · rw [(Emits.push h2).2]
      simp [St.fresh, hn]
  | store offset =>
    rcases vs with _ | ⟨a, _ | ⟨v, rest⟩⟩
    · simp only [reduceCtorEq] at h
    · simp only at h
      obtain ⟨⟨s1, c⟩, h1, h⟩ := bindOk h
      cases h
    simp only at h
    obtain ⟨⟨s1, c⟩, h1, h⟩ := bindOk h
    obtain ⟨s2, h2, h⟩ := bindOk h
    cases h
    obtain ⟨rfl, hn, he⟩ := address_spec h1
    have e := he.trans (Emits.push h2).1
    refine ⟨_, 3, rfl, by simp only [code], e, ?_⟩
    rw [(Emits.push h2).2, hn]
  | localAccess => cases h
  | other => cases h

theorem code_notPhi {m : FuncTypes} {o : Op} {vs : List ℕ} {n k : ℕ} {is : List Instr} {r : Option ℕ}
    (h : code m o vs n = some (is, r, k)) : (∀ i ∈ is, notPhi i) ∧ ∀ v, r = some v → n ≤ v ∧ v < n + k := by
  cases o with
  | bin b =>
    rcases vs with _ | ⟨l, _ | ⟨r', rest⟩⟩
    · simp [code] at h
    · simp [code] at h
    simp only [code, binCode] at h
    cases hs : signedOp b with
    | none =>
      simp only [hs, Option.map_eq_some_iff, Prod.mk.injEq] at h
      obtain ⟨op, _, rfl, rfl, rfl⟩ := h
      exact ⟨by simp [notPhi], fun v hv => by cases hv; omega⟩
    | some op =>
      simp only [hs, Option.some.injEq, Prod.mk.injEq] at h
      obtain ⟨rfl, rfl, rfl⟩ := h
      exact ⟨by simp [notPhi], fun v hv => by cases hv; omega⟩
  | eqz =>
    rcases vs with _ | ⟨l, rest⟩
    · simp [code] at h
    simp only [code, Option.some.injEq, Prod.mk.injEq] at h
    obtain ⟨rfl, rfl, rfl⟩ := h
    exact ⟨by simp [notPhi], fun v hv => by cases hv; omega⟩
  | const v =>
    simp only [code, Option.some.injEq, Prod.mk.injEq] at h
    obtain ⟨rfl, rfl, rfl⟩ := h
    exact ⟨by simp [notPhi], fun v hv => by cases hv; omega⟩
  | call f =>
    simp only [code, Option.map_eq_some_iff, Prod.mk.injEq] at h
    obtain ⟨p, _, rfl, rfl, rfl⟩ := h
    exact ⟨by simp [notPhi, callCode], fun v hv => by cases hv; omega⟩
  | load offset =>
    rcases vs with _ | ⟨l, rest⟩
    · simp [code] at h
    simp only [code, Option.some.injEq, Prod.mk.injEq] at h
    obtain ⟨rfl, rfl, rfl⟩ := h
    exact ⟨by simp [notPhi, addressCode], fun v hv => by cases hv; omega⟩
  | store offset =>
    rcases vs with _ | ⟨l, _ | ⟨r', rest⟩⟩
    · simp [code] at h
    · simp [code] at h
    simp only [code, Option.some.injEq, Prod.mk.injEq] at h
    obtain ⟨rfl, rfl, rfl⟩ := h
    exact ⟨by simp [notPhi, addressCode], fun v hv => by cases hv⟩
  | localAccess => simp [code] at h
  | other => simp [code] at h

/-! ### Branches -/

theorem setTerm_spec {s t : St} {b : ℕ} {tm : Terminator} (h : s.setTerm b tm = .ok t) :
    b < s.blocks.length ∧ t = { s with blocks := s.blocks.modify b fun c => { c with term := tm } } := by
  unfold St.setTerm at h
  split at h
  · rename_i hlt
    cases h
    exact ⟨hlt, rfl⟩
  · cases h

/-- The block a branch leads to, and the names of the values it passes; `none` for a return. -/
def targetOf (s : St) : Target → Option (ℕ × List ℕ)
  | .label id =>
    match s.labels.lookup id, s.labelPhis.lookup id with
    | some b, some ds => some (b, ds)
    | _, _ => none
  | .outer d => s.loops[d]?.map fun l => (l.header, l.phis)

theorem resolve_spec {s t : St} {ins : List Origin} {tg : Target} {b : ℕ} (h : s.resolve ins tg = .ok (t, b)) :
    (t = s ∧ ((∃ id, tg = .label id ∧ s.labels.lookup id = some b) ∨
      ∃ d l, tg = .outer d ∧ s.loops[d]? = some l ∧ b = l.header)) ∨
    (∃ d vs, tg = .outer d ∧ s.loops = [] ∧ s.inputs ins = .ok vs ∧ b = s.blocks.length ∧
      t = { s with blocks := s.blocks ++ [⟨[], .Return (vs.map .Operand)⟩] }) := by
  cases tg with
  | label id =>
    simp only [St.resolve] at h
    cases hl : s.labels.lookup id with
    | none => rw [hl] at h; cases h
    | some b' =>
      rw [hl] at h
      cases h
      exact Or.inl ⟨rfl, Or.inl ⟨id, rfl, hl⟩⟩
  | outer d =>
    simp only [St.resolve] at h
    cases hl : s.loops with
    | nil =>
      rw [hl] at h
      obtain ⟨vs, h1, h⟩ := bindOk h
      obtain ⟨s1, h2, h⟩ := bindOk h
      cases h
      obtain ⟨_, rfl⟩ := setTerm_spec h2
      refine Or.inr ⟨d, vs, rfl, rfl, ?_, rfl, ?_⟩
      · have : ∀ ins vs, St.inputs (s.addBlock).1 ins = .ok vs → s.inputs ins = .ok vs := by
          intro ins
          induction ins with
          | nil => exact fun vs h => h
          | cons o os ih =>
            intro vs h
            simp only [St.inputs] at h ⊢
            obtain ⟨v, h3, h⟩ := bindOk h
            obtain ⟨ws, h4, h⟩ := bindOk h
            have h3 : s.input o = .ok v := h3
            rw [h3, ih ws h4]
            exact h
        exact this ins vs h1
      · simp only [St.addBlock, modify_last, hl]
    | cons l ls =>
      rw [hl] at h
      simp only at h
      cases hd : (l :: ls)[d]? with
      | none => rw [hd] at h; cases h
      | some l' =>
        rw [hd] at h
        cases h
        exact Or.inl ⟨rfl, Or.inr ⟨d, l', rfl, hd, rfl⟩⟩

theorem record_spec {s t : St} {ins : List Origin} {tg : Target} (h : s.record ins tg = .ok t) :
    (∃ b ds vs, targetOf s tg = some (b, ds) ∧ s.inputs ins = .ok vs ∧ t = s.defer b ds vs) ∨
    (∃ d, tg = .outer d ∧ s.loops[d]? = none ∧ t = s) := by
  cases tg with
  | label id =>
    simp only [St.record] at h
    obtain ⟨vs, h1, h⟩ := bindOk h
    cases hp : s.labelPhis.lookup id with
    | none => rw [hp] at h; cases h
    | some ds =>
      rw [hp] at h
      cases hl : s.labels.lookup id with
      | none => rw [hl] at h; cases h
      | some b =>
        rw [hl] at h
        cases h
        exact Or.inl ⟨b, ds, vs, by simp [targetOf, hp, hl], h1, rfl⟩
  | outer d =>
    simp only [St.record] at h
    cases hl : s.loops[d]? with
    | none =>
      rw [hl] at h
      cases h
      exact Or.inr ⟨d, rfl, hl, rfl⟩
    | some l =>
      rw [hl] at h
      obtain ⟨vs, h1, h⟩ := bindOk h
      cases h
      exact Or.inl ⟨l.header, l.phis, vs, by simp [targetOf, hl], h1, rfl⟩

end Wasm
end CairoM
