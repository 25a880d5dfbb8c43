import Verif.Wasm

/-!
# The WebAssembly front end: what later steps leave alone

A block is closed once its terminator is set. `Le s t` says that a later state `t` extends `s`: closed blocks are
unchanged, the others only got more instructions, and no operand was recorded for an edge that leaves a closed block.
-/

namespace CairoM
namespace Wasm

open Mir

/-- The terminator of the block has been set. -/
def Closed (s : St) (b : ℕ) : Prop := ∃ c, s.blocks[b]? = some c ∧ c.term ≠ .Unreachable

def notPhi : Instr → Prop
  | .Phi .. => False
  | _ => True

/-- The state `t` extends `s`. -/
structure Le (s t : St) : Prop where
  blocks : ∀ (b : ℕ) (c : Block), s.blocks[b]? = some c → ∃ c' : Block, t.blocks[b]? = some c' ∧
    ∃ more, c'.instrs = c.instrs ++ more ∧ ∀ i ∈ more, notPhi i
  closed : ∀ (b : ℕ) (c : Block), s.blocks[b]? = some c → c.term ≠ .Unreachable → t.blocks[b]? = some c
  defers : ∀ d ∈ s.deferred, d ∈ t.deferred
  sealed : ∀ d ∈ t.deferred, Closed s d.source → d ∈ s.deferred
  labels : ∀ id b, s.labels.lookup id = some b → t.labels.lookup id = some b
  phis : ∀ id ds, s.labelPhis.lookup id = some ds → t.labelPhis.lookup id = some ds
  next : s.next ≤ t.next

theorem Le.refl (s : St) : Le s s :=
  ⟨fun b c h => ⟨c, h, [], by simp⟩, fun _ _ h _ => h, fun _ h => h, fun _ h _ => h, fun _ _ h => h, fun _ _ h => h, Nat.le_refl _⟩

theorem Le.isClosed {s t : St} (h : Le s t) {b : ℕ} (hc : Closed s b) : Closed t b := by
  obtain ⟨c, hb, hn⟩ := hc
  exact ⟨c, h.closed b c hb hn, hn⟩

theorem Le.trans {s t u : St} (h : Le s t) (k : Le t u) : Le s u := by
  refine ⟨fun b c hb => ?_, fun b c hb hn => k.closed b c (h.closed b c hb hn) hn, fun d hd => k.defers d (h.defers d hd),
    fun d hd hc => h.sealed d (k.sealed d hd (h.isClosed hc)) hc, fun id b hb => k.labels id b (h.labels id b hb),
    fun id b hb => k.phis id b (h.phis id b hb), Nat.le_trans h.next k.next⟩
  obtain ⟨c1, h1, m1, e1, n1⟩ := h.blocks b c hb
  obtain ⟨c2, h2, m2, e2, n2⟩ := k.blocks b c1 h1
  refine ⟨c2, h2, m1 ++ m2, by rw [e2, e1, List.append_assoc], fun i hi => ?_⟩
  rcases List.mem_append.mp hi with hi | hi
  · exact n1 i hi
  · exact n2 i hi

/-- The phi nodes with the given names. -/
def emptyPhis (ds : List ℕ) : List Instr := ds.map fun d => .Phi d .U32 []

/-- The state in the middle of the second pass: `L` are the labels not visited yet, `live` tells that the current block is
open. -/
structure Inv (s : St) (L : List ℕ) (live : Bool) : Prop where
  current : live = true → ∃ c : Block, s.blocks[s.current]? = some c ∧ c.term = .Unreachable
  pending : ∀ id ∈ L, ∃ b ds, s.labels.lookup id = some b ∧ s.labelPhis.lookup id = some ds ∧
    s.blocks[b]? = some ⟨emptyPhis ds, .Unreachable⟩ ∧ (live = true → b ≠ s.current) ∧ ds.Nodup ∧ ∀ d ∈ ds, d < s.next
  apart : ∀ i ∈ L, ∀ j ∈ L, i ≠ j → ∀ b, s.labels.lookup i = some b → s.labels.lookup j ≠ some b
  phisApart : ∀ i ∈ L, ∀ j ∈ L, i ≠ j → ∀ ds es, s.labelPhis.lookup i = some ds → s.labelPhis.lookup j = some es →
    ∀ d ∈ ds, d ∉ es
  sources : ∀ d ∈ s.deferred, Closed s d.source
  known : ∀ id ds, s.labelPhis.lookup id = some ds → ds.Nodup
  loops : ∀ l ∈ s.loops, l.phis.Nodup

theorem Inv.weaken {s : St} {L : List ℕ} {live : Bool} (h : Inv s L live) : Inv s L false :=
  ⟨fun h => by simp at h, fun id hid => by
    obtain ⟨b, ds, h1, h2, h3, _, h4⟩ := h.pending id hid
    exact ⟨b, ds, h1, h2, h3, fun h => by simp at h, h4⟩, h.apart, h.phisApart, h.sources, h.known, h.loops⟩

theorem Inv.fewer {s : St} {L M : List ℕ} {live : Bool} (h : Inv s L live) (hs : ∀ id ∈ M, id ∈ L) : Inv s M live :=
  ⟨h.current, fun id hid => h.pending id (hs id hid), fun i hi j hj => h.apart i (hs i hi) j (hs j hj),
    fun i hi j hj => h.phisApart i (hs i hi) j (hs j hj), h.sources, h.known, h.loops⟩


theorem bindOk {α β ε : Type} {x : Except ε α} {f : α → Except ε β} {b : β} (h : x >>= f = .ok b) :
    ∃ a, x = .ok a ∧ f a = .ok b := by
  cases x with
  | error e => cases h
  | ok a => exact ⟨a, rfl, h⟩

/-! ### Single steps -/

/-- Changes outside the blocks, the labels, the loops and the recorded operands. -/
theorem same_ok {s t : St} (hb : t.blocks = s.blocks) (hl : t.labels = s.labels) (hp : t.labelPhis = s.labelPhis)
    (hd : t.deferred = s.deferred) (hn : s.next ≤ t.next) : Le s t := by
  refine ⟨?_, ?_, ?_, ?_, ?_, ?_, hn⟩
  · intro b c h
    exact ⟨c, hb ▸ h, [], by simp⟩
  · intro b c h _
    exact hb ▸ h
  · intro d h
    exact hd ▸ h
  · intro d h _
    exact hd ▸ h
  · intro id b h
    exact hl ▸ h
  · intro id b h
    exact hp ▸ h

theorem same_closed {s t : St} (hb : t.blocks = s.blocks) {b : ℕ} (h : Closed s b) : Closed t b := by
  unfold Closed at *
  rw [hb]
  exact h

theorem same_inv {s t : St} {L : List ℕ} {live : Bool} (h : Inv s L live) (hb : t.blocks = s.blocks) (hl : t.labels = s.labels)
    (hp : t.labelPhis = s.labelPhis) (hd : t.deferred = s.deferred) (hn : s.next ≤ t.next) (hc : t.current = s.current)
    (hloops : t.loops = s.loops) : Inv t L live := by
  refine ⟨?_, ?_, ?_, ?_, ?_, ?_, ?_⟩
  · rw [hb, hc]
    exact h.current
  · intro id hid
    obtain ⟨b, ds, h1, h2, h3, h4, h5, h6⟩ := h.pending id hid
    rw [hl, hp, hb, hc]
    exact ⟨b, ds, h1, h2, h3, h4, h5, fun d hd => Nat.lt_of_lt_of_le (h6 d hd) hn⟩
  · rw [hl]
    exact h.apart
  · rw [hp]
    exact h.phisApart
  · rw [hd]
    exact fun d hd => same_closed hb (h.sources d hd)
  · rw [hp]
    exact h.known
  · rw [hloops]
    exact h.loops

theorem add_get {l : List Block} {x : Block} {b : ℕ} {c : Block} (h : l[b]? = some c) : (l ++ [x])[b]? = some c := by
  obtain ⟨hlt, _⟩ := List.getElem?_eq_some_iff.mp h
  rw [List.getElem?_append_left hlt]
  exact h

/-- A new block. -/
theorem add_ok {s t : St} {x : Block} (hb : t.blocks = s.blocks ++ [x]) (hl : t.labels = s.labels) (hp : t.labelPhis = s.labelPhis)
    (hd : t.deferred = s.deferred) (hn : s.next ≤ t.next) : Le s t := by
  refine ⟨?_, ?_, ?_, ?_, ?_, ?_, hn⟩
  · intro b c h
    exact ⟨c, hb ▸ add_get h, [], by simp⟩
  · intro b c h _
    exact hb ▸ add_get h
  · intro d h
    exact hd ▸ h
  · intro d h _
    exact hd ▸ h
  · intro id b h
    exact hl ▸ h
  · intro id b h
    exact hp ▸ h

theorem add_inv {s t : St} {L : List ℕ} {live : Bool} (h : Inv s L live) {x : Block} (hb : t.blocks = s.blocks ++ [x])
    (hl : t.labels = s.labels)
    (hp : t.labelPhis = s.labelPhis) (hd : t.deferred = s.deferred) (hn : s.next ≤ t.next) (hc : t.current = s.current)
    (hloops : t.loops = s.loops) : Inv t L live := by
  refine ⟨?_, ?_, ?_, ?_, ?_, ?_, ?_⟩
  · intro hl
    obtain ⟨c, h1, h2⟩ := h.current hl
    rw [hb, hc]
    exact ⟨c, add_get h1, h2⟩
  · intro id hid
    obtain ⟨b, ds, h1, h2, h3, h4, h5, h6⟩ := h.pending id hid
    rw [hl, hp, hb, hc]
    exact ⟨b, ds, h1, h2, add_get h3, h4, h5, fun d hd => Nat.lt_of_lt_of_le (h6 d hd) hn⟩
  · rw [hl]
    exact h.apart
  · rw [hp]
    exact h.phisApart
  · rw [hd]
    intro d hd
    obtain ⟨c, h1, h2⟩ := h.sources d hd
    exact ⟨c, hb ▸ add_get h1, h2⟩
  · rw [hp]
    exact h.known
  · rw [hloops]
    exact h.loops

theorem get_modify (l : List Block) (i j : ℕ) (f : Block → Block) :
    (l.modify i f)[j]? = if i = j then l[j]?.map f else l[j]? := by
  rw [List.getElem?_modify]
  by_cases h : i = j
  · simp [h]
  · simp [h]

/-- More instructions in the current block. -/
theorem push_ok {s t : St} {L : List ℕ} (h : Inv s L true) (more : List Instr) (hm : ∀ i ∈ more, notPhi i)
    (hb : t.blocks = s.blocks.modify s.current fun b => { b with instrs := b.instrs ++ more }) (hl : t.labels = s.labels)
    (hp : t.labelPhis = s.labelPhis) (hd : t.deferred = s.deferred) (hn : s.next ≤ t.next) (hc : t.current = s.current)
    (hloops : t.loops = s.loops) : Le s t ∧ Inv t L true := by
  obtain ⟨c0, hc0, ho⟩ := h.current rfl
  have hcl : ∀ b, Closed s b → Closed t b := by
    rintro b ⟨c, h1, h2⟩
    refine ⟨c, ?_, h2⟩
    rw [hb, get_modify, if_neg]
    · exact h1
    · rintro rfl
      rw [hc0] at h1
      cases h1
      exact h2 ho
  refine ⟨⟨?_, ?_, ?_, ?_, ?_, ?_, hn⟩, ⟨?_, ?_, ?_, ?_, ?_, ?_, ?_⟩⟩
  · intro b c h1
    rw [hb, get_modify]
    by_cases e : s.current = b
    · rw [if_pos e, h1]
      exact ⟨_, rfl, more, rfl, hm⟩
    · rw [if_neg e]
      exact ⟨c, h1, [], by simp⟩
  · intro b c h1 h2
    rw [hb, get_modify, if_neg]
    · exact h1
    · rintro rfl
      rw [hc0] at h1
      cases h1
      exact h2 ho
  · intro d h
    exact hd ▸ h
  · intro d h _
    exact hd ▸ h
  · intro id b h
    exact hl ▸ h
  · intro id b h
    exact hp ▸ h
  · intro _
    refine ⟨{ c0 with instrs := c0.instrs ++ more }, ?_, ho⟩
    rw [hb, hc, get_modify, if_pos rfl, hc0]
    rfl
  · intro id hid
    obtain ⟨b, ds, h1, h2, h3, h4, h5, h6⟩ := h.pending id hid
    rw [hl, hp, hb, hc]
    refine ⟨b, ds, h1, h2, ?_, h4, h5, fun d hd => Nat.lt_of_lt_of_le (h6 d hd) hn⟩
    rw [get_modify, if_neg (fun e => h4 rfl e.symm)]
    exact h3
  · rw [hl]
    exact h.apart
  · rw [hp]
    exact h.phisApart
  · rw [hd]
    exact fun d hd => hcl _ (h.sources d hd)
  · rw [hp]
    exact h.known
  · rw [hloops]
    exact h.loops

/-- The current block is closed, and operands are recorded for the edges that leave it. -/
theorem close_ok {s t : St} {L : List ℕ} (h : Inv s L true) (tm : Terminator) (htm : tm ≠ .Unreachable) (new : List Deferred)
    (hnew : ∀ d ∈ new, d.source = s.current)
    (hb : t.blocks = s.blocks.modify s.current fun b => { b with term := tm }) (hl : t.labels = s.labels)
    (hp : t.labelPhis = s.labelPhis) (hd : t.deferred = s.deferred ++ new) (hn : s.next ≤ t.next)
    (hloops : t.loops = s.loops) : Le s t ∧ Inv t L false := by
  obtain ⟨c0, hc0, ho⟩ := h.current rfl
  have hcl : ∀ b, Closed s b → Closed t b := by
    rintro b ⟨c, h1, h2⟩
    refine ⟨c, ?_, h2⟩
    rw [hb, get_modify, if_neg]
    · exact h1
    · rintro rfl
      rw [hc0] at h1
      cases h1
      exact h2 ho
  refine ⟨⟨?_, ?_, ?_, ?_, ?_, ?_, hn⟩, ⟨?_, ?_, ?_, ?_, ?_, ?_, ?_⟩⟩
  · intro b c h1
    rw [hb, get_modify]
    by_cases e : s.current = b
    · rw [if_pos e, h1]
      exact ⟨_, rfl, [], by simp⟩
    · rw [if_neg e]
      exact ⟨c, h1, [], by simp⟩
  · intro b c h1 h2
    rw [hb, get_modify, if_neg]
    · exact h1
    · rintro rfl
      rw [hc0] at h1
      cases h1
      exact h2 ho
  · intro d h
    rw [hd]
    exact List.mem_append_left _ h
  · intro d h1 h2
    rw [hd] at h1
    rcases List.mem_append.mp h1 with h1 | h1
    · exact h1
    · rw [hnew d h1] at h2
      obtain ⟨c, h3, h4⟩ := h2
      rw [hc0] at h3
      cases h3
      exact absurd ho h4
  · intro id b h
    exact hl ▸ h
  · intro id b h
    exact hp ▸ h
  · intro h
    simp at h
  · intro id hid
    obtain ⟨b, ds, h1, h2, h3, h4, h5, h6⟩ := h.pending id hid
    rw [hl, hp, hb]
    refine ⟨b, ds, h1, h2, ?_, fun h => by simp at h, h5, fun d hd => Nat.lt_of_lt_of_le (h6 d hd) hn⟩
    rw [get_modify, if_neg (fun e => h4 rfl e.symm)]
    exact h3
  · rw [hl]
    exact h.apart
  · rw [hp]
    exact h.phisApart
  · rw [hd]
    intro d h1
    rcases List.mem_append.mp h1 with h1 | h1
    · exact hcl _ (h.sources d h1)
    · rw [hnew d h1]
      refine ⟨{ c0 with term := tm }, ?_, htm⟩
      rw [hb, get_modify, if_pos rfl, hc0]
      rfl
  · rw [hp]
    exact h.known
  · rw [hloops]
    exact h.loops

/-- Going on in another open block. -/
theorem Inv.goto {s t : St} {L : List ℕ} {live : Bool} (h : Inv s L live) {c : Block} (hc : s.blocks[t.current]? = some c)
    (ho : c.term = .Unreachable) (hne : ∀ id ∈ L, s.labels.lookup id ≠ some t.current) (hb : t.blocks = s.blocks)
    (hl : t.labels = s.labels) (hp : t.labelPhis = s.labelPhis) (hd : t.deferred = s.deferred) (hn : s.next ≤ t.next)
    (hloops : t.loops = s.loops) : Inv t L true := by
  refine ⟨?_, ?_, ?_, ?_, ?_, ?_, ?_⟩
  · intro _
    exact ⟨c, hb ▸ hc, ho⟩
  · intro id hid
    obtain ⟨b, ds, h1, h2, h3, h4, h5, h6⟩ := h.pending id hid
    rw [hl, hp, hb]
    exact ⟨b, ds, h1, h2, h3, fun _ e => hne id hid (e ▸ h1), h5, fun d hd => Nat.lt_of_lt_of_le (h6 d hd) hn⟩
  · rw [hl]
    exact h.apart
  · rw [hp]
    exact h.phisApart
  · rw [hd]
    exact fun d hd => same_closed hb (h.sources d hd)
  · rw [hp]
    exact h.known
  · rw [hloops]
    exact h.loops

end Wasm
end CairoM
