import Verif.LsTextLemmas

/-!
# Positions and formatting edits: theorems (C90, C91)
-/

namespace CairoM
namespace LsText

/-- **C90.** Converting a place to a position and back gives the place. -/
theorem C90_round_trip (before after : List Char) (h : before.length < 2 ^ 32) :
    positionToOffset (before ++ after) (offsetToPosition (before ++ after) (bytes before)) = bytes before := by
  have h1 := offsetLoop_eq before after 0 ⟨0, 0⟩
  have h2 := walk_line ⟨0, 0⟩ before
  have h3 := positionLoop_eq (bytes (before ++ after)) before after 0 ⟨0, 0⟩ (by simp)
  simp only [Nat.zero_add] at h1 h2 h3
  simp only [offsetToPosition, h1, Nat.mod_eq_of_lt (show (walk ⟨0, 0⟩ before).line < 2 ^ 32 by omega),
    Nat.mod_eq_of_lt (show (walk ⟨0, 0⟩ before).character < 2 ^ 32 by omega)]
  exact h3

/-- **C90** (partial: places that no lone carriage return precedes, and no character outside the basic plane on the same line).
The position that the server reports for a place is the position of that place in the protocol. -/
theorem C90_reported_partial (before after : List Char) (h : before.length < 2 ^ 32) (hp : PlainEnds before)
    (hb : ∀ c ∈ before.reverse.takeWhile (· ≠ '\n'), c.val < 0x10000) :
    offsetToPosition (before ++ after) (bytes before) = lspPos before := by
  have h1 := offsetLoop_eq before after 0 ⟨0, 0⟩
  have h2 := walk_line ⟨0, 0⟩ before
  simp only [Nat.zero_add] at h1 h2
  simp only [offsetToPosition, h1, Nat.mod_eq_of_lt (show (walk ⟨0, 0⟩ before).line < 2 ^ 32 by omega),
    Nat.mod_eq_of_lt (show (walk ⟨0, 0⟩ before).character < 2 ^ 32 by omega)]
  exact walk_lsp before hp hb _ _ rfl (Or.inl rfl)

/-- **C90** (partial, for the same places). The position of a place in the protocol is converted to that place. -/
theorem C90_received_partial (before after : List Char) (h : before.length < 2 ^ 32) (hp : PlainEnds before)
    (hb : ∀ c ∈ before.reverse.takeWhile (· ≠ '\n'), c.val < 0x10000) :
    positionToOffset (before ++ after) (lspPos before) = bytes before := by
  rw [← C90_reported_partial before after h hp hb]
  exact C90_round_trip before after h

/-- **C90 violated.** After a character that takes two UTF-16 units, the reported column is too small. -/
theorem C90_violated_astral : ∃ before after : List Char,
    offsetToPosition (before ++ after) (bytes before) = ⟨0, 2⟩ ∧ lspPos before = ⟨0, 3⟩ :=
  ⟨['😀', ' '], ['x'], by decide +kernel⟩

/-- **C90 violated.** A carriage return ends a line for the editor but not for the server. -/
theorem C90_violated_return : ∃ before after : List Char,
    offsetToPosition (before ++ after) (bytes before) = ⟨0, 2⟩ ∧ lspPos before = ⟨1, 0⟩ :=
  ⟨['a', '\r'], ['b'], by decide +kernel⟩

/-- **C90 violated.** A column beyond the end of the line means the end of the line (index 1); the server takes the end of the
text (offset 3). -/
theorem C90_violated_beyond : ∃ (s : List Char) (p : Pos), lspIndex p.character p.line s = 1 ∧ positionToOffset s p = 3 :=
  ⟨['a', '\n', 'b'], ⟨0, 7⟩, by decide +kernel⟩

/-- **C90.** The two halves of the protocol's specification agree: the position of a place denotes the place. -/
theorem C90_spec (before after : List Char) (h : ∀ b a, before = b ++ ['\r'] → after ≠ '\n' :: a) :
    lspIndex (lspPos before).character (lspPos before).line (before ++ after) = before.length := by
  obtain ⟨-, h2, h3⟩ := lspIndex_from after before ⟨0, 0⟩ h
  unfold lspPos
  simp only [Nat.sub_zero] at h2 h3
  rcases Nat.eq_zero_or_pos (lspPosFrom before ⟨0, 0⟩).line with h0 | h0
  · have := (h2 h0).2
    rw [h0, lspIndex]
    exact this
  · exact h3 h0

example : lspPos ['a', '\r', '\n', '😀'] = ⟨1, 2⟩ ∧ lspIndex 2 1 (['a', '\r', '\n', '😀'] ++ ['b']) = 4 := by decide +kernel

example : (∀ c ∈ ['é', '\r', '\n', 'x'].reverse.takeWhile (· ≠ '\n'), c.val < 0x10000) ∧
    offsetToPosition ['é', '\r', '\n', 'x', 'y'] (bytes ['é', '\r', '\n', 'x']) = ⟨1, 1⟩ ∧
    positionToOffset ['é', '\r', '\n', 'x', 'y'] ⟨1, 1⟩ = 5 := by decide +kernel

example : PlainEnds ['é', '\r', '\n', 'x'] := by
  intro a b e
  match a, e with
  | [_], e => simp at e; exact ⟨_, e.2.symm⟩
  | [_, _], e => simp at e
  | [_, _, _], e => simp at e
  | _ :: _ :: _ :: _ :: _, e => simp at e

/-- **C91** (partial: documents without a final line end). The edit turns the document into the formatted text. -/
theorem C91_partial (s new : List Char) (hs : bytes s < 2 ^ 32) (hp : PlainEnds s) (he : s.getLast? ≠ some '\n') :
    applyEdit s (formattingRange s) new = new := by
  by_cases h0 : s = []
  · subst h0; simp [applyEdit, formattingRange, lspIndex, charIndex]
  · obtain ⟨last, h1, h2, h3, h4⟩ := index_last s [] (by simpa using hp) (Or.inl ⟨rfl, h0, he⟩)
    rw [List.append_nil] at h1 h3 h4
    have hb := length_le_bytes s
    simp only [applyEdit, formattingRange, h1, Option.map_some, Option.getD_some,
      Nat.mod_eq_of_lt (show bytes last < 2 ^ 32 by omega), Nat.mod_eq_of_lt (show (lines s).length - 1 < 2 ^ 32 by omega), h4]
    simp [lspIndex, charIndex]

/-- **C91 violated**, for every document with a final line end: the line end is left behind after the formatted text. -/
theorem C91_violated (t e new : List Char) (hs : bytes (t ++ e) < 2 ^ 32) (hp : PlainEnds (t ++ e))
    (he : (e = ['\n'] ∧ t.getLast? ≠ some '\r') ∨ e = ['\r', '\n']) :
    applyEdit (t ++ e) (formattingRange (t ++ e)) new = new ++ e := by
  obtain ⟨last, h1, h2, h3, h4⟩ := index_last t e hp (Or.inr he)
  have hb := length_le_bytes (t ++ e)
  have hb2 := bytes_append t e
  simp only [applyEdit, formattingRange, h1, Option.map_some, Option.getD_some,
    Nat.mod_eq_of_lt (show bytes last < 2 ^ 32 by omega),
    Nat.mod_eq_of_lt (show (lines (t ++ e)).length - 1 < 2 ^ 32 by omega), h4]
  simp [lspIndex, charIndex]

/-- **C91 violated.** A lone carriage return ends a line for the editor: what follows it is left behind. -/
theorem C91_violated_return : ∃ s new : List Char, s.getLast? ≠ some '\n' ∧
    applyEdit s (formattingRange s) new = new ++ ['\r', 'b'] :=
  ⟨['a', '\r', 'b'], ['c'], by decide +kernel⟩

example : applyEdit ['a', '\n', 'b', ' '] (formattingRange ['a', '\n', 'b', ' ']) ['c', '\n'] = ['c', '\n'] ∧
    applyEdit ['a', '\n', 'b', '\n'] (formattingRange ['a', '\n', 'b', '\n']) ['c', '\n'] = ['c', '\n', '\n'] := by
  decide +kernel

end LsText
end CairoM
