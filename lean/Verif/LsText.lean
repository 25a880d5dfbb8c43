import Mathlib.Data.Nat.Notation

/-!
# Positions in texts and the formatting edit of the language server

Model of the conversions between byte offsets and editor positions and of the edit that answers a formatting request
(`crates/cairo-m-ls/src/backend.rs`). A text is a list of characters; `char_indices` pairs a character with the sum of the UTF-8
lengths of the characters before it.
-/

namespace CairoM
namespace LsText

/-- `Position` of the protocol: line and character, both from zero. -/
structure Pos where
  line : ℕ
  character : ℕ
  deriving DecidableEq, Repr

/-- `str::len`: the length in bytes of the UTF-8 encoding. -/
def bytes (s : List Char) : ℕ := (s.map Char.utf8Size).sum

/-- The line and the column after a character (`backend.rs:484-489`). -/
def advance (p : Pos) (c : Char) : Pos := if c = '\n' then ⟨p.line + 1, 0⟩ else ⟨p.line, p.character + 1⟩

/-- The loop of `offset_to_position` (`backend.rs:480-490`). -/
def offsetLoop (offset : ℕ) : List Char → ℕ → Pos → Pos
  | [], _, p => p
  | c :: cs, i, p => if i ≥ offset then p else offsetLoop offset cs (i + c.utf8Size) (advance p c)

/-- `offset_to_position` (`backend.rs:476-496`; the same code is in `diagnostics/controller.rs:415-435`). Line and column are cut
to 32 bits at the end. -/
def offsetToPosition (s : List Char) (offset : ℕ) : Pos :=
  let p := offsetLoop offset s 0 ⟨0, 0⟩
  ⟨p.line % 2 ^ 32, p.character % 2 ^ 32⟩

/-- The loop of `position_to_offset` (`backend.rs:513-531`); `len` is the length of the whole text. -/
def positionLoop (len : ℕ) (position : Pos) : List Char → ℕ → Pos → ℕ
  | [], _, _ => len
  | c :: cs, i, p =>
    if p.line = position.line ∧ p.character = position.character then i
    else if c = '\n' ∧ p.line + 1 > position.line then len
    else positionLoop len position cs (i + c.utf8Size) (advance p c)

/-- `position_to_offset` (`backend.rs:509-534`). -/
def positionToOffset (s : List Char) (position : Pos) : ℕ := positionLoop (bytes s) position s 0 ⟨0, 0⟩

/-- `str::split_inclusive('\n')`, on which `str::lines` of the standard library is based. -/
def splitInclusive : List Char → List (List Char)
  | [] => []
  | c :: cs =>
    if c = '\n' then ['\n'] :: splitInclusive cs
    else match splitInclusive cs with
      | [] => [[c]]
      | l :: ls => (c :: l) :: ls

/-- The line without its line end: a final `\n` is removed, and then a final `\r` (`str::lines`). -/
def stripEnd (l : List Char) : List Char :=
  if l.getLast? = some '\n' then
    if l.dropLast.getLast? = some '\r' then l.dropLast.dropLast else l.dropLast
  else l

/-- `str::lines`. -/
def lines (s : List Char) : List (List Char) := (splitInclusive s).map stripEnd

/-- The range of the edit that answers a formatting request (`backend.rs:1130-1143`); its text is the formatted document. -/
def formattingRange (s : List Char) : Pos × Pos :=
  let lineCount := (lines s).length
  let lastLineLen := ((lines s).getLast?.map bytes).getD 0
  (⟨0, 0⟩, ⟨(lineCount - 1) % 2 ^ 32, lastLineLen % 2 ^ 32⟩)

end LsText
end CairoM
