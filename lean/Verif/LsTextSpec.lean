import Verif.LsText

/-!
# Specification: positions and edits of the Language Server Protocol

Lines end with `\n`, `\r\n` or `\r`. A position counts lines, and within a line UTF-16 code units (the server does not
negotiate another encoding). A column beyond the end of the line means the end of the line.
-/

namespace CairoM
namespace LsText

/-- UTF-16 code units of a character. -/
def utf16 (c : Char) : ℕ := if c.val < 0x10000 then 1 else 2

/-- The line and column reached by reading a text from a given line and column. -/
def lspPosFrom : List Char → Pos → Pos
  | [], p => p
  | '\r' :: '\n' :: s, p => lspPosFrom s ⟨p.line + 1, 0⟩
  | c :: s, p =>
    if c = '\n' ∨ c = '\r' then lspPosFrom s ⟨p.line + 1, 0⟩ else lspPosFrom s ⟨p.line, p.character + utf16 c⟩

/-- The position of the place after the text `before`. -/
def lspPos (before : List Char) : Pos := lspPosFrom before ⟨0, 0⟩

/-- How many characters of the line precede the column. -/
def charIndex : ℕ → List Char → ℕ
  | 0, _ => 0
  | _ + 1, [] => 0
  | k + 1, c :: s => if c = '\n' ∨ c = '\r' then 0 else 1 + charIndex (k + 1 - utf16 c) s

/-- How many characters of the text precede a position, for a column and a number of lines to skip. -/
def lspIndex (character : ℕ) : ℕ → List Char → ℕ
  | 0, s => charIndex character s
  | _ + 1, [] => 0
  | n + 1, '\r' :: '\n' :: s => 2 + lspIndex character n s
  | n + 1, c :: s => if c = '\n' ∨ c = '\r' then 1 + lspIndex character n s else 1 + lspIndex character (n + 1) s

/-- The document after the range between two positions has been replaced by a text. -/
def applyEdit (s : List Char) (range : Pos × Pos) (new : List Char) : List Char :=
  s.take (lspIndex range.1.character range.1.line s) ++ new ++ s.drop (lspIndex range.2.character range.2.line s)

/-- Every carriage return is followed by a line feed. -/
def PlainEnds (s : List Char) : Prop := ∀ a b, s = a ++ '\r' :: b → ∃ b', b = '\n' :: b'

end LsText
end CairoM
