import Verif.Syntax

/-!
# Specification of the lexical syntax

How tokens are spelled, and which texts spell which token sequences. Nothing here refers to the lexer.
-/

namespace CairoM.Syntax

/-- Letters, digits and the underscore. -/
def isWord (c : Char) : Bool := c.isAlpha || c.isDigit || c == '_'

/-- Space, tabulator, line feed, carriage return. -/
def isBlank (c : Char) : Bool := c == ' ' || c == '\t' || c == '\n' || c == '\r'

/-- The text of the tokens that have only one. -/
def Token.symbol : Token → Option (List Char)
  | .number _ _ | .identifier _ => none
  | .as_ => some "as".toList | .const_ => some "const".toList | .else_ => some "else".toList
  | .false_ => some "false".toList | .function_ => some "fn".toList | .if_ => some "if".toList
  | .let_ => some "let".toList | .new_ => some "new".toList | .return_ => some "return".toList
  | .struct_ => some "struct".toList | .true_ => some "true".toList | .while_ => some "while".toList
  | .loop_ => some "loop".toList | .for_ => some "for".toList | .in_ => some "in".toList
  | .break_ => some "break".toList | .continue_ => some "continue".toList | .use_ => some "use".toList
  | .not_ => some "!".toList | .andAnd => some "&&".toList | .orOr => some "||".toList
  | .bitAnd => some "&".toList | .bitOr => some "|".toList | .bitXor => some "^".toList
  | .eqEq => some "==".toList | .neq => some "!=".toList | .lessEqual => some "<=".toList
  | .greaterEqual => some ">=".toList | .less => some "<".toList | .greater => some ">".toList
  | .plus => some "+".toList | .minus => some "-".toList | .mul => some "*".toList | .div => some "/".toList
  | .mod_ => some "%".toList | .eq_ => some "=".toList | .arrow => some "->".toList
  | .lParen => some "(".toList | .rParen => some ")".toList | .lBrace => some "{".toList
  | .rBrace => some "}".toList | .lBrack => some "[".toList | .rBrack => some "]".toList
  | .comma => some ",".toList | .semicolon => some ";".toList | .colon => some ":".toList
  | .colonColon => some "::".toList | .dot => some ".".toList

/-- Value of a digit: `0`-`9`, then letters of either case from ten on. -/
def digitValue (c : Char) : Nat :=
  if c.isDigit then c.toNat - '0'.toNat
  else if c.isLower then c.toNat - 'a'.toNat + 10
  else c.toNat - 'A'.toNat + 10

/-- `c` is a digit in the given base. -/
def isDigitIn (base : Nat) (c : Char) : Bool := (c.isAlpha || c.isDigit) && digitValue c < base

/-- The number that a sequence of digits denotes, the first digit is the most significant one. -/
def positional (base : Nat) (ds : List Char) : Nat := ds.foldl (fun v c => v * base + digitValue c) 0

/-- The prefixes of number literals. -/
inductive BasePrefix : List Char → Nat → Prop
  | decimal : BasePrefix [] 10
  | hexLower : BasePrefix ['0', 'x'] 16
  | hexUpper : BasePrefix ['0', 'X'] 16
  | octalLower : BasePrefix ['0', 'o'] 8
  | octalUpper : BasePrefix ['0', 'O'] 8
  | binaryLower : BasePrefix ['0', 'b'] 2
  | binaryUpper : BasePrefix ['0', 'B'] 2

/-- No suffix, `felt` or `u32`. -/
inductive Suffix : List Char → Option String → Prop
  | none : Suffix [] none
  | felt : Suffix "felt".toList (some "felt")
  | u32 : Suffix "u32".toList (some "u32")

/-- A name: a letter or underscore, then letters, digits and underscores, but not a keyword. -/
def IsName (w : List Char) : Prop :=
  (∃ c, w.head? = some c ∧ c.isDigit = false) ∧ (∀ c ∈ w, isWord c = true) ∧ ∀ t, Token.symbol t ≠ some w

/-- `w` is a way to write the token `t`. -/
inductive Spells : List Char → Token → Prop
  | symbol {t : Token} {w : List Char} : t.symbol = some w → Spells w t
  | name {w : List Char} : IsName w → Spells w (.identifier (String.ofList w))
  | number {p ds s : List Char} {base : Nat} {suffix : Option String} : BasePrefix p base → ds ≠ [] →
      (∀ c ∈ ds, isDigitIn base c = true) → positional base ds < 2 ^ 64 → Suffix s suffix →
      Spells (p ++ ds ++ s) (.number (positional base ds) suffix)

/-- A longer token, or a comment, would be read if `d` followed `w` directly. -/
def Glues (w : List Char) (d : Char) : Prop :=
  (∃ t : Token, t.symbol = some (w ++ [d])) ∨ w ++ [d] = "//".toList ∨
    ((∃ c, w.head? = some c ∧ isWord c = true) ∧ isWord d = true)

/-- The text writes the tokens one after the other, with white space (and comments, if they are allowed) anywhere
between them, and at least where the neighbours would be read as one. -/
inductive Spelled (comments : Bool) : List Char → List Token → Prop
  | nil : Spelled comments [] []
  | space {c : Char} {s : List Char} {ts : List Token} : isBlank c = true → Spelled comments s ts →
      Spelled comments (c :: s) ts
  | comment {b s : List Char} {ts : List Token} : comments = true → (∀ c ∈ b, c ≠ '\n') → (∀ c, s.head? = some c → c = '\n') →
      Spelled comments s ts → Spelled comments ('/' :: '/' :: b ++ s) ts
  | token {w s : List Char} {t : Token} {ts : List Token} : Spells w t → (∀ d, s.head? = some d → ¬ Glues w d) →
      Spelled comments s ts → Spelled comments (w ++ s) (t :: ts)

/-- The suffix of a number is known. -/
def Token.knownSuffix : Token → Bool
  | .number _ (some s) => s == "felt" || s == "u32"
  | _ => true

end CairoM.Syntax
