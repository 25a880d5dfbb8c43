import Verif.Parser

/-!
# The lexer

Model of `crates/compiler/parser/src/lexer.rs` (a logos lexer: at every position the longest match of all patterns
wins) and of the part of `parse_file` that feeds its tokens to the parser. A text is a list of characters.
-/

namespace CairoM.Syntax

/-- `#[logos(skip r"[\t\n\r ]+")]` (`lexer.rs:157`). -/
def isSpace (c : Char) : Bool := c == ' ' || c == '\t' || c == '\n' || c == '\r'

/-- `[a-zA-Z_]` in the patterns (`lexer.rs:163`, `lexer.rs:205`). -/
def isWordStart (c : Char) : Bool := c.isAlpha || c == '_'

/-- `[a-zA-Z0-9_]` in the patterns (`lexer.rs:163`, `lexer.rs:205`). -/
def isWordChar (c : Char) : Bool := c.isAlpha || c.isDigit || c == '_'

/-- `NumberParseError` (`lexer.rs:35-44`), the variants that occur. -/
inductive NumberError where
  | overflow | invalidFormat
  deriving DecidableEq, Repr

/-- `char::to_digit` of the standard library. -/
def digitOf (base : Nat) (c : Char) : Option Nat :=
  let v := if c.isDigit then c.toNat - 48 else if c.isLower then c.toNat - 87
    else if c.isUpper then c.toNat - 55 else base
  if v < base then some v else none

/-- `u64::from_str_radix` of the standard library, on a string without sign: checked multiplication and addition,
an invalid digit is reported first. -/
def fromRadix (base : Nat) : Nat → List Char → Except NumberError Nat
  | acc, [] => .ok acc
  | acc, c :: cs =>
    match digitOf base c with
    | none => .error .invalidFormat
    | some d =>
      if 2 ^ 64 ≤ acc * base then .error .overflow
      else if 2 ^ 64 ≤ acc * base + d then .error .overflow
      else fromRadix base (acc * base + d) cs

/-- `str::rfind` of the standard library: the last position of a nonempty pattern. -/
def rfind (pat : List Char) : List Char → Option Nat
  | [] => none
  | c :: cs =>
    match rfind pat cs with
    | some i => some (i + 1)
    | none => if pat.isPrefixOf (c :: cs) then some 0 else none

/-- `VALID_SUFFIXES` (`lexer.rs:6`). -/
def validSuffixes : List (List Char) := ["felt".toList, "u32".toList]

/-- The base of a literal and what follows the prefix (`lexer.rs:80-88`). -/
def splitBase : List Char → List Char × Nat
  | '0' :: 'x' :: r | '0' :: 'X' :: r => (r, 16)
  | '0' :: 'o' :: r | '0' :: 'O' :: r => (r, 8)
  | '0' :: 'b' :: r | '0' :: 'B' :: r => (r, 2)
  | r => (r, 10)

/-- `str::find(|c| !c.is_digit(base)).unwrap_or(len)`. -/
def digitRun (base : Nat) (s : List Char) : Nat := (s.takeWhile (fun c => (digitOf base c).isSome)).length

/-- Where the suffix begins (`lexer.rs:92-110`). -/
def digitEnd (base : Nat) (remaining : List Char) : Nat :=
  let ends := validSuffixes.filterMap (fun suffix =>
    (rfind suffix remaining).map (fun pos =>
      if 0 < pos && remaining.drop pos == suffix then pos else remaining.length))
  match ends.min? with
  | some e => e
  | none => digitRun base remaining

/-- `parse_number_literal` (`lexer.rs:74-154`). The slice in the error is dropped. -/
def parseNumber (slice : List Char) : Except NumberError (Nat × Option String) :=
  let (remaining, base) := splitBase slice
  let e := digitEnd base remaining
  let numberStr := remaining.take e
  let suffixStr := remaining.drop e
  if numberStr.isEmpty then .error .invalidFormat
  else
    if suffixStr.head?.any Char.isDigit then .error .invalidFormat
    else
      match fromRadix base 0 numberStr with
      | .error err => .error err
      | .ok n => .ok (n, if suffixStr.isEmpty then none else some (String.ofList suffixStr))

/-- The keywords (`lexer.rs:168-203`). -/
def keywords : List (List Char × Token) :=
  [("as".toList, .as_), ("const".toList, .const_), ("else".toList, .else_), ("false".toList, .false_),
    ("fn".toList, .function_), ("if".toList, .if_), ("let".toList, .let_), ("new".toList, .new_),
    ("return".toList, .return_), ("struct".toList, .struct_), ("true".toList, .true_), ("while".toList, .while_),
    ("loop".toList, .loop_), ("for".toList, .for_), ("in".toList, .in_), ("break".toList, .break_),
    ("continue".toList, .continue_), ("use".toList, .use_)]

/-- Operators and punctuation of two characters (`lexer.rs:208-268`). -/
def twoChar : List ((Char × Char) × Token) :=
  [(('&', '&'), .andAnd), (('|', '|'), .orOr), (('=', '='), .eqEq), (('!', '='), .neq), (('<', '='), .lessEqual),
    (('>', '='), .greaterEqual), (('-', '>'), .arrow), ((':', ':'), .colonColon)]

/-- Operators and punctuation of one character (`lexer.rs:208-268`). -/
def oneChar : List (Char × Token) :=
  [('!', .not_), ('&', .bitAnd), ('|', .bitOr), ('^', .bitXor), ('<', .less), ('>', .greater), ('+', .plus),
    ('-', .minus), ('*', .mul), ('/', .div), ('%', .mod_), ('=', .eq_), ('(', .lParen), (')', .rParen),
    ('{', .lBrace), ('}', .rBrace), ('[', .lBrack), (']', .rBrack), (',', .comma), (';', .semicolon), (':', .colon),
    ('.', .dot)]

/-- A word that does not begin with a digit: a keyword has precedence over the identifier of the same length. -/
def wordToken (w : List Char) : Token :=
  match keywords.lookup w with
  | some t => t
  | none => .identifier (String.ofList w)

/-- What the lexer does at one position. -/
inductive LexStep where
  | done
  | skip (rest : List Char)
  | token (t : Token) (rest : List Char)
  | error

/-- One step (`lexer.rs:156-269`). The number pattern matches a digit and everything up to the end of the word: the
longest match of `[0-9]+([a-zA-Z_][a-zA-Z0-9_]*)?` contains those of the other alternatives. -/
def lexStep : List Char → LexStep
  | [] => .done
  | c :: cs =>
    if isSpace c then .skip cs
    else if c == '/' && cs.head? == some '/' then .skip (cs.dropWhile (· != '\n'))
    else if c.isDigit then
      match parseNumber (c :: cs.takeWhile isWordChar) with
      | .ok (v, s) => .token (.number v s) (cs.dropWhile isWordChar)
      | .error _ => .error
    else if isWordStart c then .token (wordToken (c :: cs.takeWhile isWordChar)) (cs.dropWhile isWordChar)
    else
      match cs.head?.bind (fun d => twoChar.lookup (c, d)) with
      | some t => .token t cs.tail
      | none =>
        match oneChar.lookup c with
        | some t => .token t cs
        | none => .error

/-- All tokens, with at most `n` steps; `none` if there is a lexical error (the errors are collected by
`parse_file`, which then reports them and does not parse, `parser.rs:575-600`). -/
def lexN : Nat → List Char → Option (List Token)
  | 0, _ => none
  | n + 1, s =>
    match lexStep s with
    | .done => some []
    | .skip r => lexN n r
    | .token t r => (lexN n r).map (t :: ·)
    | .error => none

/-- `TokenType::lexer(input)`: every step consumes a character. -/
def lex (s : List Char) : Option (List Token) := lexN (s.length + 1) s

/-- The check that `validate` makes on literals (`parser.rs:774-785`): an unknown suffix is reported, and a report
makes `into_result` fail. Every number of an accepted token sequence is a literal or has no suffix (the other
productions refuse suffixes). -/
def suffixOk : Token → Bool
  | .number _ (some s) => s == "felt" || s == "u32"
  | _ => true

/-- `parse_file` (`parser.rs:570-623`): the program, or `none` if there are diagnostics. -/
def parseSource (s : List Char) : Option (List Item) :=
  match lex s with
  | none => none
  | some ts => if ts.all suffixOk then parseTokens ts else none

end CairoM.Syntax
