import Verif.M31

/-!
# Command-line argument parsing

Model of `crates/common/src/abi_codec.rs:6-261`. Strings are lists of bytes (`ℕ`).
-/

namespace CairoM

/-- `InputValue` (`crates/common/src/abi_codec.rs:5-17`). Numbers are `i64`. -/
inductive InputValue where
  | number (n : ℤ)
  | bool (b : Bool)
  | list (vs : List InputValue)
  | struct (vs : List InputValue)
  | unit
deriving Repr

/-- `m31_from_i64` (`crates/common/src/abi_codec.rs:87-96`): Rust `%` truncates towards zero. -/
def m31FromI64 (n : ℤ) : M31 :=
  let m := Int.tmod n P
  let m := if m < 0 then m + P else m
  ((m.toNat : ℕ) : M31)

namespace Cli

/-- `ParseError`; `outOfFuel` is not a Rust error, it marks the bound of the recursion (never reached,
`C20_terminates`). -/
inductive PErr where
  | parse
  | outOfFuel
deriving DecidableEq, Repr

/-- `(b as char).is_whitespace()` for a byte `b` (`abi_codec.rs:125-133`): Latin-1 white space. -/
def isWs (b : ℕ) : Bool := (9 ≤ b && b ≤ 13) || b == 32 || b == 133 || b == 160

/-- `b'0'..=b'9'`. -/
def isDigit (b : ℕ) : Bool := 48 ≤ b && b ≤ 57

/-- `skip_ws` (`abi_codec.rs:125-133`) on the remaining input. -/
def skipWs (s : List ℕ) : List ℕ := s.dropWhile isWs

/-- Decimal value of a digit string, as computed by `str::parse`. -/
def decVal (ds : List ℕ) : ℕ := ds.foldl (fun acc d => acc * 10 + (d - 48)) 0

/-- `parse_number` (`abi_codec.rs:223-246`). -/
def parseNumber (s : List ℕ) : Except PErr (InputValue × List ℕ) :=
  let neg := s.head? = some 45
  let r := if neg then s.tail else s
  let ds := r.takeWhile isDigit
  if ds = [] then .error .parse
  else
    let n : ℤ := if neg then -(decVal ds : ℤ) else decVal ds
    if -2 ^ 63 ≤ n ∧ n < 2 ^ 63 then .ok (.number n, r.dropWhile isDigit) else .error .parse

/-- `parse_bool` (`abi_codec.rs:199-222`): `true` or `false`. -/
def parseBool (s : List ℕ) : Except PErr (InputValue × List ℕ) :=
  if s.take 4 = [116, 114, 117, 101] then .ok (.bool true, s.drop 4)
  else if s.take 5 = [102, 97, 108, 115, 101] then .ok (.bool false, s.drop 5)
  else .error .parse

mutual
/-- `parse_value` (`abi_codec.rs:134-149`). -/
def parseValue : ℕ → List ℕ → Except PErr (InputValue × List ℕ)
  | 0, _ => .error .outOfFuel
  | f + 1, s =>
    match skipWs s with
    | [] => .error .parse
    | c :: r =>
      if c = 91 then (parseDelimited f 93 r).map fun x => (.list x.1, x.2)
      else if c = 40 then (parseDelimited f 41 r).map fun x => (.list x.1, x.2)
      else if c = 123 then (parseDelimited f 125 r).map fun x => (.struct x.1, x.2)
      else if c = 116 ∨ c = 102 then parseBool (c :: r)
      else if c = 45 ∨ isDigit c then parseNumber (c :: r)
      else .error .parse

/-- `parse_delimited_list` after the opening delimiter (`abi_codec.rs:170-178`). -/
def parseDelimited : ℕ → ℕ → List ℕ → Except PErr (List InputValue × List ℕ)
  | 0, _, _ => .error .outOfFuel
  | f + 1, close, s =>
    if (skipWs s).head? = some close then .ok ([], (skipWs s).tail) else parseItems f close (skipWs s)

/-- The loop of `parse_delimited_list` (`abi_codec.rs:179-197`). -/
def parseItems : ℕ → ℕ → List ℕ → Except PErr (List InputValue × List ℕ)
  | 0, _, _ => .error .outOfFuel
  | f + 1, close, s =>
    match parseValue f s with
    | .error e => .error e
    | .ok (v, r) =>
      match skipWs r with
      | [] => .error .parse
      | c :: r' =>
        if c = 44 then
          match parseItems f close (skipWs r') with
          | .error e => .error e
          | .ok (vs, r'') => .ok (v :: vs, r'')
        else if c = close then .ok ([v], r')
        else .error .parse
end

/-- `parse_cli_arg` (`abi_codec.rs:105-261`). -/
def parse (s : List ℕ) : Except PErr InputValue :=
  match parseValue (3 * s.length + 1) s with
  | .error e => .error e
  | .ok (v, r) => if skipWs r = [] then .ok v else .error .parse

end Cli
end CairoM
