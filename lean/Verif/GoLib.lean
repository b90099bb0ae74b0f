import Verif.Basic

/-!
# Models of Go standard library functions (trusted)

These definitions state the documented behaviour of the functions of `strings`, `bytes`,
`encoding/hex` and `encoding/base64` that `/repo` calls. They are part of the trusted base.
-/

namespace Verif.GoLib

/-- `strings.IndexByte` / `bytes.IndexByte`; `none` is Go's `-1`. -/
def indexByte (s : Bytes) (c : UInt8) : Option Nat := s.findIdx? (· == c)

/-- `strings.HasPrefix` / `bytes.HasPrefix`. -/
def hasPrefix (s p : Bytes) : Bool := p.isPrefixOf s

/-- `strings.Index`; `none` is `-1`. -/
def index : Bytes → Bytes → Option Nat
  | [], p => if p.isEmpty then some 0 else none
  | c :: s, p => if p.isPrefixOf (c :: s) then some 0 else (index s p).map (· + 1)

/-- `strings.Contains` / `bytes.Contains`. -/
def contains (s p : Bytes) : Bool := (index s p).isSome

/-- `strings.Join(parts, sep)`. -/
def join : List Bytes → Bytes → Bytes
  | [], _ => []
  | [a], _ => a
  | a :: b :: rest, sep => a ++ sep ++ join (b :: rest) sep

/-- `strings.Split(s, sep)` for a separator of one byte. -/
def splitByte : Bytes → UInt8 → List Bytes
  | [], _ => [[]]
  | c :: s, sep =>
    if c == sep then [] :: splitByte s sep
    else match splitByte s sep with
      | [] => [[c]]
      | x :: xs => (c :: x) :: xs

/-- lower-case hexadecimal digits -/
def hexDigits : Bytes := b!"0123456789abcdef"

/-- `hex.EncodeToString`. -/
def hexEncode : Bytes → Bytes
  | [] => []
  | x :: xs => hexDigits.getD (x.toNat / 16) 0 :: hexDigits.getD (x.toNat % 16) 0 :: hexEncode xs

/-- Value of a hexadecimal digit; upper and lower case are accepted (encoding/hex). -/
def hexVal (c : UInt8) : Option Nat :=
  if 48 ≤ c ∧ c ≤ 57 then some (c.toNat - 48)
  else if 97 ≤ c ∧ c ≤ 102 then some (c.toNat - 87)
  else if 65 ≤ c ∧ c ≤ 70 then some (c.toNat - 55)
  else none

/-- `hex.DecodeString` (data returned next to an error is not modelled). -/
def hexDecode : Bytes → Res Bytes
  | [] => .ok []
  | [c] => match hexVal c with
    | none => .err (.msg "hex: invalid byte")
    | some _ => .err (.msg "hex: odd length")
  | a :: b :: rest =>
    match hexVal a, hexVal b with
    | some x, some y => do
      let r ← hexDecode rest
      .ok (UInt8.ofNat (x * 16 + y) :: r)
    | _, _ => .err (.msg "hex: invalid byte")

/-- `hex.EncodedLen`. -/
def hexEncodedLen (n : Nat) : Nat := n * 2

/-- Alphabet of `base64.StdEncoding`. -/
def b64Alphabet : Bytes :=
  b!"ABCDEFGHIJKLMNOPQRSTUVWXYZabcdefghijklmnopqrstuvwxyz0123456789+/"

/-- the character of a 6-bit value -/
def b64Char (v : Nat) : UInt8 := b64Alphabet.getD v 0

/-- the decode map of `base64.StdEncoding` -/
def b64Val (c : UInt8) : Option Nat := b64Alphabet.findIdx? (· == c)

/-- `base64.StdEncoding.EncodedLen` (with padding). -/
def b64EncodedLen (n : Nat) : Nat := (n + 2) / 3 * 4

/-- `base64.StdEncoding.EncodeToString`; 61 is '='. -/
def b64Encode : Bytes → Bytes
  | [] => []
  | [a] => [b64Char (a.toNat / 4), b64Char (a.toNat % 4 * 16), 61, 61]
  | [a, b] =>
    [b64Char (a.toNat / 4), b64Char (a.toNat % 4 * 16 + b.toNat / 16),
      b64Char (b.toNat % 16 * 4), 61]
  | a :: b :: c :: rest =>
    b64Char (a.toNat / 4) :: b64Char (a.toNat % 4 * 16 + b.toNat / 16) ::
      b64Char (b.toNat % 16 * 4 + c.toNat / 64) :: b64Char (c.toNat % 64) :: b64Encode rest

/-- Decoding of input without newlines, in groups of four characters. The unused low bits of a
padded group are ignored (`StdEncoding` is not strict). -/
def b64Quads : Bytes → Res Bytes
  | [] => .ok []
  | a :: b :: c :: d :: rest =>
    match b64Val a, b64Val b with
    | some x, some y =>
      match b64Val c with
      | some z =>
        match b64Val d with
        | some w => do
          let r ← b64Quads rest
          .ok (UInt8.ofNat (x * 4 + y / 16) :: UInt8.ofNat (y % 16 * 16 + z / 4) ::
            UInt8.ofNat (z % 4 * 64 + w) :: r)
        | none =>
          if d == 61 && rest.isEmpty then
            .ok [UInt8.ofNat (x * 4 + y / 16), UInt8.ofNat (y % 16 * 16 + z / 4)]
          else .err (.msg "illegal base64 data")
      | none =>
        if c == 61 && d == 61 && rest.isEmpty then .ok [UInt8.ofNat (x * 4 + y / 16)]
        else .err (.msg "illegal base64 data")
    | _, _ => .err (.msg "illegal base64 data")
  | _ => .err (.msg "illegal base64 data")

/-- `base64.StdEncoding.DecodeString`: `'\r'` and `'\n'` are skipped wherever they occur
(`decodeQuantum` skips them before every character and around padding), so decoding works on the
input without them. -/
def b64Decode (s : Bytes) : Res Bytes := b64Quads (s.filter (fun c => c != 10 && c != 13))

/-- `strconv.FormatUint(n, 10)` and `%d`. -/
def formatUint (n : Nat) : Bytes :=
  if n < 10 then [UInt8.ofNat (48 + n)] else formatUint (n / 10) ++ [UInt8.ofNat (48 + n % 10)]

/-- The value of a string of decimal digits after the value `acc`. -/
def digitsValue (acc : Nat) : Bytes → Nat
  | [] => acc
  | c :: s => digitsValue (acc * 10 + (c.toNat - 48)) s

/-- `strconv.ParseUint(s, 10, 0)` on a platform with 64-bit `int`. -/
def parseUint (s : Bytes) : Res Nat :=
  if s = [] then .err (.msg "invalid syntax")
  else if !s.all (fun c => 48 ≤ c && c ≤ 57) then .err (.msg "invalid syntax")
  else if digitsValue 0 s ≥ 2 ^ 64 then .err (.msg "value out of range")
  else .ok (digitsValue 0 s)

/-- `bufio.ScanLines` removes one trailing carriage return (`dropCR`). -/
def dropCR (line : Bytes) : Bytes := if line.getLast? = some 13 then line.dropLast else line

end Verif.GoLib
