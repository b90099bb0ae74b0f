import Verif.GoLib

/-!
# `unicode/utf8` and `encoding/json`, as far as `/repo` uses them (trusted)

What Go does on bytes (`runeSize`, `quote`, `parse`) is written down here; that it agrees with the grammar
of JSON is proved (`Lemmas/Json*.lean`, `Spec/Json.lean`). Decoding into Go types is modelled with the code
that uses it.
-/

namespace Verif.GoJson
open Verif.GoLib

/-- A continuation byte in a range. -/
def inR (lo hi : Nat) (b : UInt8) : Bool := lo ≤ b.toNat && b.toNat ≤ hi

/-- `utf8.DecodeRune`: the size of the first encoded rune, `none` if there is none (Go: `RuneError`, 1). -/
def runeSize : Bytes → Option Nat
  | [] => none
  | a :: r =>
    if a.toNat < 0x80 then some 1
    else match r with
      | [] => none
      | b :: r =>
        if inR 0xC2 0xDF a then (if inR 0x80 0xBF b then some 2 else none)
        else match r with
          | [] => none
          | c :: r =>
            if !inR 0x80 0xBF c then none
            else if a = 0xE0 then (if inR 0xA0 0xBF b then some 3 else none)
            else if a = 0xED then (if inR 0x80 0x9F b then some 3 else none)
            else if inR 0xE1 0xEF a then (if inR 0x80 0xBF b then some 3 else none)
            else match r with
              | [] => none
              | d :: _ =>
                if !inR 0x80 0xBF d then none
                else if a = 0xF0 then (if inR 0x90 0xBF b then some 4 else none)
                else if a = 0xF4 then (if inR 0x80 0x8F b then some 4 else none)
                else if inR 0xF1 0xF3 a then (if inR 0x80 0xBF b then some 4 else none)
                else none

/-- `utf8.EncodeRune`. -/
def encodeRune (n : Nat) : Bytes :=
  if n < 0x80 then [UInt8.ofNat n]
  else if n < 0x800 then [UInt8.ofNat (0xC0 + n / 64), UInt8.ofNat (0x80 + n % 64)]
  else if n < 0x10000 then
    [UInt8.ofNat (0xE0 + n / 4096), UInt8.ofNat (0x80 + n / 64 % 64), UInt8.ofNat (0x80 + n % 64)]
  else
    [UInt8.ofNat (0xF0 + n / 262144), UInt8.ofNat (0x80 + n / 4096 % 64), UInt8.ofNat (0x80 + n / 64 % 64),
      UInt8.ofNat (0x80 + n % 64)]

/-- Iterating over the runes of a string: an encoded rune (true) or a byte that belongs to none (false). -/
def segsF : Nat → Bytes → List (Bytes × Bool)
  | 0, _ => []
  | _, [] => []
  | f + 1, c :: r =>
    match runeSize (c :: r) with
    | some k => ((c :: r).take k, true) :: segsF f ((c :: r).drop k)
    | none => ([c], false) :: segsF f r

/-- Iterating over the runes of a string. -/
def segs (s : Bytes) : List (Bytes × Bool) := segsF s.length s

mutual
/-- A JSON value; numbers are kept as they are written. -/
inductive Json where
  | null
  | bool (b : Bool)
  | num (lit : Bytes)
  | str (s : Bytes)
  | arr (l : Jsons)
  | obj (l : Members)
/-- The elements of an array. -/
inductive Jsons where
  | nil
  | cons (v : Json) (rest : Jsons)
/-- The members of an object, in the order of the text. -/
inductive Members where
  | nil
  | cons (key : Bytes) (v : Json) (rest : Members)
end

deriving instance DecidableEq for Json, Jsons, Members

/-! ## Encoding -/

/-- The digits of `%x`. -/
def hexLower : Bytes := b!"0123456789abcdef"

/-- `\u00xx`. -/
def escU (c : UInt8) : Bytes := b!"\\u00" ++ [hexLower.getD (c.toNat / 16) 0, hexLower.getD (c.toNat % 16) 0]

/-- What `appendString` writes for a rune or an invalid byte, with HTML escaping (the default). `short`
tells whether the escapes `\b` and `\f` are used (since Go 1.22). -/
def quoteSeg (short : Bool) (x : Bytes × Bool) : Bytes :=
  if x.2 = false then b!"\\ufffd"
  else match x.1 with
    | [c] =>
      if c = 34 then b!"\\\""
      else if c = 92 then b!"\\\\"
      else if c = 8 then (if short then b!"\\b" else escU c)
      else if c = 12 then (if short then b!"\\f" else escU c)
      else if c = 10 then b!"\\n"
      else if c = 13 then b!"\\r"
      else if c = 9 then b!"\\t"
      else if c < 32 ∨ c = 60 ∨ c = 62 ∨ c = 38 then escU c
      else [c]
    | u => if u = [0xE2, 0x80, 0xA8] then b!"\\u2028" else if u = [0xE2, 0x80, 0xA9] then b!"\\u2029" else u

/-- `appendString`: a quoted string. -/
def quote (short : Bool) (s : Bytes) : Bytes := b!"\"" ++ (segs s).flatMap (quoteSeg short) ++ b!"\""

mutual
/-- `json.Marshal` of a value with the given parts. -/
def Json.text (short : Bool) : Json → Bytes
  | .null => b!"null"
  | .bool b => if b then b!"true" else b!"false"
  | .num l => l
  | .str s => quote short s
  | .arr l => b!"[" ++ l.text short ++ b!"]"
  | .obj l => b!"{" ++ l.text short ++ b!"}"
/-- elements with commas -/
def Jsons.text (short : Bool) : Jsons → Bytes
  | .nil => []
  | .cons v .nil => v.text short
  | .cons v l => v.text short ++ b!"," ++ l.text short
/-- members with commas -/
def Members.text (short : Bool) : Members → Bytes
  | .nil => []
  | .cons k v .nil => quote short k ++ b!":" ++ v.text short
  | .cons k v l => quote short k ++ b!":" ++ v.text short ++ b!"," ++ l.text short
end

/-- A new line with `n` levels of two spaces. -/
def newline (n : Nat) : Bytes := b!"\n" ++ List.replicate (2 * n) 32

mutual
/-- The same with `SetIndent("", "  ")`, `n` levels deep. (Go indents the compact text.) -/
def Json.pretty (short : Bool) (n : Nat) : Json → Bytes
  | .null => b!"null"
  | .bool b => if b then b!"true" else b!"false"
  | .num l => l
  | .str s => quote short s
  | .arr .nil => b!"[]"
  | .arr l => b!"[" ++ l.pretty short (n + 1) ++ newline n ++ b!"]"
  | .obj .nil => b!"{}"
  | .obj l => b!"{" ++ l.pretty short (n + 1) ++ newline n ++ b!"}"
/-- elements, each on its line -/
def Jsons.pretty (short : Bool) (n : Nat) : Jsons → Bytes
  | .nil => []
  | .cons v .nil => newline n ++ v.pretty short n
  | .cons v l => newline n ++ v.pretty short n ++ b!"," ++ l.pretty short n
/-- members, each on its line -/
def Members.pretty (short : Bool) (n : Nat) : Members → Bytes
  | .nil => []
  | .cons k v .nil => newline n ++ quote short k ++ b!": " ++ v.pretty short n
  | .cons k v l => newline n ++ quote short k ++ b!": " ++ v.pretty short n ++ b!"," ++ l.pretty short n
end

/-! ## Decoding -/

/-- `isSpace`. -/
def isSpace (c : UInt8) : Bool := c == 32 || c == 9 || c == 13 || c == 10

/-- Skip white space. -/
def skipSpace (s : Bytes) : Bytes := s.dropWhile isSpace

/-- Four hexadecimal digits: the number and what follows. -/
def hex4 : Bytes → Option (Nat × Bytes)
  | a :: b :: c :: d :: r => do
    let w ← hexVal a
    let x ← hexVal b
    let y ← hexVal c
    let z ← hexVal d
    some (w * 4096 + x * 256 + y * 16 + z, r)
  | _ => none

/-- The second half of a surrogate pair: `\uXXXX` with a number from 0xDC00 to 0xDFFF. -/
def lowSurrogate : Bytes → Option (Nat × Bytes)
  | 92 :: 117 :: r =>
    match hex4 r with
    | some (n, r') => if 0xDC00 ≤ n ∧ n < 0xE000 then some (n, r') else none
    | none => none
  | _ => none

/-- The escapes of one character. -/
def simpleEsc (c : UInt8) : Option UInt8 :=
  if c = 34 then some 34 else if c = 92 then some 92 else if c = 47 then some 47
  else if c = 98 then some 8 else if c = 102 then some 12 else if c = 110 then some 10
  else if c = 114 then some 13 else if c = 116 then some 9 else none

/-- U+FFFD. -/
def replacement : Bytes := [0xEF, 0xBF, 0xBD]

/-- The characters of a string up to and including the closing quote: the scanner and `unquote`. -/
def parseChars : Nat → Bytes → Option (Bytes × Bytes)
  | 0, _ => none
  | _, [] => none
  | f + 1, c :: r =>
    if c = 34 then some ([], r)
    else if c = 92 then
      match r with
      | [] => none
      | e :: r =>
        match simpleEsc e with
        | some x => do
          let (v, r') ← parseChars f r
          some (x :: v, r')
        | none =>
          if e = 117 then
            match hex4 r with
            | none => none
            | some (n, r) =>
              if 0xD800 ≤ n ∧ n < 0xE000 then
                match (if n < 0xDC00 then lowSurrogate r else none) with
                | some (m, r) => do
                  let (v, r') ← parseChars f r
                  some (encodeRune (0x10000 + (n - 0xD800) * 0x400 + (m - 0xDC00)) ++ v, r')
                | none => do
                  let (v, r') ← parseChars f r
                  some (replacement ++ v, r')
              else do
                let (v, r') ← parseChars f r
                some (encodeRune n ++ v, r')
          else none
    else if c < 32 then none
    else match runeSize (c :: r) with
      | some k => do
        let (v, r') ← parseChars f ((c :: r).drop k)
        some ((c :: r).take k ++ v, r')
      | none => do
        let (v, r') ← parseChars f r
        some (replacement ++ v, r')

/-- A string after its opening quote. -/
def parseStr (s : Bytes) : Option (Bytes × Bytes) := parseChars (s.length + 1) s

/-- A decimal digit. -/
def isDigit (c : UInt8) : Bool := inR 48 57 c

/-- One or more digits. -/
def digits1 (s : Bytes) : Option (Bytes × Bytes) :=
  if s.takeWhile isDigit = [] then none else some (s.takeWhile isDigit, s.dropWhile isDigit)

/-- The integer part of a number: no leading zeros. -/
def intPart : Bytes → Option (Bytes × Bytes)
  | 48 :: r => some ([48], r)
  | s => digits1 s

/-- The fraction of a number, if there is one. -/
def fracPart : Bytes → Option (Bytes × Bytes)
  | 46 :: r => do
    let (d, r') ← digits1 r
    some (46 :: d, r')
  | s => some ([], s)

/-- The sign of an exponent. -/
def expSign : Bytes → Bytes × Bytes
  | 43 :: r => ([43], r)
  | 45 :: r => ([45], r)
  | s => ([], s)

/-- The exponent of a number, if there is one. -/
def expPart : Bytes → Option (Bytes × Bytes)
  | [] => some ([], [])
  | c :: r =>
    if c = 101 ∨ c = 69 then do
      let (d, r') ← digits1 (expSign r).2
      some (c :: (expSign r).1 ++ d, r')
    else some ([], c :: r)

/-- The minus sign of a number. -/
def minusSign : Bytes → Bytes × Bytes
  | 45 :: r => ([45], r)
  | s => ([], s)

/-- A number, as long as possible. -/
def parseNum (s : Bytes) : Option (Bytes × Bytes) := do
  let (i, r) ← intPart (minusSign s).2
  let (f, r) ← fracPart r
  let (e, r) ← expPart r
  some ((minusSign s).1 ++ i ++ f ++ e, r)

mutual
/-- A value after any white space, as the scanner and the decoder see it; `depth` more arrays and objects
may be opened. -/
def parseValue : Nat → Nat → Bytes → Option (Json × Bytes)
  | 0, _, _ => none
  | f + 1, depth, s =>
    match skipSpace s with
    | [] => none
    | c :: r =>
      if c = 34 then do
        let (v, r) ← parseStr r
        some (.str v, r)
      else if c = 91 then
        if depth = 0 then none
        else match skipSpace r with
          | 93 :: r => some (.arr .nil, r)
          | _ => do
            let (l, r) ← parseItems f (depth - 1) r
            some (.arr l, r)
      else if c = 123 then
        if depth = 0 then none
        else match skipSpace r with
          | 125 :: r => some (.obj .nil, r)
          | _ => do
            let (l, r) ← parseMembers f (depth - 1) r
            some (.obj l, r)
      else if b!"null".isPrefixOf (c :: r) then some (.null, (c :: r).drop 4)
      else if b!"true".isPrefixOf (c :: r) then some (.bool true, (c :: r).drop 4)
      else if b!"false".isPrefixOf (c :: r) then some (.bool false, (c :: r).drop 5)
      else do
        let (l, r) ← parseNum (c :: r)
        some (.num l, r)
/-- The elements of an array up to and including the bracket. -/
def parseItems : Nat → Nat → Bytes → Option (Jsons × Bytes)
  | 0, _, _ => none
  | f + 1, depth, s => do
    let (v, r) ← parseValue f depth s
    match skipSpace r with
    | 44 :: r => do
      let (l, r) ← parseItems f depth r
      some (.cons v l, r)
    | 93 :: r => some (.cons v .nil, r)
    | _ => none
/-- The members of an object up to and including the brace. -/
def parseMembers : Nat → Nat → Bytes → Option (Members × Bytes)
  | 0, _, _ => none
  | f + 1, depth, s =>
    match skipSpace s with
    | 34 :: r => do
      let (k, r) ← parseStr r
      match skipSpace r with
      | 58 :: r => do
        let (v, r) ← parseValue f depth r
        match skipSpace r with
        | 44 :: r => do
          let (l, r) ← parseMembers f depth r
          some (.cons k v l, r)
        | 125 :: r => some (.cons k v .nil, r)
        | _ => none
      | _ => none
    | _ => none
end

/-- `maxNestingDepth`. -/
def maxNestingDepth : Nat := 10000

/-- The value at the start of the data, and what follows. -/
def parseJson (s : Bytes) : Option (Json × Bytes) := parseValue (2 * s.length + 2) maxNestingDepth s

/-- The syntax part of `json.Unmarshal`: one value, nothing but white space after it. -/
def unmarshal (s : Bytes) : Option Json :=
  match parseJson s with
  | some (v, r) => if skipSpace r = [] then some v else none
  | none => none

/-! ## Decoding into structs -/

/-- `foldRune` for the runes that matter: the smallest rune that differs in case only. (All fields have ASCII
names; the only other runes that fold to ASCII ones are U+017F and U+212A. Before Go 1.21: `foldFunc`.) -/
def foldSeg (u : Bytes) : Bytes :=
  match u with
  | [c] => if inR 97 122 c then [c - 32] else [c]
  | u => if u = [0xC5, 0xBF] then b!"S" else if u = [0xE2, 0x84, 0xAA] then b!"K" else u

/-- `foldName`. -/
def foldName (s : Bytes) : Bytes := (segs s).flatMap fun x => foldSeg x.1

/-- Whether a key is taken for a field: the same name, or one that differs in case only. (Go looks for the same
name first, which makes no difference as no two fields of a struct here differ in case only.) -/
def sameField (field key : Bytes) : Bool := foldName key == foldName field

end Verif.GoJson
