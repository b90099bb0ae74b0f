import Verif.GoLib

/-!
# Model of `net/url` (trusted)

`url.Parse` and `(*URL).String` of the Go standard library (version 1.20, the one `go.mod` names), on bytes. The
definitions follow the source of `net/url/url.go`; the names of its functions are given. Error values are only
distinguished by a message.
-/

namespace Verif.GoUrl
open Verif.GoLib

/-- The `encoding` modes that are used. -/
inductive Mode where
  | path | host | zone | userPassword | fragment
  deriving DecidableEq, Repr

/-- `URL`; the user is a name and, if one is set, a password. -/
structure URL where
  scheme : Bytes
  opaq : Bytes
  user : Option (Bytes × Option Bytes)
  host : Bytes
  path : Bytes
  rawPath : Bytes
  omitHost : Bool
  forceQuery : Bool
  rawQuery : Bytes
  fragment : Bytes
  rawFragment : Bytes
  deriving DecidableEq, Repr

/-- `new(URL)`. -/
def URL.zero : URL := ⟨[], [], none, [], [], [], false, false, [], [], []⟩

/-- A letter. -/
def isAlpha (c : UInt8) : Bool := (97 ≤ c && c ≤ 122) || (65 ≤ c && c ≤ 90)

/-- A letter or a decimal digit. -/
def isAlnum (c : UInt8) : Bool := isAlpha c || (48 ≤ c && c ≤ 57)

/-- `shouldEscape`. -/
def shouldEscape (c : UInt8) (m : Mode) : Bool :=
  if isAlnum c then false
  else if (m = .host ∨ m = .zone) ∧ c ∈ b!"!$&'()*+,;=:[]<>\"" then false
  else if c ∈ b!"-_.~" then false
  else if c ∈ b!"$&+,/:;=?@" then
    match m with
    | .path => c == 63
    | .userPassword => c == 64 || c == 47 || c == 63 || c == 58
    | .fragment => false
    | .host => true
    | .zone => true
  else if m = .fragment ∧ c ∈ b!"!()*" then false
  else true

/-- The upper-case hexadecimal digits (`upperhex`). -/
def upperhex : Bytes := b!"0123456789ABCDEF"

/-- What `escape` writes for one byte. -/
def escapeByte (m : Mode) (c : UInt8) : Bytes :=
  if shouldEscape c m then [37, upperhex.getD (c.toNat / 16) 0, upperhex.getD (c.toNat % 16) 0] else [c]

/-- `escape` (in the modes above, a space is escaped like other bytes). -/
def escape (m : Mode) (s : Bytes) : Bytes := s.flatMap (escapeByte m)

/-- Whether `unescape` refuses the escaped byte `v` in mode `m`: in a host only `%25` and bytes that are not
ASCII can be escaped, in a zone `%25`, `%20` and bytes that need no escape. -/
def badEscape (m : Mode) (v : Nat) : Bool :=
  match m with
  | .host => v / 16 < 8 && v != 37
  | .zone => v != 37 && v != 32 && shouldEscape (UInt8.ofNat v) .host
  | _ => false

/-- Whether `unescape` refuses the byte `c` as it is. -/
def badByte (m : Mode) (c : UInt8) : Bool :=
  (m = .host || m = .zone) && c < 128 && shouldEscape c m

/-- The byte of the two digits after a percent sign. -/
def escapedByte (m : Mode) (a b : UInt8) : Option UInt8 :=
  match hexVal a, hexVal b with
  | some x, some y => if badEscape m (16 * x + y) then none else some (UInt8.ofNat (16 * x + y))
  | _, _ => none

/-- `unescape`. -/
def unescape (m : Mode) : Bytes → Res Bytes
  | [] => .ok []
  | c :: s =>
    if c = 37 then
      match s with
      | a :: b :: r =>
        match escapedByte m a b with
        | none => .err (.msg "invalid URL escape")
        | some x => do
          let t ← unescape m r
          .ok (x :: t)
      | _ => .err (.msg "invalid URL escape")
    else if badByte m c then .err (.msg "invalid character in host name")
    else do
      let t ← unescape m s
      .ok (c :: t)

/-- `strings.Cut` for a separator of one byte: the parts before and after it (all and nothing without one). -/
def cut (s : Bytes) (c : UInt8) : Bytes × Bytes := (s.takeWhile (· != c), (s.dropWhile (· != c)).drop 1)

/-- Split at the last occurrence of a byte (`strings.LastIndex`). -/
def splitLast : Bytes → UInt8 → Option (Bytes × Bytes)
  | [], _ => none
  | x :: s, c =>
    match splitLast s c with
    | some (a, b) => some (x :: a, b)
    | none => if x == c then some ([], s) else none

/-- The position of the colon after the scheme (the loop of `getScheme`, from index `i`). -/
def schemeEnd : Nat → Bytes → Res (Option Nat)
  | _, [] => .ok none
  | i, c :: s =>
    if isAlpha c then schemeEnd (i + 1) s
    else if (48 ≤ c && c ≤ 57) || c ∈ b!"+-." then (if i = 0 then .ok none else schemeEnd (i + 1) s)
    else if c = 58 then (if i = 0 then .err (.msg "missing protocol scheme") else .ok (some i))
    else .ok none

/-- `getScheme`: the scheme and the rest. -/
def getScheme (raw : Bytes) : Res (Bytes × Bytes) := do
  match ← schemeEnd 0 raw with
  | none => .ok ([], raw)
  | some i => .ok (raw.take i, raw.drop (i + 1))

/-- `strings.ToLower` on the letters of a scheme. -/
def lowerByte (c : UInt8) : UInt8 := if 65 ≤ c && c ≤ 90 then c + 32 else c

/-- The query: the rest before it, `ForceQuery`, `RawQuery`. -/
def splitQuery (rest : Bytes) : Bytes × Bool × Bytes :=
  if rest.getLast? = some 63 ∧ rest.count 63 = 1 then (rest.dropLast, true, [])
  else ((cut rest 63).1, false, (cut rest 63).2)

/-- `validOptionalPort`. -/
def validOptionalPort : Bytes → Bool
  | [] => true
  | c :: s => c == 58 && s.all fun d => 48 ≤ d && d ≤ 57

/-- An IP literal with a zone (`parseHost`): `a` is the part before `%25`, `b` the zone from there to the
last `]`, `c` the rest from there on. -/
def zoneHost (a b c : Bytes) : Res Bytes := do
  let x ← unescape .host a
  let y ← unescape .zone b
  let z ← unescape .host c
  .ok (x ++ y ++ z)

/-- `parseHost` for a host in brackets. -/
def bracketHost (host : Bytes) : Res Bytes :=
  match splitLast host 93 with
  | none => .err (.msg "missing ']' in host")
  | some (before, port) =>
    if !validOptionalPort port then .err (.msg "invalid port after host")
    else match index before b!"%25" with
      | some z => zoneHost (before.take z) (before.drop z) (93 :: port)
      | none => unescape .host host

/-- `parseHost`. -/
def parseHost (host : Bytes) : Res Bytes :=
  if host.head? = some 91 then bracketHost host
  else match splitLast host 58 with
    | none => unescape .host host
    | some (_, port) =>
      if !validOptionalPort (58 :: port) then .err (.msg "invalid port after host")
      else unescape .host host

/-- `validUserinfo` (a byte that is not ASCII belongs to a rune that is not allowed). -/
def validUserinfo (s : Bytes) : Bool := s.all fun c => isAlnum c || c ∈ b!"-._:~!$&'()*+,;=%@"

/-- The user name and password of the user information. -/
def parseUser (info : Bytes) : Res (Bytes × Option Bytes) :=
  if 58 ∈ info then do
    let n ← unescape .userPassword (cut info 58).1
    let p ← unescape .userPassword (cut info 58).2
    .ok (n, some p)
  else do
    let n ← unescape .userPassword info
    .ok (n, none)

/-- `parseAuthority`. -/
def parseAuthority (authority : Bytes) : Res (Option (Bytes × Option Bytes) × Bytes) :=
  match splitLast authority 64 with
  | none => do
    let h ← parseHost authority
    .ok (none, h)
  | some (info, host) => do
    let h ← parseHost host
    if !validUserinfo info then .err (.msg "net/url: invalid userinfo")
    else do
      let u ← parseUser info
      .ok (some u, h)

/-- `setPath`. -/
def setPath (u : URL) (p : Bytes) : Res URL := do
  let q ← unescape .path p
  .ok { u with path := q, rawPath := if p = escape .path q then [] else p }

/-- `setFragment`. -/
def setFragment (u : URL) (f : Bytes) : Res URL := do
  let q ← unescape .fragment f
  .ok { u with fragment := q, rawFragment := if f = escape .fragment q then [] else f }

/-- The part of `parse` from the check of the first slash on, for the rest without the query. -/
def parseRest (u : URL) (rest : Bytes) : Res URL :=
  if rest.head? ≠ some 47 then
    if u.scheme ≠ [] then .ok { u with opaq := rest }
    else if 58 ∈ (cut rest 47).1 then .err (.msg "first path segment in URL cannot contain colon")
    else setPath u rest
  else if (u.scheme ≠ [] ∨ hasPrefix rest b!"///" = false) ∧ hasPrefix rest b!"//" = true then do
    let uh ← parseAuthority ((rest.drop 2).takeWhile (· != 47))
    setPath { u with user := uh.1, host := uh.2 } ((rest.drop 2).dropWhile (· != 47))
  else setPath { u with omitHost := decide (u.scheme ≠ []) } rest

/-- `stringContainsCTLByte`. -/
def isCtl (c : UInt8) : Bool := c < 32 || c == 127

/-- `parse(rawURL, false)`. -/
def parseNoFrag (raw : Bytes) : Res URL :=
  if raw.any isCtl then .err (.msg "net/url: invalid control character in URL")
  else if raw = b!"*" then .ok { URL.zero with path := b!"*" }
  else do
    let sr ← getScheme raw
    let q := splitQuery sr.2
    parseRest { URL.zero with scheme := sr.1.map lowerByte, forceQuery := q.2.1, rawQuery := q.2.2 } q.1

/-- `Parse`. -/
def parse (raw : Bytes) : Res URL := do
  let u ← parseNoFrag (cut raw 35).1
  if (cut raw 35).2 = [] then .ok u else setFragment u (cut raw 35).2

/-- `validEncoded`. -/
def validEncoded (m : Mode) (s : Bytes) : Bool :=
  s.all fun c => c ∈ b!"!$&'()*+,;=:@[]%" || !shouldEscape c m

/-- `EscapedPath`. -/
def URL.escapedPath (u : URL) : Bytes :=
  if u.rawPath ≠ [] ∧ validEncoded .path u.rawPath = true ∧ unescape .path u.rawPath = .ok u.path then u.rawPath
  else if u.path = b!"*" then b!"*"
  else escape .path u.path

/-- `EscapedFragment`. -/
def URL.escapedFragment (u : URL) : Bytes :=
  if u.rawFragment ≠ [] ∧ validEncoded .fragment u.rawFragment = true ∧
    unescape .fragment u.rawFragment = .ok u.fragment then u.rawFragment
  else escape .fragment u.fragment

/-- `(*Userinfo).String`, with the `@` that follows. -/
def userText : Option (Bytes × Option Bytes) → Bytes
  | none => []
  | some (n, none) => escape .userPassword n ++ b!"@"
  | some (n, some p) => escape .userPassword n ++ b!":" ++ escape .userPassword p ++ b!"@"

/-- The part of `String` for user and host. -/
def URL.authorityText (u : URL) : Bytes :=
  if u.scheme ≠ [] ∨ u.host ≠ [] ∨ u.user ≠ none then
    if u.omitHost = true ∧ u.host = [] ∧ u.user = none then []
    else (if u.host ≠ [] ∨ u.path ≠ [] ∨ u.user ≠ none then b!"//" else []) ++ userText u.user ++ escape .host u.host
  else []

/-- The path in `String`; `before` is what has been written before it. -/
def URL.pathText (u : URL) (before : Bytes) : Bytes :=
  let p := u.escapedPath
  let slash := if p ≠ [] ∧ p.head? ≠ some 47 ∧ u.host ≠ [] then b!"/" else []
  let dot := if before ++ slash = [] ∧ 58 ∈ (cut p 47).1 then b!"./" else []
  slash ++ dot ++ p

/-- `(*URL).String`. -/
def URL.string (u : URL) : Bytes :=
  let s := if u.scheme ≠ [] then u.scheme ++ b!":" else []
  let mid := if u.opaq ≠ [] then u.opaq else u.authorityText ++ u.pathText (s ++ u.authorityText)
  s ++ mid ++
    (if u.forceQuery = true ∨ u.rawQuery ≠ [] then b!"?" ++ u.rawQuery else []) ++
    (if u.fragment ≠ [] then b!"#" ++ u.escapedFragment else [])

end Verif.GoUrl
