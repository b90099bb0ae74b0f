import Verif.GoPath
import Verif.GoRe
import Verif.Model.Nixbase32

/-!
# Model of `pkg/storepath/storepath.go`
-/

namespace Verif.Storepath
open Verif.GoLib Verif.Nixbase32

/-- `StoreDir` (storepath.go:13). -/
def storeDir : Bytes := b!"/nix/store"

/-- `PathHashSize` (storepath.go:14). -/
def pathHashSize : Nat := 20

/-- `encodedPathHashSize` (storepath.go:29). -/
def encodedPathHashSize : Nat := encodedLen pathHashSize

/-- `hashOffset` (storepath.go:32). -/
def hashOffset : Nat := storeDir.length + 1

/-- `nameOffset` (storepath.go:34). -/
def nameOffset : Nat := encodedPathHashSize + 1

/-- `StorePath` (storepath.go:38-41). -/
structure StorePath where
  name : Bytes
  digest : Bytes
  deriving DecidableEq, Repr

/-- `String` (storepath.go:46-48). -/
def StorePath.string (p : StorePath) : Bytes := encodeToString p.digest ++ b!"-" ++ p.name

/-- `Absolute` (storepath.go:53-55). -/
def StorePath.absolute (p : StorePath) : Bytes := pathJoin storeDir p.string

/-- The characters that pass the loop of `Validate` (storepath.go:106-124). Go iterates over runes;
a byte from 0x80 on is part of a rune from 0x80 on (or of U+FFFD), which does not pass either. -/
def nameChar (c : UInt8) : Bool :=
  (97 ≤ c && c ≤ 122) || (65 ≤ c && c ≤ 90) || (48 ≤ c && c ≤ 57) ||
    c == 45 || c == 95 || c == 46 || c == 43 || c == 63 || c == 61

/-- `Validate` (storepath.go:93-127). The name is checked from `nameOffset` of the absolute path on,
i.e. from the middle of the hash part. -/
def validate (s : Bytes) : Res Unit :=
  if s.length < hashOffset + encodedPathHashSize + 1 then .err (.msg "invalid path length")
  else if s.take storeDir.length ≠ storeDir then .err (.msg "mismatching store path prefix")
  else match validateString ((s.drop hashOffset).take encodedPathHashSize) with
    | .err _ => .err (.msg "error validating path nixbase32")
    | .panic => .panic
    | .ok () =>
      if (s.drop nameOffset).all nameChar then .ok ()
      else .err (.msg "invalid character in path")

/-- `StorePath.Validate` (storepath.go:58-60). -/
def StorePath.validate (p : StorePath) : Res Unit := Storepath.validate p.absolute

/-- `FromString` (storepath.go:65-79); the slice expressions panic when out of range. -/
def fromString (s : Bytes) : Res StorePath := do
  Storepath.validate (pathJoin storeDir s)
  if s.length < nameOffset - 1 then .panic
  else match decodeString (s.take (nameOffset - 1)) with
    | .err _ => .err (.msg "unable to decode hash")
    | .panic => .panic
    | .ok digest =>
      if s.length < nameOffset then .panic
      else .ok ⟨s.drop nameOffset, digest⟩

/-- `FromAbsolutePath` (storepath.go:84-90). -/
def fromAbsolutePath (s : Bytes) : Res StorePath :=
  if s.length < hashOffset + nameOffset + 1 then .err (.msg "invalid path length")
  else fromString (s.drop hashOffset)

end Verif.Storepath

namespace Verif.Storepath
open Verif.GoLib Verif.Nixbase32

/-- the expression of `NameRe` (storepath.go:19): ``[a-zA-Z0-9+\-_?=][.a-zA-Z0-9+\-_?=]*`` -/
def nameReExpr : Re :=
  .cat (.cls b!"abcdefghijklmnopqrstuvwxyzABCDEFGHIJKLMNOPQRSTUVWXYZ0123456789+-_?=")
    (.star (.cls b!".abcdefghijklmnopqrstuvwxyzABCDEFGHIJKLMNOPQRSTUVWXYZ0123456789+-_?="))

/-- `NameRe` (storepath.go:19), which has no anchors. -/
def nameRe : Regexp := ⟨false, nameReExpr⟩

/-- `PathRe` (storepath.go:20-26): `^<StoreDir>/([<Alphabet>]{<EncodedLen>})-(<NameRe>)$`; groups do not
change what is matched. -/
def pathRe : Regexp :=
  ⟨true, .cat (.lit storeDir) (.cat (.lit b!"/") (.cat (.rep (.cls alphabet) encodedPathHashSize)
    (.cat (.lit b!"-") nameReExpr)))⟩

end Verif.Storepath
