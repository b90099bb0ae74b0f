import Verif.Model.Nixbase32
import Verif.Model.Wire

/-!
# `int` of a given width in `pkg/nixbase32` and `pkg/wire`

The other models compute lengths with unbounded numbers. Here the values of Go's `int` are those of a machine with
`w` bits, and additions and multiplications wrap around.
-/

namespace Verif.IntWidth
open Verif.Nixbase32 Verif.Wire

/-- The `int` of `w` bits that is congruent to `x`. -/
def toInt (w : Nat) (x : Int) : Int := (x + 2 ^ (w - 1)) % 2 ^ w - 2 ^ (w - 1)

/-- `EncodedLen` (nixbase32.go:98-100); Go's division truncates. -/
def encodedLenW (w : Nat) (n : Nat) : Int := (toInt w (toInt w (n * 8) + 4)).tdiv 5

/-- `DecodedLen` (nixbase32.go:106-108). -/
def decodedLenW (w : Nat) (n : Nat) : Int := (toInt w (n * 5)).tdiv 8

/-- `EncodeToString` (nixbase32.go:131-152): `Grow` panics for a negative number; the loop counts down from
`n - 1`, its index arithmetic is on `uint64` and `n * 5 / 8` fits into `int`. -/
def encodeToStringW (w : Nat) (src : Bytes) : Res Bytes :=
  if encodedLenW w src.length < 0 then .panic
  else .ok (encodeLoop src (encodedLenW w src.length).toNat)

/-- `Encode` (nixbase32.go:112-128): `dst[:0:n]` panics for a negative `n` and for one above the capacity. -/
def encodeW (w : Nat) (dst src : Bytes) : Res Bytes :=
  if encodedLenW w src.length < 0 ∨ (dst.length : Int) < encodedLenW w src.length then .panic
  else .ok (encodeLoop src (encodedLenW w src.length).toNat ++ dst.drop (encodedLenW w src.length).toNat)

/-- `DecodeString` (nixbase32.go:25-30): `make` panics for a negative number. -/
def decodeStringW (w : Nat) (s : Bytes) : Res Bytes :=
  if decodedLenW w s.length < 0 then .panic
  else match decodeLoop (decodedLenW w s.length).toNat 0 s.reverse (List.replicate (decodedLenW w s.length).toNat 0) with
    | .panic => .panic
    | .done _ (some e) _ => .err e
    | .done n none dst => .ok (dst.take n)

/-- `ValidateString` (nixbase32.go:70-94): `i+1 >= maxDstSize` is the same for a negative `maxDstSize` and for 0. -/
def validateStringW (w : Nat) (s : Bytes) : Res Unit :=
  validateLoop (decodedLenW w s.length).toNat 0 s.reverse

/-- `ReadBytesFull` (read.go:78-99): `make([]byte, n)` panics for an `n` (of type `uint64`) outside the range of `int`. -/
def readBytesFullW (w : Nat) (maxBytes : Nat) : M Stream Bytes := do
  let contentLength ← readUint64
  if contentLength > maxBytes then M.fail (.msg "content length exceeds maximum")
  else if 2 ^ (w - 1) ≤ contentLength then M.panic
  else readContent contentLength

end Verif.IntWidth
