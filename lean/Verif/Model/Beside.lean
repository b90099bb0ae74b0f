import Verif.Model.Derivation
import Verif.Model.Nixbase32Mem

/-!
# What `ReadDerivation` and `ParseAny` return beside an error

Everywhere else in the model a call returns a value or an error. Here it is a pair of a pointer (`none` is nil)
and an error (`none` is nil), as in Go.
-/

namespace Verif.Derivation
open Verif.GoLib Verif.Wire

/-- `ReadDerivation` (parser.go:27-39): `return drv, drv.Validate()`. -/
def readDerivationPair (jsonName : Bytes → Res (Option Bytes)) (s : Stream) :
    Res (Option Derivation × Option Err) :=
  if s.term ≠ .eof then .ok (none, some s.term)
  else
    match parseDerivation jsonName s.data with
    | .err e => .ok (none, some e)
    | .panic => .panic
    | .ok drv =>
      match drv.validate with
      | .ok () => .ok (some drv, none)
      | .err e => .ok (some drv, some e)
      | .panic => .panic

end Verif.Derivation

namespace Verif.Nixhash
open Verif.GoLib

/-- Pairs of hexadecimal digits up to the first that is none: what `hex.DecodeString` returns beside an error. -/
def hexPrefix : Bytes → Bytes
  | a :: b :: rest =>
    match hexDecode [a, b] with
    | .ok d => d ++ hexPrefix rest
    | _ => []
  | _ => []

/-- The decoding by length (parse.go:56-74) with what is stored in `h` beside an error: encoding (0 if the length
fits none) and digest. `junk` is what `base64.DecodeString` returns beside an error, which is not modelled. -/
def decodeByLenPair (junk : Bytes → Bytes) (n : Nat) (s : Bytes) : Res (Encoding × Bytes × Option Err) :=
  if s.length = hexEncodedLen n then
    match hexDecode s with
    | .ok d => .ok (Base16, d, none)
    | .err e => .ok (Base16, hexPrefix s, some e)
    | .panic => .panic
  else if s.length = Nixbase32.encodedLen n then
    match Nixbase32.decodeStringFull s with
    | .ok (d, e) => .ok (NixBase32, d, e)
    | .err e => .err e
    | .panic => .panic
  else if s.length = b64EncodedLen n then
    match b64Decode s with
    | .ok d => .ok (Base64, d, none)
    | .err e => .ok (Base64, junk s, some e)
    | .panic => .panic
  else .ok (0, [], some (.msg "unknown encoding"))

/-- `ParseAny` (parse.go:16-86): nil beside the errors of lines 40, 44 and 51, otherwise what was filled in. -/
def parseAnyPair (junk : Bytes → Bytes) (s : Bytes) (optAlgo : Option Algorithm) :
    Res (Option HashWithEncoding × Option Err) :=
  match parsePrefix s optAlgo (findSep s).1 with
  | .err e => .ok (none, some e)
  | .panic => .panic
  | .ok (algo, includeAlgo, rest) =>
    match funcSize algo with
    | .err e => .err e
    | .panic => .panic
    | .ok n =>
      match decodeByLenPair junk n rest with
      | .err e => .err e
      | .panic => .panic
      | .ok (enc, d, some e) => .ok (some ⟨⟨algo, d⟩, enc, includeAlgo⟩, some e)
      | .ok (enc, d, none) =>
        if (findSep s).2 then
          if enc = Base64 then .ok (some ⟨⟨algo, d⟩, SRI, includeAlgo⟩, none)
          else .ok (some ⟨⟨algo, d⟩, enc, includeAlgo⟩, some (.msg "invalid encoding for SRI"))
        else .ok (some ⟨⟨algo, d⟩, enc, includeAlgo⟩, none)

end Verif.Nixhash
