import Verif.GoLib
import Verif.Model.Nixbase32

/-!
# Model of `pkg/nixhash`
-/

namespace Verif.Nixhash
open Verif.GoLib

/-- `Algorithm` (algo.go:8-19): a `uint8`; any value can be constructed by conversion. -/
abbrev Algorithm := UInt8

/-- algo.go:15-18 -/
def MD5 : Algorithm := 1
def SHA1 : Algorithm := 2
def SHA256 : Algorithm := 3
def SHA512 : Algorithm := 4

/-- `Encoding` (encoding.go:8-18). -/
abbrev Encoding := UInt8

/-- encoding.go:14-17 -/
def Base16 : Encoding := 1
def Base64 : Encoding := 2
def NixBase32 : Encoding := 3
def SRI : Encoding := 4

/-- `ParseAlgorithm` (algo.go:21-34). -/
def parseAlgorithm (s : Bytes) : Res Algorithm :=
  if s = b!"md5" then .ok MD5
  else if s = b!"sha1" then .ok SHA1
  else if s = b!"sha256" then .ok SHA256
  else if s = b!"sha512" then .ok SHA512
  else .err (.msg "unknown algorithm")

/-- `Algorithm.String` (algo.go:36-49). -/
def algoString (a : Algorithm) : Res Bytes :=
  if a = MD5 then .ok b!"md5"
  else if a = SHA1 then .ok b!"sha1"
  else if a = SHA256 then .ok b!"sha256"
  else if a = SHA512 then .ok b!"sha512"
  else .panic

/-- `Algorithm.Func().Size()` (algo.go:54-67; sizes from package `crypto`). -/
def funcSize (a : Algorithm) : Res Nat :=
  if a = MD5 then .ok 16
  else if a = SHA1 then .ok 20
  else if a = SHA256 then .ok 32
  else if a = SHA512 then .ok 64
  else .panic

/-- `Hash` (hash.go:15-18), with `Algo` and `Digest` (hash.go:37-43) as its fields. -/
structure Hash where
  algo : Algorithm
  digest : Bytes
  deriving DecidableEq, Repr

/-- `NewHash` (hash.go:20-26). -/
def newHash (algo : Algorithm) (digest : Bytes) : Res Hash := do
  let n ← funcSize algo
  if n ≠ digest.length then .err (.msg "algo length doesn't match digest size")
  else .ok ⟨algo, digest⟩

/-- `MustNewHash` (hash.go:28-35). -/
def mustNewHash (algo : Algorithm) (digest : Bytes) : Res Hash :=
  match newHash algo digest with
  | .ok h => .ok h
  | _ => .panic

/-- `Hash.Format` (hash.go:46-69). -/
def Hash.format (h : Hash) (e : Encoding) (includeAlgo : Bool) : Res Bytes := do
  let pre ← if e = SRI ∨ includeAlgo = true then do
      let a ← algoString h.algo
      .ok (a ++ (if e = SRI then b!"-" else b!":"))
    else .ok []
  if e = Base16 then .ok (pre ++ hexEncode h.digest)
  else if e = NixBase32 then .ok (pre ++ Nixbase32.encodeToString h.digest)
  else if e = Base64 ∨ e = SRI then .ok (pre ++ b64Encode h.digest)
  else .panic

/-- `HashWithEncoding` (hash_with_encoding.go:4-8). -/
structure HashWithEncoding where
  hash : Hash
  encoding : Encoding
  includeAlgo : Bool
  deriving DecidableEq, Repr

/-- `NewHashWithEncoding` (hash_with_encoding.go:10-26). -/
def newHashWithEncoding (algo : Algorithm) (digest : Bytes) (encoding : Encoding)
    (includeAlgo : Bool) : Res HashWithEncoding := do
  let h ← newHash algo digest
  .ok ⟨h, encoding, includeAlgo⟩

/-- `MustNewHashWithEncoding` (hash_with_encoding.go:28-36). -/
def mustNewHashWithEncoding (algo : Algorithm) (digest : Bytes) (encoding : Encoding)
    (includeAlgo : Bool) : Res HashWithEncoding := do
  let h ← mustNewHash algo digest
  .ok ⟨h, encoding, includeAlgo⟩

/-- `HashWithEncoding.String` (hash_with_encoding.go:39-41). -/
def HashWithEncoding.string (h : HashWithEncoding) : Res Bytes :=
  h.hash.format h.encoding h.includeAlgo

/-- The separator search (parse.go:24-31): position of the separator if positive, and `isSRI`. -/
def findSep (s : Bytes) : Option Nat × Bool :=
  match indexByte s 58 with
  | some (i + 1) => (some (i + 1), false)
  | _ =>
    match indexByte s 45 with
    | some (i + 1) => (some (i + 1), true)
    | _ => (none, false)

/-- The decoding by length (parse.go:56-74): encoding and digest. -/
def decodeByLen (n : Nat) (s : Bytes) : Res (Encoding × Bytes) :=
  if s.length = hexEncodedLen n then do let d ← hexDecode s; .ok (Base16, d)
  else if s.length = Nixbase32.encodedLen n then do let d ← Nixbase32.decodeString s; .ok (NixBase32, d)
  else if s.length = b64EncodedLen n then do let d ← b64Decode s; .ok (Base64, d)
  else .err (.msg "unknown encoding")

/-- The algorithm determination (parse.go:33-53): algorithm, `includeAlgo`, remaining text. -/
def parsePrefix (s : Bytes) (optAlgo : Option Algorithm) :
    Option Nat → Res (Algorithm × Bool × Bytes)
  | some i =>
    match parseAlgorithm (s.take i) with
    | .ok algo =>
      match optAlgo with
      | some a => if algo ≠ a then .err (.msg "algo doesn't match expected algo")
                  else .ok (algo, true, s.drop (i + 1))
      | none => .ok (algo, true, s.drop (i + 1))
    | .err e => .err e
    | .panic => .panic
  | none =>
    match optAlgo with
    | some a => .ok (a, false, s)
    | none => .err (.msg "unable to find separator")

/-- `ParseAny` (parse.go:16-86). The partial result Go returns next to an error is not modelled. -/
def parseAny (s : Bytes) (optAlgo : Option Algorithm) : Res HashWithEncoding := do
  let p ← parsePrefix s optAlgo (findSep s).1
  let n ← funcSize p.1
  let ed ← decodeByLen n p.2.2
  if (findSep s).2 then
    if ed.1 = Base64 then .ok ⟨⟨p.1, ed.2⟩, SRI, p.2.1⟩
    else .err (.msg "invalid encoding for SRI")
  else .ok ⟨⟨p.1, ed.2⟩, ed.1, p.2.1⟩

/-- `ParseNixBase32` (parse.go:89-100). -/
def parseNixBase32 (s : Bytes) : Res Hash := do
  let h ← parseAny s none
  if h.encoding ≠ NixBase32 then .err (.msg "expected NixBase32 encoding")
  else .ok h.hash

/-- `MustParseNixBase32` (parse.go:103-110). -/
def mustParseNixBase32 (s : Bytes) : Res Hash :=
  match parseNixBase32 s with
  | .ok h => .ok h
  | _ => .panic

end Verif.Nixhash

namespace Verif.Nixhash

/-- The loop of `CompressHash` (util.go:10-12), on the remaining input from index `i`. -/
def compressLoop (size : Nat) : Nat → Bytes → Bytes → Bytes
  | _, [], buf => buf
  | i, x :: rest, buf => compressLoop size (i + 1) rest (buf.set (i % size) (buf.getD (i % size) 0 ^^^ x))

/-- `CompressHash` (util.go:8-15). A negative size makes `make` panic, a zero size makes `%`
panic on the first byte. -/
def compressHash (input : Bytes) (outputSize : Int) : Res Bytes :=
  if outputSize < 0 then .panic
  else if outputSize = 0 then (if input.isEmpty then .ok [] else .panic)
  else .ok (compressLoop outputSize.toNat 0 input (List.replicate outputSize.toNat 0))

end Verif.Nixhash
