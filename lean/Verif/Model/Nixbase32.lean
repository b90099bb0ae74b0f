import Verif.Basic

/-!
# Model of `pkg/nixbase32/nixbase32.go`
-/

namespace Verif.Nixbase32

/-- `Alphabet` (nixbase32.go:21). -/
def alphabet : Bytes := b!"0123456789abcdfghijklmnpqrsvwxyz"

/-- `strings.IndexByte(Alphabet, c)` (nixbase32.go:44, 79); Go's `-1` is `none`. -/
def indexAlphabet (c : UInt8) : Option Nat := alphabet.findIdx? (· == c)

/-- `EncodedLen` (nixbase32.go:98-100). `int` overflow for lengths near 2^60 is not modelled. -/
def encodedLen (n : Nat) : Nat := (n * 8 + 4) / 5

/-- `DecodedLen` (nixbase32.go:106-108). -/
def decodedLen (n : Nat) : Nat := (n * 5) / 8

/-- One iteration of the loop body of `Encode`/`EncodeToString` (nixbase32.go:117-126, 139-148):
the character for digit `n`. -/
def encodeChar (src : Bytes) (n : Nat) : UInt8 :=
  let b := n * 5
  let i := b / 8
  let j := b % 8
  let c := goShr (src.getD i 0) j
  let c := if i + 1 < src.length then c ||| goShl (src.getD (i + 1) 0) (8 - j) else c
  alphabet.getD (c &&& 0x1f).toNat 0

/-- The loop `for n = n - 1; n >= 0; n--` of `EncodeToString` (nixbase32.go:138-149). -/
def encodeLoop (src : Bytes) : Nat → Bytes
  | 0 => []
  | n + 1 => encodeChar src n :: encodeLoop src n

/-- `EncodeToString` (nixbase32.go:131-152). -/
def encodeToString (src : Bytes) : Bytes :=
  encodeLoop src (encodedLen src.length)

/-- `Encode` (nixbase32.go:112-128). `dst` is the caller's buffer, seen up to its capacity; the
slice expression `dst[:0:n]` panics when the capacity is smaller than `n`, and `append` then
overwrites the first `n` bytes in place. -/
def encode (dst src : Bytes) : Res Bytes :=
  let n := encodedLen src.length
  if dst.length < n then .panic
  else .ok (encodeLoop src n ++ dst.drop n)

/-- Result of `Decode`: the returned pair and the final content of the caller's buffer, or a
panic (index out of range). -/
inductive DecodeOut where
  | done (n : Nat) (e : Option Err) (dst : Bytes)
  | panic
  deriving DecidableEq, Repr

/-- The loop of `Decode` (nixbase32.go:38-64). `rest` lists the characters `src[len(src)-n-1]`
for the current and all later `n`, i.e. a suffix of the reversed `src`. -/
def decodeLoop (maxDst : Nat) : Nat → Bytes → Bytes → DecodeOut
  | _, [], dst => .done maxDst none dst
  | n, c :: rest, dst =>
    let b := n * 5
    let i := b / 8
    let j := b % 8
    match indexAlphabet c with
    | none => .done i (some (.msg "char not in alphabet")) dst
    | some digit =>
      if dst.length ≤ i then .done i (some (.msg "ErrInvalidHash")) dst
      else
        let dst := dst.set i (dst.getD i 0 ||| goShl (UInt8.ofNat digit) j)
        let carry := goShr (UInt8.ofNat digit) (8 - j)
        if i + 1 < maxDst then
          if dst.length ≤ i + 1 then .panic
          else decodeLoop maxDst (n + 1) rest (dst.set (i + 1) (dst.getD (i + 1) 0 ||| carry))
        else if carry ≠ 0 then .done i (some (.msg "non-zero padding")) dst
        else decodeLoop maxDst (n + 1) rest dst

/-- `Decode` (nixbase32.go:35-67). -/
def decode (dst src : Bytes) : DecodeOut :=
  decodeLoop (decodedLen src.length) 0 src.reverse dst

/-- `DecodeString` (nixbase32.go:25-30). On success `dst[:n]` with `n = len(dst)`; the partial
data Go returns next to an error is not modelled. -/
def decodeString (s : Bytes) : Res Bytes :=
  match decode (List.replicate (decodedLen s.length) 0) s with
  | .panic => .panic
  | .done _ (some e) _ => .err e
  | .done n none dst => .ok (dst.take n)

/-- The loop of `ValidateString` (nixbase32.go:73-91); `rest` as in `decodeLoop`. -/
def validateLoop (maxDst : Nat) : Nat → Bytes → Res Unit
  | _, [] => .ok ()
  | n, c :: rest =>
    let b := n * 5
    let i := b / 8
    let j := b % 8
    match indexAlphabet c with
    | none => .err (.msg "char not in alphabet")
    | some digit =>
      if maxDst ≤ i + 1 then
        if goShr (UInt8.ofNat digit) (8 - j) ≠ 0 then .err (.msg "non-zero padding")
        else validateLoop maxDst (n + 1) rest
      else validateLoop maxDst (n + 1) rest

/-- `ValidateString` (nixbase32.go:70-94). -/
def validateString (s : Bytes) : Res Unit :=
  validateLoop (decodedLen s.length) 0 s.reverse

/-- `Is` (nixbase32.go:155-158). -/
def is (c : UInt8) : Bool :=
  (48 ≤ c && c ≤ 57) ||
    (97 ≤ c && c ≤ 122 && c != 101 && c != 111 && c != 117 && c != 116)

end Verif.Nixbase32
