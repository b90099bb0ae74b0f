import Verif.Model.Nixbase32

/-!
# `Encode` and `Decode` of `pkg/nixbase32/nixbase32.go` on one memory

Both take two slices of the caller, which may be parts of the same array. Here the array is explicit: a
slice is an offset with a length (or, for the destination of `Encode`, a capacity), every access goes to the
array as it is at that moment.
-/

namespace Verif.Nixbase32

/-- The bytes of the slice that begins at `off` and has `len` bytes. -/
def slice (mem : Bytes) (off len : Nat) : Bytes := (mem.drop off).take len

/-- The loop of `Encode` (nixbase32.go:116-127) with `n` digits still to come, `k` of them already appended to
the slice that begins at `doff`: each is computed from the source as it is in memory now and stored by
`append` (the capacity suffices, so `append` never moves the slice). -/
def encodeMemLoop (soff slen doff : Nat) : Nat → Nat → Bytes → Bytes
  | 0, _, mem => mem
  | n + 1, k, mem =>
    encodeMemLoop soff slen doff n (k + 1) (mem.set (doff + k) (encodeChar (slice mem soff slen) n))

/-- `Encode` (nixbase32.go:112-128): the source is `mem[soff:soff+slen]`, the destination begins at `doff` and
has capacity `dcap`; `dst[:0:n]` panics if that is too little. -/
def encodeMem (mem : Bytes) (doff dcap soff slen : Nat) : Res Bytes :=
  let n := encodedLen slen
  if dcap < n then .panic else .ok (encodeMemLoop soff slen doff n 0 mem)

/-- The loop of `Decode` (nixbase32.go:38-64) with `n` of the source characters already decoded and `m` still
to come; the destination is `mem[doff:doff+dlen]`. -/
def decodeMemLoop (soff slen doff dlen : Nat) : Nat → Nat → Bytes → DecodeOut
  | 0, _, mem => .done (decodedLen slen) none mem
  | m + 1, n, mem =>
    let b := n * 5
    let i := b / 8
    let j := b % 8
    let c := mem.getD (soff + (slen - n - 1)) 0
    match indexAlphabet c with
    | none => .done i (some (.msg "char not in alphabet")) mem
    | some digit =>
      if dlen ≤ i then .done i (some (.msg "ErrInvalidHash")) mem
      else
        let mem := mem.set (doff + i) (mem.getD (doff + i) 0 ||| goShl (UInt8.ofNat digit) j)
        let carry := goShr (UInt8.ofNat digit) (8 - j)
        if i + 1 < decodedLen slen then
          if dlen ≤ i + 1 then .panic
          else decodeMemLoop soff slen doff dlen m (n + 1)
            (mem.set (doff + (i + 1)) (mem.getD (doff + (i + 1)) 0 ||| carry))
        else if carry ≠ 0 then .done i (some (.msg "non-zero padding")) mem
        else decodeMemLoop soff slen doff dlen m (n + 1) mem

/-- `Decode` (nixbase32.go:35-67): the source is `mem[soff:soff+slen]`, the destination `mem[doff:doff+dlen]`;
the last part of the result is the whole memory. -/
def decodeMem (mem : Bytes) (doff dlen soff slen : Nat) : DecodeOut :=
  decodeMemLoop soff slen doff dlen slen 0 mem

/-- `DecodeString` with what it returns beside an error (nixbase32.go:25-30): `dst[:n]`, which panics if `n`
exceeds the capacity of `dst`, here its length. -/
def decodeStringFull (s : Bytes) : Res (Bytes × Option Err) :=
  let len := decodedLen s.length
  match decode (List.replicate len 0) s with
  | .panic => .panic
  | .done n e dst => if len < n then .panic else .ok (dst.take n, e)

end Verif.Nixbase32
