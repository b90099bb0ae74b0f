import Verif.Basic

/-!
# Specification: hash algorithms and the XOR fold
-/

namespace Verif.Spec

/-- The four hash algorithms: numeric tag, name, digest size in bytes. -/
def hashAlgos : List (UInt8 × Bytes × Nat) :=
  [(1, b!"md5", 16), (2, b!"sha1", 20), (3, b!"sha256", 32), (4, b!"sha512", 64)]

/-- The four text encodings: 1 hexadecimal, 2 base64, 3 nixbase32, 4 SRI. -/
def hashEncodings : List UInt8 := [1, 2, 3, 4]

/-- XOR of all bytes of `l` at positions `j` with `(start + j) % n = i`. -/
def xorAt (n i : Nat) : Nat → Bytes → UInt8
  | _, [] => 0
  | start, x :: rest => (if start % n = i then x else 0) ^^^ xorAt n i (start + 1) rest

end Verif.Spec
