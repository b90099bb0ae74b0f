import Verif.Basic

/-!
# Specification: numbers written in base 256 (little endian) and base 32
-/

namespace Verif.Spec

/-- The number whose base-256 digits, least significant first, are the given bytes. -/
def leValue : Bytes → Nat
  | [] => 0
  | x :: xs => x.toNat + 256 * leValue xs

/-- The 32 digit characters of Nix' base32, in order of their value. -/
def nixDigits : Bytes := b!"0123456789abcdfghijklmnpqrsvwxyz"

/-- `IsNumeral32 s v`: `s`, read with the most significant digit first, is a base-32 numeral of
the number `v`. -/
inductive IsNumeral32 : Bytes → Nat → Prop
  | nil : IsNumeral32 [] 0
  | snoc {s : Bytes} {v d : Nat} {c : UInt8} :
      IsNumeral32 s v → nixDigits[d]? = some c → IsNumeral32 (s ++ [c]) (32 * v + d)

end Verif.Spec
