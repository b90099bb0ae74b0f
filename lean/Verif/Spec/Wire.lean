import Verif.Spec.Numeral

/-!
# Specification: the Nix wire format
-/

namespace Verif.Spec

/-- The 8-byte little-endian representation: the only 8-byte list with that value. -/
def IsLE64 (b : Bytes) (n : Nat) : Prop := b.length = 8 ∧ leValue b = n

/-- `IsPacket p b`: `p` is the bytes packet for content `b`: length, content, zero padding to a
multiple of eight. -/
def IsPacket (p b : Bytes) : Prop :=
  ∃ len pad, p = len ++ b ++ pad ∧ IsLE64 len b.length ∧ (∀ x ∈ pad, x = 0) ∧
    pad.length < 8 ∧ (b.length + pad.length) % 8 = 0

end Verif.Spec
