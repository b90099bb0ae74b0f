import Verif.Spec.Storepath
import Verif.Model.References

/-!
# Specification: reference scanning
-/

namespace Verif.References
open Verif.Storepath Verif.Spec

/-- The number of base32 characters at the end of the data. -/
def run (d : Bytes) : Nat := (d.reverse.takeWhile fun c => decide (c ∈ nixDigits)).length

/-- `h` occurs in the data literally. -/
def Occurs (h d : Bytes) : Prop := ∃ a c, d = a ++ h ++ c

/-- `h` is a hash part that occurs in the data at a distance from the beginning of the run of base32
characters around it that is a multiple of 32. -/
def Aligned (h d : Bytes) : Prop := ∃ a c, d = a ++ h ++ c ∧ HashPart h ∧ run a % 32 = 0

/-- The hash part of a store path. -/
def hashPart (p : Bytes) : Bytes := (p.drop 11).take 32

/-- `p` is the last of the candidates with its hash part. -/
def LastWith (p : Bytes) (ps : List Bytes) : Prop :=
  ∃ l r, ps = l ++ p :: r ∧ ∀ q ∈ r, hashPart q ≠ hashPart p

/-- Calls of `Write` with the given data, in order. -/
def Scanner.writes (r : Scanner) (chunks : List Bytes) : Scanner := chunks.foldl Scanner.write r

end Verif.References
