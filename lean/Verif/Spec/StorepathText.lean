import Verif.Spec.Storepath
import Verif.Spec.HashText

/-!
# Specification: what the store path parsers accept; the exported regular expressions
-/

namespace Verif.Storepath
open Verif.Spec Verif.GoLib

/-- Where a relative path, given by the texts between its slashes, leads from a directory of a file
system without symbolic links: an empty text and `.` stay, `..` goes up (not beyond the root), a name
goes down. -/
def walk (dir : List Bytes) : List Bytes → List Bytes
  | [] => dir
  | c :: cs =>
    if c = [] ∨ c = b!"." then walk dir cs
    else if c = b!".." then walk dir.dropLast cs
    else walk (dir ++ [c]) cs

/-- The hash part of a store path and at least one more allowed character: what the parsers want the last
component to be (the character after the hash is meant to be a dash, but that is not checked). -/
def HashAndMore (x : Bytes) : Prop := ∃ h d n, x = h ++ [d] ++ n ∧ HashPart h ∧ NameChars (d :: n)

/-- `FromString` is to read `s` as digest and name: `s` begins with the base32 text of the digest, the
name is what follows one byte later, and the path `s` leads from `/nix/store` to an acceptable path, which
is one in `/nix/store`, or one in `/nix` whose name is `store`, any byte and then the expected. -/
def ReadsAs (s name digest : Bytes) : Prop :=
  (∃ h d, s = h ++ [d] ++ name ∧ Nix32Text h digest ∧ digest.length = 20) ∧
  ∃ x, HashAndMore x ∧
    (walk [b!"nix", b!"store"] (splitByte s 47) = [b!"nix", b!"store", x] ∨
     ∃ c, walk [b!"nix", b!"store"] (splitByte s 47) = [b!"nix", b!"store" ++ [c] ++ x])

end Verif.Storepath
