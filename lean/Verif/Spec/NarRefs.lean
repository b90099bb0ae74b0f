import Verif.Spec.References
import Verif.Spec.Nar

/-!
# Specification: references of a file tree
-/

namespace Verif.Spec
open Verif.References

/-- The hash part `h` occurs in the path, the contents or the link target of an entry (see `Aligned`: at a distance from the beginning
of the surrounding run of base-32 characters that is a multiple of 32). -/
def InEntry (h : Bytes) (en : Entry) : Prop := Aligned h en.path ∨ Aligned h en.contents ∨ Aligned h en.target

/-- Lengths below 2^56 (64 PiB). -/
def SmallName (n : Bytes) : Prop := n.length < 2 ^ 56
/-- see `SmallName` -/
def SmallNode : Tree → Prop
  | .regular _ c => c.length < 2 ^ 56
  | .symlink t => t.length < 2 ^ 56
  | .directory _ => True

end Verif.Spec
