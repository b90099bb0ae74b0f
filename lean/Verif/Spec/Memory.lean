import Verif.Spec.Nar

/-!
# Specification: depth of an entry
-/

namespace Verif.Spec

/-- How deep a path lies: 1 for the root, 2 for the entries of the root directory, and so on. -/
def pathDepth (p : Bytes) : Nat := if p = b!"/" then 1 else p.count 47 + 1

/-- `n` directories inside each other, around an empty file, all with the name `a`. -/
def nested : Nat → Tree
  | 0 => .regular false []
  | n + 1 => .directory (.cons b!"a" (nested n) .nil)

end Verif.Spec
