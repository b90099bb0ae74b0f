import Verif.Spec.Nar

/-!
# Specification: trees whose entries are listed in any order
-/

namespace Verif.Spec

mutual
/-- `Tree.Each P Q t`: every entry name at any depth satisfies `P` and every node `Q`; the entries may be in
any order, and names may occur twice. -/
def Tree.Each (P : Bytes → Prop) (Q : Tree → Prop) : Tree → Prop
  | .regular e c => Q (.regular e c)
  | .symlink t => Q (.symlink t)
  | .directory es => Q (.directory es) ∧ es.Each P Q
/-- see `Tree.Each` -/
def Entries.Each (P : Bytes → Prop) (Q : Tree → Prop) : Entries → Prop
  | .nil => True
  | .cons n t es => P n ∧ t.Each P Q ∧ es.Each P Q
end

mutual
/-- The names of the entries of every directory are in non-decreasing byte order. -/
def Tree.Sorted : Tree → Prop
  | .directory es => es.names.Pairwise (· ≤ ·) ∧ es.Sorted
  | _ => True
/-- see `Tree.Sorted` -/
def Entries.Sorted : Entries → Prop
  | .nil => True
  | .cons _ t es => t.Sorted ∧ es.Sorted
end

end Verif.Spec
