import Verif.Spec.Nar

/-!
# Specification: trees whose strings fit into a Go string
-/

namespace Verif.Spec

/-- A length that a Go string can have. -/
def Fits (b : Bytes) : Prop := b.length < 2 ^ 63

instance (b : Bytes) : Decidable (Fits b) := by unfold Fits; infer_instance

mutual
/-- All names, contents and targets fit. (No condition on names or on the order of entries.) -/
def Tree.Fits : Tree → Prop
  | .regular _ c => Spec.Fits c
  | .symlink t => Spec.Fits t
  | .directory es => es.Fits
/-- see `Tree.Fits` -/
def Entries.Fits : Entries → Prop
  | .nil => True
  | .cons n t es => Spec.Fits n ∧ t.Fits ∧ es.Fits
end

end Verif.Spec
