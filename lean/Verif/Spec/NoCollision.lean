import Verif.Model.Derivation
import Verif.Spec.Derivation

/-!
# Specification: a history of derivations without collisions
-/

namespace Verif.Props
open Verif.GoLib Verif.Derivation

/-- Derivations of the history with the same path are the same, up to the order of their maps. -/
def NoCollision (H : Bytes → Bytes) (ds : List Derivation) : Prop :=
  ∀ d ∈ ds, ∀ d' ∈ ds, ∀ p, drvPath H d = .ok p → drvPath H d' = .ok p → Same d d'

end Verif.Props
