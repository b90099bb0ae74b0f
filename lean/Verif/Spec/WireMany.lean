import Verif.Spec.WireMsg

/-!
# Specification: messages
-/

namespace Verif.Props
open Verif.GoLib Verif.Wire Verif.Spec

/-- The values are those that are expected, one by one. -/
inductive FitsAll : List Kind → List Val → Prop
  | nil : FitsAll [] []
  | cons {k : Kind} {v : Val} {ks : List Kind} {vs : List Val} : FitsKind k v → FitsAll ks vs → FitsAll (k :: ks) (v :: vs)

end Verif.Props
