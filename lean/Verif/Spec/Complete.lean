import Verif.Spec.StoreTerms

/-!
# Filling in the output paths (C163)
-/

namespace Verif.Props
open Verif.GoLib Verif.Derivation

/-- `d` with the paths in `m` as paths of its outputs and as values of the environment variables named like them. -/
def completed (d : Derivation) (m : GoMap Bytes) : Derivation :=
  withOutputs d (fun k => (m.get? k).getD []) (fun k => (m.get? k).getD [])

end Verif.Props
