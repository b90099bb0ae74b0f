import Verif.Basic
import Verif.Model.Narinfo

/-!
# Specification: a reference that contains `,/nix/store/`
-/

namespace Verif.Spec
open Verif.GoLib

/-- `ps` is the string `r` split at every `,/nix/store/`. -/
def Pieces (r : Bytes) (ps : List Bytes) : Prop :=
  ps ≠ [] ∧ r = join ps b!",/nix/store/" ∧ ∀ p ∈ ps, ∀ a b, p ≠ a ++ b!",/nix/store/" ++ b

/-- `ps` is the list of the pieces of all the strings `rs`, in order. -/
inductive AllPieces : List Bytes → List Bytes → Prop
  | nil : AllPieces [] []
  | cons {r ps rs qs} : Pieces r ps → AllPieces rs qs → AllPieces (r :: rs) (ps ++ qs)

end Verif.Spec
