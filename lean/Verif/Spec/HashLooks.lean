import Verif.Model.Nixhash

/-!
# Specification: texts that look like a hash with a name
-/

namespace Verif.Props
open Verif.Nixhash Verif.GoLib

/-- There is a colon or a dash that is not the first byte, and the first byte is not that same character:
the text before it is taken for the name of an algorithm. -/
def LooksNamed (s : Bytes) : Prop :=
  (58 ∈ s ∧ s.head? ≠ some 58) ∨ (45 ∈ s ∧ s.head? ≠ some 45)

end Verif.Props
