import Verif.Model.Handles

/-!
# Specification: the same call many times
-/

namespace Verif.Props
open Verif.GoLib Verif.Wire Verif.Nar Verif.Store Verif.Derivation
open Verif.Handles (Handles tooMany fsGet httpGet httpHas)

/-- The same call `n` times: the results and the open files afterwards. -/
def times {α : Type} (f : M Handles α) : Nat → Handles → List (Res α) × Handles
  | 0, h => ([], h)
  | n + 1, h => ((f h).1 :: (times f n (f h).2).1, (times f n (f h).2).2)

end Verif.Props
