import Verif.Model.Sqlite
import Verif.Spec.Sqlite

/-!
# Specification: the order of the index
-/

namespace Verif.Props
open Verif.Sqlite Verif.Sqlite.Nix

/-- SQLite answers the query by walking the index of the unique column `path` upwards, so that it delivers the smallest path
(`limit 1`). The statement has no `order by`: nothing in it says so. -/
def IndexOrder (db : DB) (arg : Bytes) (result : Option Bytes) : Prop :=
  ∀ p, result = some p → ∀ q, queryPathInfo db q ≠ none → arg ≤ q → p ≤ q

end Verif.Props
