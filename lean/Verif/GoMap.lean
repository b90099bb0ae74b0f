import Verif.GoPath

/-!
# Go maps with string keys, and `sort.Strings` (trusted)

A map is the list of its keys and values in the order in which `range` would visit it; Go may choose
any order, so statements about `range` quantify over the permutations of the list.
-/

namespace Verif.GoLib

/-- `map[string]α`. -/
abbrev GoMap (α : Type) := List (Bytes × α)

namespace GoMap
variable {α : Type}

/-- `v, ok := m[k]`. -/
def get? : GoMap α → Bytes → Option α
  | [], _ => none
  | (a, v) :: m, k => if a = k then some v else get? m k

/-- `m[k] = v`. -/
def insert : GoMap α → Bytes → α → GoMap α
  | [], k, v => [(k, v)]
  | (a, x) :: m, k, v => if a = k then (k, v) :: m else (a, x) :: insert m k v

/-- The keys. -/
def keys (m : GoMap α) : List Bytes := m.map (·.1)

end GoMap

/-- Insert into a sorted list. -/
def insertSorted (x : Bytes) : List Bytes → List Bytes
  | [] => [x]
  | y :: l => if strLe x y then x :: y :: l else y :: insertSorted x l

/-- `sort.Strings`. (There is only one sorted permutation of a list of strings, so the algorithm does
not matter.) -/
def sortStrings : List Bytes → List Bytes
  | [] => []
  | x :: l => insertSorted x (sortStrings l)

end Verif.GoLib
