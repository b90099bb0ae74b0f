import Verif.Spec.Json

/-!
# Specification: the name in structured attributes
-/

namespace Verif.Spec
open Verif.GoJson

/-- `JDoc s v`: the data `s` is one JSON text (with repairs, see Json.lean) of the value `v`, with white space
around it, and arrays and objects nested at most 10000 deep. -/
def JDoc (s : Bytes) (v : Json) : Prop :=
  ∃ w t w', s = w ++ t ++ w' ∧ Ws w ∧ Ws w' ∧ JText false t v ∧ jdepth v ≤ 10000

/-- A byte in lower case. -/
def lower (c : UInt8) : UInt8 := if 65 ≤ c.toNat ∧ c.toNat ≤ 90 then c + 32 else c

/-- The key says "name", in any mix of cases. -/
def SaysName (k : Bytes) : Prop := k.map lower = b!"name"

/-- The last of the members that say "name" and are not null is `n`; there may be none if `n` is empty. -/
def LastName (l : List (Bytes × Json)) (n : Bytes) : Prop :=
  (n = [] ∧ ∀ m ∈ l, SaysName m.1 → m.2 = .null) ∨
  ∃ before k after, l = before ++ (k, .str n) :: after ∧ SaysName k ∧ ∀ m ∈ after, SaysName m.1 → m.2 = .null

/-- All members that say "name" are strings or null. -/
def NamesOk (l : List (Bytes × Json)) : Prop := ∀ m ∈ l, SaysName m.1 → m.2 = .null ∨ ∃ s, m.2 = .str s

end Verif.Spec
