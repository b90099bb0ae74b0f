import Verif.Model.Derivation
import Verif.GoJson

/-!
# Model of the JSON part of `parseDerivation` (parser.go:263-274)

With `jsonName` for the parameter of `parseDerivation` and `readDerivation` (Model/Derivation.lean), nothing of
the parser is a parameter any more.
-/

namespace Verif.Derivation
open Verif.GoLib Verif.GoJson

/-- A value decoded into a field of type `string` that holds `n` (parser.go:264-268): `null` changes nothing,
values of other kinds are errors. (Go goes on after such an error and returns it at the end.) -/
def nameValue (n : Bytes) : Json → Res Bytes
  | .null => .ok n
  | .str s => .ok s
  | _ => .err (.msg "json: cannot unmarshal into Go struct field .Name of type string")

/-- The members of the object, decoded into `struct { Name string }`, which holds `n` so far (parser.go:264-268).
Other keys are ignored. -/
def nameMembers (n : Bytes) : Members → Res Bytes
  | .nil => .ok n
  | .cons k v l =>
    if sameField b!"Name" k then do
      let n' ← nameValue n v
      nameMembers n' l
    else nameMembers n l

/-- `json.Unmarshal` into `&attrs`, where `attrs` points to a `struct { Name string }` (parser.go:264-271): the
pointer becomes nil, or the field. -/
def jsonName (s : Bytes) : Res (Option Bytes) :=
  match unmarshal s with
  | none => .err (.msg "invalid character")
  | some .null => .ok none
  | some (.obj l) => match nameMembers [] l with
    | .ok n => .ok (some n)
    | .err e => .err e
    | .panic => .panic
  | some _ => .err (.msg "json: cannot unmarshal into Go value of type struct { Name string }")

end Verif.Derivation
