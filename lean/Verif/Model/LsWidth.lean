import Verif.Model.LsText

/-!
# `ParseLS` on machines with another width of `int`

`Root.Version` (list.go:13) is an `int`; the numbers of the nodes are of type `int64`. The model in `Model/LsText.lean` is
that of a machine with 64 bits.
-/

namespace Verif.NarLs
open Verif.GoLib Verif.GoJson

/-- A value decoded into an `int` of `w` bits, at most 64 (list.go:13). -/
def intValueW (w : Nat) (old : Int) : Json → Res Int
  | .null => .ok old
  | .num l => do
    let n ← parseInt64 l
    if n < -2 ^ (w - 1) ∨ 2 ^ (w - 1) ≤ n then .err (.msg "json: cannot unmarshal number into Go struct field Root.version of type int")
    else .ok n
  | _ => .err (.msg "json: cannot unmarshal into Go value of type int")

/-- The members of the whole object (list.go:12-15, 79), see `decodeRoot`. -/
def decodeRootW (w : Nat) : Int → Node → Members → Res (Int × Node)
  | n, t, .nil => .ok (n, t)
  | n, t, .cons k v l =>
    if sameField b!"version" k then do
      let n' ← intValueW w n v
      decodeRootW w n' t l
    else if sameField b!"Root" k then do
      let t' ← rootValue t v
      decodeRootW w n t' l
    else .err (.msg "json: unknown field")

/-- `dec.Decode(&root)` (list.go:74-82), see `decodeLS`. -/
def decodeLSW (w : Nat) (data : Bytes) : Res (Int × Node) :=
  match parseJson data with
  | none => .err (.msg "invalid character, or unexpected end")
  | some (.null, _) => .ok (0, zeroNode)
  | some (.obj l, _) => decodeRootW w 0 zeroNode l
  | some _ => .err (.msg "json: cannot unmarshal into Go value of type ls.Root")

/-- `ParseLS` (list.go:73-95), see `parseLSText`. -/
def parseLSTextW (w : Nat) (visit : Node → Node) (data : Bytes) : Res (Int × Node) := do
  let root ← decodeLSW w data
  let _ ← parseLS (.ok (root.1, visit root.2))
  .ok root

end Verif.NarLs
