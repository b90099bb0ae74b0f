import Verif.Model.Nar

/-!
# Model of `pkg/nar/ls/list.go`

`parseLS` starts from the result of JSON decoding, which is modelled in Model/LsText.lean.
-/

namespace Verif.NarLs
open Verif.GoLib Verif.Nar

mutual
/-- `Node` (list.go:18-25). -/
inductive Node where
  | mk (typ : Bytes) (entries : Entries) (size : Int) (linkTarget : Bytes) (executable : Bool) (narOffset : Int)
/-- `Entries map[string]*Node`, in the order in which `range` visits it (Go: any order); `null` is
an entry with a nil pointer. -/
inductive Entries where
  | nil
  | cons (name : Bytes) (node : Node) (rest : Entries)
  | null (name : Bytes) (rest : Entries)
end

/-- The checks on the node itself, made for each of its entries (list.go:37-59). -/
def checkNode (typ : Bytes) (size : Int) (linkTarget : Bytes) (executable : Bool) : Res Unit :=
  if (typ = typeRegular ∨ typ = typeDirectory) ∧ linkTarget ≠ [] then .err (.msg "LinkTarget is not empty")
  else if (typ = typeDirectory ∨ typ = typeSymlink) ∧ size ≠ 0 then .err (.msg "Size is not 0")
  else if (typ = typeDirectory ∨ typ = typeSymlink) ∧ executable then .err (.msg "Executable is true")
  else if typ = typeSymlink ∧ linkTarget = [] then .err (.msg "LinkTarget is empty")
  else .ok ()

mutual
/-- `validateNode` (list.go:29-69). -/
def validateNode : Node → Res Unit
  | .mk typ es size lt x _ => validateEntries typ size lt x es
/-- The loop of `validateNode` over the entries of a node with the given fields; for a nil entry the
recursive call dereferences nil. -/
def validateEntries (typ : Bytes) (size : Int) (lt : Bytes) (x : Bool) : Entries → Res Unit
  | .nil => .ok ()
  | .null n _ =>
    if !isValidNodeName n then .err (.msg "invalid entry name")
    else do
      checkNode typ size lt x
      .panic
  | .cons n t es =>
    if !isValidNodeName n then .err (.msg "invalid entry name")
    else do
      checkNode typ size lt x
      validateNode t
      validateEntries typ size lt x es
end

/-- `ParseLS` (list.go:73-95) on the result of the JSON decoder: an error, or a version and the root
node. -/
def parseLS (decoded : Res (Int × Node)) : Res (Int × Node) := do
  let root ← decoded
  if root.1 ≠ 1 then .err (.msg "invalid version")
  else do
    validateNode root.2
    .ok root

end Verif.NarLs
