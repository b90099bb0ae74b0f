import Verif.Spec.NarDisk
import Verif.Spec.NarSession

/-!
# A program that unpacks an archive to a disk (C172)
-/

namespace Verif.Nar
open Verif.GoLib Verif.Spec

mutual
/-- `os.Mkdir`, `os.Symlink` or `os.WriteFile` for something new below a path at which there is a node: the directory it is made in has to be there,
and there must be nothing with its name in it. The entries of a directory are in the order in which `os.ReadDir` returns them. -/
def FNode.create : FNode → FNode → List Bytes → Option FNode
  | .directory es, x, n :: cs => (es.create x n cs).map .directory
  | _, _, _ => none
/-- see `FNode.create` -/
def FEntries.create : FEntries → FNode → Bytes → List Bytes → Option FEntries
  | .nil, x, n, cs => if cs = [] then some (.cons n x .nil) else none
  | .cons m y es, x, n, cs =>
    if n = m then (y.create x cs).map fun y' => .cons m y' es
    else if n < m then if cs = [] then some (.cons n x (.cons m y es)) else none
    else (es.create x n cs).map fun es' => .cons m y es'
end

/-- The same, where there may be nothing at the path. -/
def createAt (disk : Option FNode) (cs : List Bytes) (x : FNode) : Option FNode :=
  match disk with
  | none => if cs = [] then some x else none
  | some d => d.create x cs

/-- The components of the path of a header. -/
def pathComps (p : Bytes) : List Bytes := if p = b!"/" then [] else (splitByte p 47).drop 1

/-- What is made for a header, with the contents of the file. -/
def made (h : Header) (c : Bytes) : FNode :=
  if h.typ = b!"directory" then .directory .nil
  else if h.typ = b!"symlink" then .symlink h.linkTarget
  else .regular h.executable c.length [c] none

/-- What `Next` and the `Read` calls after it returned is made on the disk, one entry after the other; `none` if one call fails. -/
def unpack : Option FNode → List (Call Header × List (Res Bytes)) → Option FNode
  | disk, [] => disk
  | disk, (.ok h, ds) :: outs => (createAt disk (pathComps h.path) (made h (bytesRead ds))).bind fun d => unpack (some d) outs
  | _, _ :: _ => none

end Verif.Nar
