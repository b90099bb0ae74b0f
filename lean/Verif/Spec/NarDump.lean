import Verif.Spec.NarWriting
import Verif.Model.NarDump

/-!
# Specification: dumping a file system tree

`FNode` is what a file system contains; `prune` is the tree a dump is to serialise.
-/

namespace Verif.Nar
open Verif.Spec Verif.GoLib

mutual
/-- The tree at `sub` below `path`, without the nodes the filter rejects; `none` if the node itself
is rejected (or cannot be dumped). -/
def FNode.prune (keep : Bytes → Bytes → Bool) (path : Bytes) : FNode → Bytes → Option Tree
  | .regular x _ cs _, sub => if keep (pathJoin path sub) b!"regular" then some (.regular x cs.flatten) else none
  | .symlink t, sub => if keep (pathJoin path sub) b!"symlink" then some (.symlink t) else none
  | .directory es, sub =>
    if keep (pathJoin path sub) b!"directory" then some (.directory (es.prune keep path sub)) else none
  | .brokenLink _, _ => none
  | .brokenDirectory _, _ => none
  | .bad _, _ => none
/-- The entries that are kept. -/
def FEntries.prune (keep : Bytes → Bytes → Bool) (path : Bytes) : FEntries → Bytes → Entries
  | .nil, _ => .nil
  | .cons n t es, sub =>
    match t.prune keep path (childPath sub n) with
    | some t' => .cons n t' (es.prune keep path sub)
    | none => es.prune keep path sub
end

mutual
/-- Every node that is not below a rejected one can be dumped: its type is known, and if it is not rejected itself it can be
read, and for a file, `fi.Size()` is the number of bytes read from it. -/
def FNode.Dumpable (keep : Bytes → Bytes → Bool) (path : Bytes) : FNode → Bytes → Prop
  | .regular _ size cs fail, sub => keep (pathJoin path sub) b!"regular" = true → fail = none ∧ size = cs.flatten.length
  | .symlink _, _ => True
  | .directory es, sub => keep (pathJoin path sub) b!"directory" = true → es.Dumpable keep path sub
  | .brokenLink _, sub => keep (pathJoin path sub) b!"symlink" = false
  | .brokenDirectory _, sub => keep (pathJoin path sub) b!"directory" = false
  | .bad _, _ => False
/-- see `FNode.Dumpable` -/
def FEntries.Dumpable (keep : Bytes → Bytes → Bool) (path : Bytes) : FEntries → Bytes → Prop
  | .nil, _ => True
  | .cons n t es, sub => t.Dumpable keep path (childPath sub n) ∧ es.Dumpable keep path sub
end

/-- The names of the entries. -/
def FEntries.names : FEntries → List Bytes
  | .nil => []
  | .cons n _ es => n :: es.names

mutual
/-- The names satisfy `P` and are strictly sorted in every directory, link targets are not empty,
files are smaller than 2^63 bytes. -/
def FNode.Ok (P : Bytes → Prop) : FNode → Prop
  | .regular _ _ cs _ => cs.flatten.length < 2 ^ 63
  | .symlink t => t ≠ []
  | .directory es => es.names.Pairwise (· < ·) ∧ es.Ok P
  | .brokenLink _ => True
  | .brokenDirectory _ => True
  | .bad _ => True
/-- see `FNode.Ok` -/
def FEntries.Ok (P : Bytes → Prop) : FEntries → Prop
  | .nil => True
  | .cons n t es => P n ∧ t.Ok P ∧ es.Ok P
end

/-- Whether a node is kept: no filter keeps everything. -/
def keeps (filter : Option Filter) (p typ : Bytes) : Bool :=
  match filter with
  | none => true
  | some f => f p typ

end Verif.Nar
