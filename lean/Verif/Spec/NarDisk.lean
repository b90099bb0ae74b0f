import Verif.Model.NarDump
import Verif.Spec.Nar

/-!
# Specification: a tree on disk
-/

namespace Verif.Props
open Verif.Nar Verif.GoLib Verif.Spec Verif.Wire

mutual
/-- The file system contents with this tree, files being read in one piece. -/
def onDisk : Tree → FNode
  | .regular x c => .regular x c.length [c] none
  | .symlink t => .symlink t
  | .directory es => .directory (onDisk' es)
/-- see `onDisk` -/
def onDisk' : Entries → FEntries
  | .nil => .nil
  | .cons n t es => .cons n (onDisk t) (onDisk' es)
end

end Verif.Props
