import Verif.Spec.NarinfoTrust
import Verif.Spec.NarParenPaths
import Verif.Spec.NarDump
import Verif.Spec.NarDisk
import Verif.Spec.NarSession
import Verif.Spec.NarParen

/-!
# Specification: something that was published
-/

namespace Verif.Props
open Verif.Nar Verif.Narinfo Verif.GoLib Verif.Nixhash Verif.Signature Verif.Spec Verif.Wire

/-- Something that was published: what was dumped, and the `.narinfo` for it. -/
structure Publication where
  filter : Option Filter
  path : Bytes
  root : FNode
  info : NarInfo

/-- The archive: what `DumpPathFilter` writes. -/
def Publication.nar (p : Publication) : Bytes := (dumpPathFilter p.filter p.path p.root ⟨[], none⟩).2.out

/-- The publisher did its work properly: the dump succeeded, the `.narinfo` has the SHA-256 and the size of the archive, and is in
the strict form; the names in the tree are such that the reader can handle them. -/
structure Publication.Honest (sha256 : Bytes → Bytes) (p : Publication) : Prop where
  names : p.root.Ok NameOk
  dumped : (dumpPathFilter p.filter p.path p.root ⟨[], none⟩).1 = .ok ()
  hash : p.info.narHash.map (·.hash) = some ⟨SHA256, sha256 p.nar⟩
  size : p.info.narSize = p.nar.length
  strict : Strict p.info
  readable : ∀ t, p.root.prune (keeps p.filter) p.path b!"/" = some t →
    t.All NameShort NodeRd ∧ NothingAfterParen ((t.entriesAt b!"/").map Entry.path)

end Verif.Props
