import Verif.Spec.Narinfo
import Verif.Spec.Storepath
import Verif.Spec.Nixhash

/-!
# Specification: a published `.narinfo`
-/

namespace Verif.Props
open Verif.Narinfo Verif.GoLib Verif.Nixhash Verif.Signature Verif.Spec

/-- A value as the owner of a cache publishes it: with store paths in the strict sense, and a hash. -/
structure Strict (n : NarInfo) : Prop where
  storePath : Storepath.IsStorePath n.storePath
  references : ∀ r ∈ n.references, Storepath.IsStorePath (b!"/nix/store/" ++ r)
  narHash : ∃ h a k, n.narHash = some h ∧ (h.hash.algo, a, k) ∈ hashAlgos

end Verif.Props
