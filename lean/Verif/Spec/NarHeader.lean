import Verif.Model.Nar
import Verif.Spec.Nar

/-!
# Specification: the rule for headers
-/

namespace Verif.Props
open Verif.Nar Verif.GoLib Verif.Spec

/-- The documented rule for headers. -/
structure HeaderOk (h : Header) : Prop where
  rooted : ∃ r, h.path = 47 :: r
  noNul : ∀ c ∈ h.path, c ≠ 0
  noTarget : h.typ = b!"regular" ∨ h.typ = b!"directory" → h.linkTarget = []
  noSize : h.typ = b!"directory" ∨ h.typ = b!"symlink" → h.size = 0
  noExec : h.typ = b!"directory" ∨ h.typ = b!"symlink" → h.executable = false
  target : h.typ = b!"symlink" → h.linkTarget ≠ []

end Verif.Props
