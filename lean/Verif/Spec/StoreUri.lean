import Verif.Model.Store

/-!
# Specification: paths and hosts
-/

namespace Verif.Props
open Verif.GoLib Verif.Derivation Verif.Store Verif.Storepath Verif.Wire Verif.GoUrl

/-- A path that means itself as a URI: no control characters, none of `#`, `?`, `%`; no colon in the first component
of a relative path; exactly two slashes do not begin it. -/
def PlainPath (p : Bytes) : Prop :=
  (∀ c ∈ p, 32 ≤ c ∧ c ≠ 127 ∧ c ≠ 35 ∧ c ≠ 63 ∧ c ≠ 37) ∧
  (p.head? ≠ some 47 → (58 : UInt8) ∉ p.takeWhile (· != 47)) ∧
  ¬ (b!"//" <+: p ∧ ¬ b!"///" <+: p)

/-- The host without the colon of an empty port. -/
def trimColon (h : Bytes) : Bytes := if h.getLast? = some 58 then h.dropLast else h

end Verif.Props

namespace Verif.GoUrl
open Verif.GoLib

/-- A host that is an IP literal whose zone contains only ASCII characters, or no IP literal with a zone. -/
def ZoneOk (h : Bytes) : Prop := h.head? = some 91 → ∀ c ∈ h.dropWhile (· != 37), c < 128

end Verif.GoUrl
