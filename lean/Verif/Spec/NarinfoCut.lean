import Verif.Spec.Narinfo

/-!
# Specification: the order of the lines of a `.narinfo` file
-/

namespace Verif.Narinfo
open Verif.GoLib

/-- The line has this key. -/
def HasKey (k line : Bytes) : Prop := ∃ v, line = k ++ b!": " ++ v

/-- The keys whose values are signed. -/
def signedKeys : List Bytes := [b!"StorePath", b!"NarHash", b!"NarSize", b!"References"]

/-- Whatever is signed stands before the signatures. -/
def SignedFirst (text : Bytes) : Prop :=
  ∀ a l b, lines text = a ++ l :: b → HasKey b!"Sig" l → ∀ l' ∈ b, ∀ k ∈ signedKeys, ¬ HasKey k l'

end Verif.Narinfo
