import Verif.Spec.Derivation

/-!
# Specification: the text of a derivation in which every string is as it is
-/

namespace Verif.Derivation
open Verif.GoLib

/-- The strings of a derivation as they are, in the order of its maps; only the values of the environment are escaped. -/
def Derivation.verbatim (d : Derivation) : DrvText where
  outputs := d.outputs.map fun o => (o.1, o.2.path, o.2.hashAlgorithm, o.2.hash)
  inputDrvs := d.inputDerivations
  inputSrcs := d.inputSources
  platform := d.platform
  builder := d.builder
  args := d.arguments
  env := d.env.map fun e => (e.1, escaped e.2)

/-- None of the characters that are escaped occurs. -/
def NoEscapes (s : Bytes) : Prop := ∀ e ∈ escapes, e.1 ∉ s

end Verif.Derivation
