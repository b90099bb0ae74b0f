import Verif.Spec.Derivation
import Verif.Spec.Nixhash
import Verif.Spec.Storepath

/-!
# Store paths of derivations and their outputs

After the Nix manual ("Store path specification"): the hash part of a store path is made from a
fingerprint `type:sha256:inner:/nix/store:name`.
-/

namespace Verif.Derivation
open Verif.GoLib Verif.Spec Verif.Storepath

/-- `d` is the XOR fold of the digest `h` to 20 bytes. -/
def Folded (h d : Bytes) : Prop := d.length = 20 ∧ ∀ i, i < 20 → d[i]? = some (xorAt 20 i 0 h)

/-- The fingerprint of a store path. -/
def fingerprint (type inner name : Bytes) : Bytes :=
  type ++ b!":sha256:" ++ inner ++ b!":/nix/store:" ++ name

/-- `p` is the store path with this type, inner digest and name, for the hash function `H`. -/
def IsNixPath (H : Bytes → Bytes) (type inner name p : Bytes) : Prop :=
  ∃ digest, Folded (H (fingerprint type inner name)) digest ∧
    p = b!"/nix/store/" ++ Nixbase32.encodeToString digest ++ b!"-" ++ name

/-- The name part of the path of an output. -/
def outputStoreName (name output : Bytes) : Bytes :=
  if output = b!"out" then name else name ++ b!"-" ++ output

/-- The derivation without what is not known before the output paths are: the paths of the outputs
and the environment variables named like outputs are empty. -/
def masked (d : Derivation) : Derivation :=
  { d with
    outputs := d.outputs.map fun o => (o.1, { o.2 with path := [] })
    env := d.env.map fun e => (e.1, if e.1 ∈ d.outputs.keys then [] else e.2) }

/-- `inputs'` are the input derivations `inputs` with their paths replaced as in `repl`. Inputs with the
same replacement are one. An empty `repl` replaces nothing. -/
def Replaced (repl : GoMap Bytes) (inputs inputs' : GoMap (List Bytes)) : Prop :=
  if repl = [] then inputs' = inputs
  else inputs'.keys.Nodup ∧ (∀ i ∈ inputs, repl.get? i.1 ≠ none) ∧
    ∀ k v, (k, v) ∈ inputs' ↔ ∃ i ∈ inputs, repl.get? i.1 = some k ∧ v = i.2

/-- Input derivations with the same replacement are used with the same outputs. -/
def Consistent (repl : GoMap Bytes) (inputs : GoMap (List Bytes)) : Prop :=
  ∀ i ∈ inputs, ∀ j ∈ inputs, repl.get? i.1 = repl.get? j.1 → i.2 = j.2

/-- Two input derivations with the same replacement are used with different outputs, and all have a replacement. -/
def Ambiguous (repl : GoMap Bytes) (inputs : GoMap (List Bytes)) : Prop :=
  repl ≠ [] ∧ (∀ i ∈ inputs, repl.get? i.1 ≠ none) ∧
    ∃ i ∈ inputs, ∃ j ∈ inputs, repl.get? i.1 = repl.get? j.1 ∧ i.2 ≠ j.2

end Verif.Derivation
