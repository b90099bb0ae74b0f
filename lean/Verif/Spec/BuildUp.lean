import Verif.Spec.Complete
import Verif.Spec.Storepath

/-!
# A program that makes a graph of derivations from the bottom up (C164)
-/

namespace Verif.Props
open Verif.GoLib Verif.Storepath Verif.Derivation Verif.Store

/-- The state of the program: the replacement strings it has calculated, the derivations so far with their paths, and the store. -/
structure Builder where
  repl : GoMap Bytes
  built : List (Bytes × Derivation)
  store : MapStore

/-- The next derivation: its output paths are calculated with the program's own replacements and filled in, it is put in the store, and its
replacement is calculated, for the derivations to come. -/
def buildNext (sha256 : Bytes → Bytes) (d : Derivation) (b : Builder) : Res Builder := do
  let outs ← calculateOutputPaths sha256 d b.repl
  let full := completed d outs
  let p ← (MapStore.put sha256 full b.store).1
  let r ← calculateDrvReplacement sha256 full b.repl
  .ok ⟨b.repl.insert p r, b.built ++ [(p, full)], (MapStore.put sha256 full b.store).2⟩

/-- All of them; each may refer to those before in any way. -/
def buildUp (sha256 : Bytes → Bytes) : List (List (Bytes × Derivation) → Derivation) → Builder → Res Builder
  | [], b => .ok b
  | f :: fs, b =>
    match buildNext sha256 (f b.built) b with
    | .ok b' => buildUp sha256 fs b'
    | .err e => .err e
    | .panic => .panic

/-- Nothing is wrong with `d` but that its output paths are missing, and its input derivations are among `built`. -/
structure Buildable (d : Derivation) (built : List (Bytes × Derivation)) : Prop where
  maps : Maps d
  named : d.getName ≠ []
  name : NameChars d.getName
  outputs : ∀ o ∈ d.outputs, NameChars o.1 ∧ o.1 ≠ b!"name"
  valid : ∃ path value, (withOutputs d path value).validate = .ok ()
  inputs : ∀ i ∈ d.inputDerivations, ∃ full, (i.1, full) ∈ built

end Verif.Props
