import Verif.Model.DrvJson
import Verif.Spec.Show

/-!
# Specification: what is left of a derivation that was written as JSON and read back
-/

namespace Verif.Spec
open Verif.GoLib Verif.GoJson Verif.Derivation

/-- The entries of `m'` are those of `m`, keys changed by `g` and values by `f`; where several keys become the same,
the entry of the greatest one remains. -/
structure MapReadAs {α : Type} (g : Bytes → Bytes) (f : α → α) (m m' : GoMap α) : Prop where
  nodup : m'.keys.Nodup
  entries : ∀ k' a', (k', a') ∈ m' ↔ ∃ k a, (k, a) ∈ m ∧ k' = g k ∧ a' = f a ∧ ∀ k₂ a₂, (k₂, a₂) ∈ m → g k₂ = g k → k₂ ≤ k

/-- `d'` is `d` with all strings changed by `g`, and without the name. -/
structure DrvReadAs (g : Bytes → Bytes) (d d' : Derivation) : Prop where
  name : d'.name = []
  outputs : MapReadAs g (fun o => ⟨g o.path, g o.hashAlgorithm, g o.hash⟩) d.outputs d'.outputs
  inputSources : d'.inputSources = d.inputSources.map g
  inputDerivations : MapReadAs g (fun l => l.map g) d.inputDerivations d'.inputDerivations
  platform : d'.platform = g d.platform
  builder : d'.builder = g d.builder
  arguments : d'.arguments = d.arguments.map g
  env : MapReadAs g g d.env d'.env

/-- Two derivations, with or without nil outputs, that differ in the order in which Go visits their maps at most. -/
structure RawSame (r r' : RawDrv) : Prop where
  name : r.name = r'.name
  outputs : r.outputs.Perm r'.outputs
  inputSources : r.inputSources = r'.inputSources
  inputDerivations : r.inputDerivations.Perm r'.inputDerivations
  platform : r.platform = r'.platform
  builder : r.builder = r'.builder
  arguments : r.arguments = r'.arguments
  env : r.env.Perm r'.env

end Verif.Spec
