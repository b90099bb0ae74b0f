import Verif.Model.Store
import Verif.Spec.Store
import Verif.Spec.DrvPaths

/-!
# Specification: what is in a store
-/

namespace Verif.Props
open Verif.GoLib Verif.Wire Verif.Derivation Verif.Storepath Verif.Nixhash Verif.Spec

/-- `d` with other paths of its outputs and other values of the environment variables named like outputs. -/
def withOutputs (d : Derivation) (path value : Bytes → Bytes) : Derivation :=
  { d with
    outputs := d.outputs.map fun o => (o.1, { o.2 with path := path o.1 })
    env := d.env.map fun e => (e.1, if e.1 ∈ d.outputs.keys then value e.1 else e.2) }

end Verif.Props

namespace Verif.Props
open Verif.GoLib Verif.Derivation Verif.Store Verif.Storepath Verif.Wire

/-- What is true of every derivation in the store: it is valid and has its own path as key, its input
derivations are stored, its replacement is the calculated one, and its output paths are the calculated ones,
with the replacements that are in the store. -/
structure Checked (H : Bytes → Bytes) (ms : MapStore) (p : Bytes) (d : Derivation) : Prop where
  valid : d.validate = .ok ()
  path : drvPath H d = .ok p
  inputs : ∀ i ∈ d.inputDerivations, ms.has i.1 = .ok true
  replacement : ∃ r, ms.drvReplacements.get? p = some r ∧ calculateDrvReplacement H d ms.drvReplacements = .ok r
  outputs : PathsCalculated H ms.drvReplacements d

end Verif.Props

namespace Verif.Props
open Verif.Store Verif.GoLib Verif.Derivation

/-- The derivations `BadgerStore` can store: those with at most one input derivation, and fixed-output
derivations. -/
def Storable (d : Derivation) : Prop := d.inputDerivations.length ≤ 1 ∨ IsFixed d

/-- What the caller learns from a history of `Put`s: which succeed, with which path. -/
def accepted (log : List (Derivation × Res Bytes)) : List (Option Bytes) :=
  log.map fun e => match e.2 with | .ok p => some p | _ => none

end Verif.Props
