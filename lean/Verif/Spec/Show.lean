import Verif.Spec.Json
import Verif.Spec.Derivation

/-!
# Specification: a derivation as JSON
-/

namespace Verif.Spec
open Verif.GoLib Verif.GoJson Verif.Derivation

/-- The object with the given members. -/
def object (l : List (Bytes × Json)) : Json := .obj (l.foldr (fun m ms => .cons m.1 m.2 ms) .nil)

/-- The array of the given strings. -/
def strings (l : List Bytes) : Json := .arr (l.foldr (fun s js => .cons (.str s) js) .nil)

/-- The object of an output. -/
def outputObject (o : Output) : Json :=
  object ([(b!"path", .str o.path)] ++ (if o.hashAlgorithm = [] then [] else [(b!"hashAlgo", .str o.hashAlgorithm)]) ++
    (if o.hash = [] then [] else [(b!"hash", .str o.hash)]))

/-- `v` is the object of the entries of the map `m`, in the order of the keys. -/
def MapObject {α : Type} (value : α → Json) (m : GoMap α) (v : Json) : Prop :=
  ∃ l : List (Bytes × α), l.Perm m ∧ (l.map (·.1)).Pairwise (· < ·) ∧ v = object (l.map fun e => (e.1, value e.2))

/-- `v` is the object of the derivation `d`, as `nix show-derivation` used to print it. -/
def DrvObject (d : Derivation) (v : Json) : Prop :=
  ∃ outputs inputDrvs env, MapObject outputObject d.outputs outputs ∧
    MapObject strings d.inputDerivations inputDrvs ∧ MapObject .str d.env env ∧
    v = object [(b!"outputs", outputs), (b!"inputSrcs", strings d.inputSources), (b!"inputDrvs", inputDrvs),
      (b!"system", .str d.platform), (b!"builder", .str d.builder), (b!"args", strings d.arguments), (b!"env", env)]

/-- All strings of the derivation are UTF-8. -/
structure DrvUtf8 (d : Derivation) : Prop where
  outputs : ∀ o ∈ d.outputs, IsUtf8 o.1 ∧ IsUtf8 o.2.path ∧ IsUtf8 o.2.hashAlgorithm ∧ IsUtf8 o.2.hash
  inputSources : ∀ s ∈ d.inputSources, IsUtf8 s
  inputDerivations : ∀ i ∈ d.inputDerivations, IsUtf8 i.1 ∧ ∀ s ∈ i.2, IsUtf8 s
  platform : IsUtf8 d.platform
  builder : IsUtf8 d.builder
  arguments : ∀ s ∈ d.arguments, IsUtf8 s
  env : ∀ e ∈ d.env, IsUtf8 e.1 ∧ IsUtf8 e.2

end Verif.Spec
