import Verif.Spec.Store

/-!
# Hashes of derivations modulo fixed-output derivations

After the Nix manual and thesis: the hash of a derivation by which its outputs (and those of everything that depends on it)
are named. It is defined by recursion over the graph of derivations; nothing of how `/repo` computes it (a table
that grows with the store) is mentioned here.
-/

namespace Verif.Derivation
open Verif.GoLib Verif.Store

/-- `inputs'` are the input derivations `inputs`, each named by `f` of its path; two of the same name are one (and then
used with the same outputs). -/
def RenamedInputs (f : Bytes → Bytes) (inputs inputs' : GoMap (List Bytes)) : Prop :=
  inputs'.keys.Nodup ∧ ∀ k v, (k, v) ∈ inputs' ↔ ∃ i ∈ inputs, f i.1 = k ∧ v = i.2

/-- `h` is the hash modulo fixed outputs of the derivation `d`; `known p` is the derivation with the path `p`. -/
inductive Modulo (H : Bytes → Bytes) (known : Bytes → Option Derivation) : Derivation → Bytes → Prop
  /-- A fixed-output derivation is named by what it produces. -/
  | fixed (d : Derivation) (o : Output) : d.outputs = [(b!"out", o)] → o.hashAlgorithm ≠ [] →
      Modulo H known d (hexEncode (H (b!"fixed:out:" ++ o.hashAlgorithm ++ b!":" ++ o.hash ++ b!":" ++ o.path)))
  /-- Any other one by its text, in which the input derivations are named by their hashes. -/
  | other (d : Derivation) (g : Bytes → Derivation) (f : Bytes → Bytes) (inputs : GoMap (List Bytes)) (x : DrvText) :
      ¬ IsFixed d →
      (∀ i ∈ d.inputDerivations, known i.1 = some (g i.1)) →
      (∀ i ∈ d.inputDerivations, Modulo H known (g i.1) (f i.1)) →
      RenamedInputs f d.inputDerivations inputs →
      Prints { d with inputDerivations := inputs } x →
      Modulo H known d (hexEncode (H x.text))

/-- `p` is the path of the output `o` of `d`. -/
def OutputPathOf (H : Bytes → Bytes) (known : Bytes → Option Derivation) (d : Derivation) (o : Bytes × Output) (p : Bytes) : Prop :=
  if o.2.hashAlgorithm = b!"r:sha256" then IsNixPath H b!"source" o.2.hash d.getName p
  else if o.2.hashAlgorithm ≠ [] then
    IsNixPath H b!"output:out" (hexEncode (H (b!"fixed:out:" ++ o.2.hashAlgorithm ++ b!":" ++ o.2.hash ++ b!":"))) d.getName p
  else ∃ f inputs x, (∀ i ∈ d.inputDerivations, ∃ d', known i.1 = some d' ∧ Modulo H known d' (f i.1)) ∧
    RenamedInputs f d.inputDerivations inputs ∧ Prints { masked d with inputDerivations := inputs } x ∧
    IsNixPath H (b!"output:" ++ o.1) (hexEncode (H x.text)) (outputStoreName d.getName o.1) p

/-- No derivation uses two input derivations with the same hash for different outputs. (Then the text would depend on which of them
is taken, see C58.) -/
def Unambiguous (H : Bytes → Bytes) (known : Bytes → Option Derivation) (d : Derivation) : Prop :=
  ∀ i ∈ d.inputDerivations, ∀ j ∈ d.inputDerivations, ∀ di dj h, known i.1 = some di → known j.1 = some dj →
    Modulo H known di h → Modulo H known dj h → i.2 = j.2

/-- Every derivation known here is known there, up to the order in which Go visits its maps. -/
def Within (known known' : Bytes → Option Derivation) : Prop :=
  ∀ p d, known p = some d → ∃ d', known' p = some d' ∧ Same d d'

/-- What `Get` of a `MapStore` delivers. -/
def _root_.Verif.Store.MapStore.known (ms : MapStore) (p : Bytes) : Option Derivation :=
  match ms.get p with
  | .ok d => some d
  | _ => none

end Verif.Derivation
