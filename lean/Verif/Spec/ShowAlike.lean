import Verif.Spec.Show

/-!
# Specification: derivations that look alike as JSON
-/

namespace Verif.Spec
open Verif.GoLib Verif.GoJson Verif.Derivation

/-- The strings differ only in bytes that belong to no character, and have the same number of those in the same places. -/
inductive Alike : Bytes → Bytes → Prop
  | nil : Alike [] []
  | char {c : Nat} {s s' : Bytes} : IsScalar c → Alike s s' → Alike (utf8 c ++ s) (utf8 c ++ s')
  | bad {b b' : UInt8} {s s' : Bytes} : NoRune (b :: s) → NoRune (b' :: s') → Alike s s' → Alike (b :: s) (b' :: s')

/-- Lists of the same length whose elements are related, one by one. -/
inductive Each {α : Type} (R : α → α → Prop) : List α → List α → Prop
  | nil : Each R [] []
  | cons {a b : α} {l l' : List α} : R a b → Each R l l' → Each R (a :: l) (b :: l')

/-- The outputs look alike. -/
def OutputAlike (o o' : Output) : Prop :=
  Alike o.path o'.path ∧ Alike o.hashAlgorithm o'.hashAlgorithm ∧ Alike o.hash o'.hash

/-- The maps look alike: their entries, in the order of their keys, do. -/
def MapAlike {α : Type} (R : α → α → Prop) (m m' : GoMap α) : Prop :=
  ∃ l l' : List (Bytes × α), l.Perm m ∧ (l.map (·.1)).Pairwise (· < ·) ∧ l'.Perm m' ∧ (l'.map (·.1)).Pairwise (· < ·) ∧
    Each (fun e e' => Alike e.1 e'.1 ∧ R e.2 e'.2) l l'

/-- The derivations look alike; the name is not shown. -/
structure DrvAlike (d d' : Derivation) : Prop where
  outputs : MapAlike OutputAlike d.outputs d'.outputs
  inputSources : Each Alike d.inputSources d'.inputSources
  inputDerivations : MapAlike (Each Alike) d.inputDerivations d'.inputDerivations
  platform : Alike d.platform d'.platform
  builder : Alike d.builder d'.builder
  arguments : Each Alike d.arguments d'.arguments
  env : MapAlike Alike d.env d'.env

end Verif.Spec
