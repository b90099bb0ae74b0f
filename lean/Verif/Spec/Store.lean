import Verif.Model.Store
import Verif.Spec.DrvPaths

/-!
# Histories of derivation stores
-/

namespace Verif.Store
open Verif.GoLib Verif.Derivation

/-- A history of `Put`s on a `MapStore`: what each of them returned, and the store afterwards. -/
def MapStore.history (sha256 : Bytes → Bytes) (ms : MapStore) : List Derivation → List (Derivation × Res Bytes) × MapStore
  | [] => ([], ms)
  | d :: ds =>
    let r := MapStore.put sha256 d ms
    let h := MapStore.history sha256 r.2 ds
    ((d, r.1) :: h.1, h.2)

/-- A history of `Put`s on a `BadgerStore`. -/
def Badger.history (sha256 : Bytes → Bytes) (db : Badger) : List Derivation → List (Derivation × Res Bytes) × Badger
  | [] => ([], db)
  | d :: ds =>
    let r := Badger.put sha256 d db
    let h := Badger.history sha256 r.2 ds
    ((d, r.1) :: h.1, h.2)

/-- The derivation that was put last with the path `p`. -/
def lastPut (log : List (Derivation × Res Bytes)) (p : Bytes) : Option Derivation :=
  ((log.filter fun e => e.2 = .ok p).getLast?).map (·.1)

/-- The output paths in `d` are those of `CalculateOutputPaths` with the replacements `repl`. -/
def PathsCalculated (sha256 : Bytes → Bytes) (repl : GoMap Bytes) (d : Derivation) : Prop :=
  ∃ m, calculateOutputPaths sha256 d repl = .ok m ∧ ∀ o ∈ d.outputs, m.get? o.1 = some o.2.path

/-- A fixed-output derivation. -/
def IsFixed (d : Derivation) : Prop := ∃ o, d.outputs = [(b!"out", o)] ∧ o.hashAlgorithm ≠ []

/-- The store that a URL stands for, as the comment of `NewFromURI` says: a directory without a scheme or for
`file`, where an empty path is `/nix/store`; Badger in memory or on disk for `badger`; HTTP for `http` and `https`. -/
def documented (u : GoUrl.URL) : Option Opened :=
  if u.scheme = [] ∨ u.scheme = b!"file" then some (.fs ⟨if u.path = [] then b!"/nix/store" else u.path⟩)
  else if u.scheme = b!"badger" then some (if u.path = [] then .badgerMemory else .badger u.path)
  else if u.scheme = b!"http" ∨ u.scheme = b!"https" then some (.http ⟨u⟩)
  else none

end Verif.Store
