import Verif.Model.Signature

/-!
# Specification: a signature scheme
-/

namespace Verif.Props
open Verif Verif.Signature Verif.GoLib

/-- All pairs of a key and a signature, the keys outermost. -/
def pairs (keys sigs : List Named) : List (Named × Named) :=
  keys.flatMap fun k => sigs.map fun s => (k, s)

/-- A correct signature scheme: sizes, and signatures made with the key pair of a seed verify. -/
structure Ed25519.Correct (E : Ed25519) : Prop where
  derive_size : ∀ seed : Bytes, seed.length = 32 → (E.derive seed).length = 32
  sign_size : ∀ priv msg, (E.sign priv msg).length = 64
  verifies : ∀ seed msg : Bytes, seed.length = 32 →
    E.verify (E.derive seed) msg (E.sign (seed ++ E.derive seed) msg) = true

end Verif.Props
