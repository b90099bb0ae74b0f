import Verif.Model.Storepath
import Verif.Spec.Numeral

/-!
# Specification: store paths
-/

namespace Verif.Storepath
open Verif.Spec

/-- The characters allowed in the name of a store path. -/
def nameChars : Bytes := b!"abcdefghijklmnopqrstuvwxyzABCDEFGHIJKLMNOPQRSTUVWXYZ0123456789-_.+?="

/-- 32 characters of the Nix base32 alphabet. -/
def HashPart (h : Bytes) : Prop := h.length = 32 ∧ ∀ c ∈ h, c ∈ b!"0123456789abcdfghijklmnpqrsvwxyz"

instance (h : Bytes) : Decidable (HashPart h) := by unfold HashPart; infer_instance

/-- Only characters allowed in names. -/
def NameChars (n : Bytes) : Prop := ∀ c ∈ n, c ∈ nameChars

instance (h : Bytes) : Decidable (NameChars h) := by unfold NameChars; infer_instance

/-- What `Validate` is to accept: `/nix/store/<hash>-<name>`. -/
def IsStorePath (s : Bytes) : Prop :=
  ∃ h n, s = b!"/nix/store/" ++ h ++ b!"-" ++ n ∧ HashPart h ∧ n ≠ [] ∧ NameChars n

end Verif.Storepath
