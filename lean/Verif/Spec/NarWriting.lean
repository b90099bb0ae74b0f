import Verif.Spec.NarSession
import Verif.Model.NarWriter

/-!
# Specification: sessions with a NAR writer
-/

namespace Verif.Nar
open Verif.Spec

/-- The data of the `Write` calls up to the next other call. -/
def leadWrites : List WOp → Bytes
  | .write p :: os => p ++ leadWrites os
  | _ => []

/-- The headers given to `WriteHeader`, each with the data written before the next header. -/
def written : List WOp → List (Header × Bytes)
  | [] => []
  | .header h :: os => (h, leadWrites os) :: written os
  | _ :: os => written os

/-- No two consecutive elements are equal. -/
def NoRepeat : List Bytes → Prop
  | a :: b :: l => a ≠ b ∧ NoRepeat (b :: l)
  | _ => True

instance : (l : List Bytes) → Decidable (NoRepeat l)
  | [] => isTrue trivial
  | [_] => isTrue trivial
  | a :: b :: l =>
    have : Decidable (NoRepeat (b :: l)) := instDecidableNoRepeat (b :: l)
    inferInstanceAs (Decidable (a ≠ b ∧ NoRepeat (b :: l)))

/-- What a session tells about an entry: its header and its contents. -/
def said (e : Entry) : Header × Bytes := (hdrOf e, e.contents)

/-- A name with two leading dots and something after them, like `..foo`. -/
def DotDot (n : Bytes) : Prop := 2 < n.length ∧ n.take 2 = b!".."

instance (n : Bytes) : Decidable (DotDot n) := by unfold DotDot; infer_instance

/-- Names the writer handles: usable as a file name and not like `..foo`. -/
def NameWr (n : Bytes) : Prop := NameOk n ∧ ¬ DotDot n

/-- Nodes the writer handles. -/
def NodeWr : Tree → Prop
  | .regular _ c => c.length < 2 ^ 63
  | .symlink t => t ≠ []
  | .directory _ => True

/-- Headers for which a writer session is claimed to be faithful: one of the three types, a clean
path, and a size that is not negative (and fits into an `int64`). -/
structure HeaderWr (h : Header) : Prop where
  known : h.typ = b!"regular" ∨ h.typ = b!"symlink" ∨ h.typ = b!"directory"
  clean : GoLib.clean h.path = h.path
  size : 0 ≤ h.size ∧ h.size < 2 ^ 63

/-- What the reader wants of a header: short names, none of them `)`, a short target. -/
def HeaderRd (h : Header) : Prop := h.linkTarget.length ≤ 4095 ∧ ∀ c ∈ GoLib.cleanComps h.path, c ≠ b!")" ∧ c.length ≤ 255

/-- The calls that write the given entries, the contents in the given pieces. -/
def writeOps (es : List (Entry × List Bytes)) : List WOp :=
  es.flatMap fun e => .header (hdrOf e.1) :: e.2.map .write

end Verif.Nar
