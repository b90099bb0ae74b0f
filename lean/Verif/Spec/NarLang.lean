import Verif.Spec.NarRelaxed
import Verif.Spec.NarSession

/-!
# Specification: what a NAR reader accepts, and what it hands over
-/

namespace Verif.Nar
open Verif.GoLib Verif.Spec Verif.Wire

/-- The header of an entry whose announced size is given. -/
def hdrSeen (x : Seen) : Header := ⟨x.1.path, x.1.kind, x.1.target, x.2, x.1.executable⟩

/-- An entry with its contents complete. -/
def full (e : Entry) : Seen := (e, e.contents.length)

/-- `Accepts term d xs rest`: the data `d` after the magic is, up to `rest`, a node in the relaxed
format with the entries `xs`; or it is the beginning of such a node cut off by `io.EOF` at a place where
the reader does not notice it. In both cases the paths are in order. -/
def Accepts (term : Err) (d : Bytes) (xs : List Seen) (rest : Bytes) : Prop :=
  ((∃ es, RelNode b!"/" d es rest ∧ xs = es.map full) ∨
    (term = .eof ∧ rest = [] ∧ CutNode b!"/" d xs)) ∧
  InOrder (xs.map fun x => x.1.path)

/-- What `Read` calls with buffers of the given sizes are to return on a file with announced size `n` of
which the contents `c` are there: up to as many bytes as asked for, and `io.EOF` when nothing is left. -/
def seenReads : Nat → Bytes → List Nat → List (Res Bytes)
  | _, _, [] => []
  | n, c, k :: ks =>
    if n = 0 ∨ (c = [] ∧ k ≠ 0) then .err .eof :: seenReads n c ks
    else .ok (c.take k) :: seenReads (n - (c.take k).length) (c.drop k) ks

end Verif.Nar
