import Verif.Spec.NarSession

/-!
# Specification: what `Read` calls return on any stream
-/

namespace Verif.Nar
open Verif.GoLib Verif.Spec

/-- What `Read` calls with buffers of the given sizes are to return when `n` bytes are announced, the
bytes `c` are those of them that are there and the underlying reader ends with `term`: `io.EOF` once the
announced bytes are delivered; as many bytes as asked for, as far as they are there; and when they are
not, the error of the underlying reader. -/
def readsOf (term : Err) : Nat → Bytes → List Nat → List (Res Bytes)
  | _, _, [] => []
  | 0, c, _ :: ks => .err .eof :: readsOf term 0 c ks
  | n + 1, [], 0 :: ks => .ok [] :: readsOf term (n + 1) [] ks
  | n + 1, [], (_ + 1) :: ks => .err term :: readsOf term (n + 1) [] ks
  | n + 1, x :: c, k :: ks => .ok ((x :: c).take k) :: readsOf term (n + 1 - min k (x :: c).length) ((x :: c).drop k) ks

end Verif.Nar
