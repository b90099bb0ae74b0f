import Verif.Model.Wire

/-!
# What a `bufio.Scanner` gets to see of a reader
-/

namespace Verif.Spec
open Verif Verif.Wire

/-- The data that the reader delivers up to its end, or up to the 101st of 101 empty reads in a row (without
error); `n` empty reads were made before. -/
def seen (eager : Bool) : Nat → List Bytes → Bytes
  | _, [] => []
  | n, [] :: cs => if cs = [] ∧ eager = true then [] else if n = 100 then [] else seen eager (n + 1) cs
  | _, c :: cs => c ++ seen eager 0 cs

/-- It gives up: 101 empty reads in a row. -/
def stuck (eager : Bool) : Nat → List Bytes → Bool
  | _, [] => false
  | n, [] :: cs => if cs = [] ∧ eager = true then false else if n = 100 then true else stuck eager (n + 1) cs
  | _, _ :: cs => stuck eager 0 cs

/-- The reader delivers its last bytes together with its error. -/
def lastWithErr (r : FReader) : Bool := r.eager &&
  match r.chunks.getLast? with
  | some (_ :: _) => true
  | _ => false

end Verif.Spec
