import Verif.Model.Out
import Verif.Spec.NarCalls
import Verif.Spec.NarSession
import Verif.Spec.NarRefs

/-!
# Specification: archives one after another
-/

namespace Verif.Props
open Verif.GoLib Verif.Wire Verif.Nar Verif.Spec

/-- Archives are read one after another from the same stream: for each, `NewReader`, then `Next` and `Read`s as planned, then `Next` until it
returns `io.EOF`. What the calls return, and the stream afterwards; `none` if a `NewReader` fails or the last `Next` is not `io.EOF`. -/
def readArchives : List (List (List Nat)) → Stream → Option (List (List (Call Header × List (Res Bytes))) × Stream)
  | [], s => some ([], s)
  | plan :: plans, s =>
    match newReader s with
    | (.ok r, _) =>
      match (r.session plan).2.next with
      | (.err .eof, r') => (readArchives plans r'.st.stream).map fun x => ((r.session plan).1 :: x.1, x.2)
      | _ => none
    | _ => none

/-- What is to be returned for a tree. -/
def returned (t : Tree) (plan : List (List Nat)) : List (Call Header × List (Res Bytes)) :=
  List.zipWith (fun en ks => (.ok (hdrOf en), readResults en.contents ks)) (t.entriesAt b!"/") plan

/-- A buffer. -/
abbrev bufDev : Out.Dev := ⟨Bytes, fun st p => ((p.length, none), st ++ p)⟩

/-- Trees of the file system are dumped one after another to the same buffer. -/
def dumpAll : List (Option Filter × Bytes × FNode) → Bytes → List (Call Unit) × Bytes
  | [], buf => ([], buf)
  | (filter, path, root) :: l, buf =>
    let x := Out.dumpPathFilter filter path root (⟨buf, []⟩ : Out.GSink bufDev)
    let y := dumpAll l x.2.st
    (x.1 :: y.1, y.2)

end Verif.Props
