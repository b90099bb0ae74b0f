import Verif.Spec.Cmd
import Verif.Spec.NarLang

/-!
# Specification: `gonix nar ls` and `gonix nar cat` on any file
-/

namespace Verif.Nar
open Verif.GoLib Verif.Spec Verif.Wire

/-- `Nexts r xs c`: calling `Next` again and again returns the headers of `xs`, and then `c`, which is no
header. With each header stand the bytes that follow it in the archive. -/
inductive Nexts : Reader → List (Header × Bytes) → Call Header → Prop where
  | stop {r r' : Reader} {c} : r.next = (c, r') → (∀ h, c ≠ .ok h) → Nexts r [] c
  | step {r r' : Reader} {h xs c} : r.next = (.ok h, r') → Nexts r' xs c → Nexts r ((h, r'.st.stream.data) :: xs) c

/-- The line for a header: permissions, path, the announced size unless it is 0, the target of a symlink
unless it is empty. -/
def Header.line (h : Header) : Bytes :=
  (if h.typ = b!"symlink" then b!"Lrwxrwxrwx"
   else if h.typ = b!"directory" ∨ h.executable then b!"-r-xr-xr-x" else b!"-r--r--r--") ++
  b!" " ++ h.path ++
  (if h.size = 0 then [] else b!" (" ++ decimal h.size.toNat ++ b!" bytes)") ++
  (if h.linkTarget = [] then [] else b!" -> " ++ h.linkTarget) ++ b!"\n"

/-- What `ls` is to show: the path starts with PATH and, without `-R`, has no further slash after it. -/
def Header.shown (path : Bytes) (recursive : Bool) (h : Header) : Bool :=
  path.isPrefixOf h.path && (recursive || !(h.path.drop path.length).contains 47)

/-- Where `ls` stops: at a path that does not start with PATH and is, bytewise, greater. -/
def Header.beyond (path : Bytes) (h : Header) : Bool :=
  !path.isPrefixOf h.path && decide (path < h.path)

end Verif.Nar
