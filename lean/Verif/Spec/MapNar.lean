import Verif.Spec.CopyNar

/-!
# A program that copies a part of an archive, or with other headers (C168, C169)
-/

namespace Verif.Nar
open Verif.GoLib Verif.Spec

/-- The program `for { h, err := reader.Next(); ...; if h = g(h); h != nil { writer.WriteHeader(h); io.Copy(writer, reader) } }; writer.Close()`
has come to its end, and no call failed: the headers given to `WriteHeader` with the bytes that were copied after them, and the writer then. -/
inductive MapNar (g : Header → Option Header) : Reader → Writer → List (Header × Bytes) → Writer → Prop
  | done {r w r' w'} : r.next = (.err .eof, r') → w.close = (.ok (), w') → MapNar g r w [] w'
  | skip {r w h r1 l w'} : r.next = (.ok h, r1) → g h = none → MapNar g r1 w l w' → MapNar g r w l w'
  | entry {r w h r1 h' w1 c r2 w2 l w'} : r.next = (.ok h, r1) → g h = some h' → w.writeHeader h' = (.ok (), w1) → CopyBody r1 w1 c r2 w2 →
      MapNar g r2 w2 l w' → MapNar g r w ((h', c) :: l) w'

/-- The function `g` that takes out what is at a path and below, and makes it the root:
`if h.Path == p { h.Path = "/"; return h }; if strings.HasPrefix(h.Path, p + "/") { h.Path = h.Path[len(p):]; return h }; return nil` -/
def extract (p : Bytes) (h : Header) : Option Header :=
  if h.path = p then some { h with path := b!"/" }
  else if p ++ b!"/" <+: h.path then some { h with path := h.path.drop p.length }
  else none

end Verif.Nar

namespace Verif.Spec

/-- The entry of a directory with a name. -/
def Entries.find (n : Bytes) : Entries → Option Tree
  | .nil => none
  | .cons m t es => if m = n then some t else es.find n

/-- What is at a path, given by its components. -/
def Tree.sub : List Bytes → Tree → Option Tree
  | [], t => some t
  | n :: cs, .directory es => (es.find n).bind (Tree.sub cs)
  | _ :: _, _ => none

end Verif.Spec
