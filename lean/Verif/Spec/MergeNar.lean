import Verif.Spec.MapNar

/-!
# A program that puts archives into a directory (C171)
-/

namespace Verif.Nar
open Verif.GoLib Verif.Spec

/-- The part of the program that copies one archive, with other headers, into an open writer: `for { h, err := reader.Next(); if err == io.EOF { break };
...; writer.WriteHeader(g(h)); io.Copy(writer, reader) }` has come to its end, and no call failed. -/
inductive CopyInto (g : Header → Header) : Reader → Writer → List (Header × Bytes) → Writer → Prop
  | done {r w r'} : r.next = (.err .eof, r') → CopyInto g r w [] w
  | entry {r w h r1 w1 c r2 w2 l w'} : r.next = (.ok h, r1) → w.writeHeader (g h) = (.ok (), w1) → CopyBody r1 w1 c r2 w2 →
      CopyInto g r2 w2 l w' → CopyInto g r w ((g h, c) :: l) w'

/-- The header of the same entry in an archive in which the root is now called `name`:
`if h.Path == "/" { h.Path = "/" + name } else { h.Path = "/" + name + h.Path }` -/
def moved (name : Bytes) (h : Header) : Header :=
  { h with path := if h.path = b!"/" then b!"/" ++ name else b!"/" ++ name ++ h.path }

/-- One archive after the other is copied, each to its name. -/
inductive CopyAll : List (Bytes × Reader) → Writer → List (Header × Bytes) → Writer → Prop
  | nil {w} : CopyAll [] w [] w
  | cons {n r rs w l w1 l' w2} : CopyInto (moved n) r w l w1 → CopyAll rs w1 l' w2 → CopyAll ((n, r) :: rs) w (l ++ l') w2

/-- The whole program: the header of the root, the archives, `Close`. -/
inductive MergeNar : List (Bytes × Reader) → Writer → List (Header × Bytes) → Writer → Prop
  | mk {rs w w1 l w2 w'} : w.writeHeader ⟨b!"/", b!"directory", [], 0, false⟩ = (.ok (), w1) → CopyAll rs w1 l w2 → w2.close = (.ok (), w') →
      MergeNar rs w ((⟨b!"/", b!"directory", [], 0, false⟩, []) :: l) w'

/-- The readers were opened on the archives of these trees (of which they refuse nothing), with whatever comes behind these. -/
inductive Opened : Entries → List (Bytes × Reader) → Prop
  | nil : Opened .nil []
  | cons {n t es r rs rest e s} : t.All NameRd NodeRd → newReader ⟨t.nar ++ rest, e⟩ = (.ok r, s) → Opened es rs →
      Opened (.cons n t es) ((n, r) :: rs)

end Verif.Nar
