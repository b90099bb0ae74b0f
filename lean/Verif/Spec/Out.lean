import Verif.Model.Out
import Verif.Spec.NarRefs

/-!
# Specification: calls on writers
-/

namespace Verif.Props
open Verif.Nar Verif.GoLib Verif.Spec Verif.Wire

/-- `Write` calls on a `BytesWriter`, whatever they return. -/
def bwWrites {D : Out.Dev} : List Bytes → BytesWriter × Out.GSink D → BytesWriter × Out.GSink D
  | [], x => x
  | p :: ps, x => bwWrites ps (Out.bwWrite x.1 p x.2).2

end Verif.Props

namespace Verif.Props
open Verif.Nar Verif.GoLib Verif.Spec Verif.Wire Verif.References Verif.Storepath

/-- Two lists are related element by element. -/
inductive All2 {α : Type} (R : α → α → Prop) : List α → List α → Prop
  | nil : All2 R [] []
  | cons {a b : α} {l m : List α} : R a b → All2 R l m → All2 R (a :: l) (b :: m)

/-- Two writers. -/
def twoDevs (D K : Out.Dev) : Bool → Out.Dev
  | true => D
  | false => K

/-- A `ReferenceScanner` as an `io.Writer` (refs.go:73-95). -/
abbrev scanDev : Out.Dev := ⟨Scanner, fun r p => ((p.length, none), r.write p)⟩

/-- The state of the scanner after the dump. -/
def scanDump (r : Scanner) (filter : Option Filter) (path : Bytes) (root : FNode) : Call Unit × Scanner :=
  let x := Out.dumpPathFilter filter path root (⟨r, []⟩ : Out.GSink scanDev)
  (x.1, x.2.st)

end Verif.Props
