import Verif.Model.Nar
import Verif.Model.Cmd
import Verif.Model.NarFrag
import Verif.Spec.Nar
import Verif.Spec.Cmd
import Verif.Spec.NarSession

/-!
# Specification: calls on a `nar.Reader` and their results
-/

namespace Verif.Nar
open Verif.GoLib Verif.Spec Verif.Wire

/-- not a `Read` -/
def ROp.notRead : ROp → Bool
  | .read _ => false
  | _ => true

/-- not the result of a `Read` -/
def ROut.notRead : ROut → Bool
  | .read _ => false
  | _ => true

end Verif.Nar

namespace Verif.Props
open Verif.Nar Verif.GoLib Verif.Spec Verif.Wire

/-- The background goroutine has returned. -/
def goroutineEnded (r : Reader) : Bool :=
  match r.phase with
  | .finished => true
  | _ => false

end Verif.Props

namespace Verif.Props
open Verif.Nar Verif.GoLib Verif.Spec Verif.Wire Verif.Cmd

/-- The bytes that a series of `Read` calls delivered. -/
def delivered : List (Res Bytes) → Bytes
  | [] => []
  | .ok d :: os => d ++ delivered os
  | _ :: os => delivered os

end Verif.Props

namespace Verif.Props
open Verif.Nar Verif.GoLib Verif.Spec Verif.Wire

/-- A call and the same call with a buffer that is not larger. -/
def SameCall : ROp → ROp → Prop
  | .next, .next => True
  | .close, .close => True
  | .read k, .read j => j ≤ k
  | _, _ => False

/-- What a call returns on the fragmented reader and what it returns on the stream: the same, where
`(0, io.EOF)` of a `Read` is the error `io.EOF`, and an error that comes with or after the last data is
not looked at. -/
def SameOut : FROut → ROut → Prop
  | .next x, .next y => x = y
  | .close x, .close y => x = y
  | .read d e, .read y => y = .ok d ∨ (y = .err .eof ∧ d = [] ∧ e = some .eof)
  | _, _ => False

/-- Two lists agree element by element. -/
def AllSame {α β : Type} (R : α → β → Prop) : List α → List β → Prop
  | [], [] => True
  | a :: as, b :: bs => R a b ∧ AllSame R as bs
  | _, _ => False

/-- The results of the `Next` and `Close` calls. -/
def FROut.call? : FROut → Option ROut
  | .next x => some (.next x)
  | .close x => some (.close x)
  | .read _ _ => none

/-- The data delivered by the `Read` calls. -/
def dataOf (outs : List FROut) : Bytes :=
  (outs.map fun o => match o with
    | .read d _ => d
    | _ => []).flatten

end Verif.Props
