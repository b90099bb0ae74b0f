import Verif.Model.Wire
import Verif.Spec.Wire

/-!
# Specification: calls on the readers and writers of packets
-/

namespace Verif.Props
open Verif Verif.Wire Verif.Spec

/-- All results of a sequence of `Read` calls with the given buffer sizes. -/
def reads : BytesReader → List Nat → List (Bytes × Option Err) × BytesReader
  | br, [] => ([], br)
  | br, k :: ks =>
    let (r, br') := br.read k
    let (rs, br'') := reads br' ks
    (r :: rs, br'')

/-- A call on a `BytesWriter`. -/
inductive WOp
  | write (p : Bytes)
  | close

/-- Specification of a bytes writer for a packet of `n` content bytes: what has been accepted and
whether it was closed. The `Bool` result is "no error". -/
def specStep (n : Nat) : Bytes × Bool → WOp → Bool × (Bytes × Bool)
  | (acc, closed), .write p =>
    if acc.length + p.length ≤ n then (true, (acc ++ p, closed)) else (false, (acc, closed))
  | (acc, closed), .close =>
    if closed then (true, (acc, closed))
    else if acc.length = n then (true, (acc, true)) else (false, (acc, closed))

/-- The same call on the model. -/
def modelStep (st : BytesWriter × Sink) : WOp → Bool × (BytesWriter × Sink)
  | .write p => let (r, bw, w) := st.1.write p st.2; (r.2.isNone, (bw, w))
  | .close => let (e, bw, w) := st.1.close st.2; (e.isNone, (bw, w))

/-- Run a history, collecting the outcomes. -/
def runSteps {S : Type} (step : S → WOp → Bool × S) : S → List WOp → List Bool × S
  | s, [] => ([], s)
  | s, op :: ops => let (b, s') := step s op; let (bs, s'') := runSteps step s' ops; (b :: bs, s'')

end Verif.Props
