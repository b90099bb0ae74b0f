import Verif.Spec.Nar
import Verif.Model.Nar

/-!
# Specification: sessions with a NAR reader
-/

namespace Verif.Nar
open Verif.GoLib Verif.Spec Verif.Wire

/-- The header that describes an entry. -/
def hdrOf (e : Entry) : Header := ⟨e.path, e.kind, e.target, e.contents.length, e.executable⟩

/-- Names the reader handles: usable as a file name, short, and not `)`. -/
def NameRd (n : Bytes) : Prop := NameOk n ∧ n ≠ b!")" ∧ n.length ≤ 255

/-- Nodes the reader handles. -/
def NodeRd : Tree → Prop
  | .regular _ c => c.length < 2 ^ 63
  | .symlink t => t.length ≤ 4095
  | .directory _ => True

/-- `Read` calls with the given buffer sizes. -/
def Reader.reads (r : Reader) : List Nat → List (Res Bytes) × Reader
  | [] => ([], r)
  | k :: ks =>
    let (d, r1) := r.read k
    let (ds, r2) := r1.reads ks
    (d :: ds, r2)

/-- For every element of the plan: call `Next`, then `Read` with the given buffer sizes. -/
def Reader.session (r : Reader) : List (List Nat) → List (Call Header × List (Res Bytes)) × Reader
  | [] => ([], r)
  | ks :: plan =>
    let (h, r1) := r.next
    let (ds, r2) := r1.reads ks
    let (out, r3) := r2.session plan
    ((h, ds) :: out, r3)

/-- What `Read` calls with the given sizes are to return on a file with these contents. -/
def readResults : Bytes → List Nat → List (Res Bytes)
  | _, [] => []
  | c, k :: ks =>
    if c = [] then .err .eof :: readResults c ks
    else .ok (c.take k) :: readResults (c.drop k) ks

/-- The bytes that a series of `Read` calls returned. -/
def bytesRead (ds : List (Res Bytes)) : Bytes := ds.flatMap fun d => match d with
  | .ok b => b
  | _ => []

/-- The headers returned by the `Next` calls among the results. -/
def hdrsOf (outs : List ROut) : List Header :=
  outs.filterMap fun o => match o with
    | .next (.ok h) => some h
    | _ => none

end Verif.Nar
