import Verif.Model.NarWriter
import Verif.Spec.Nar
import Verif.Spec.NarWriting
import Verif.Spec.NarConc

/-!
# Specification: calls on a `nar.Writer` and their results
-/

namespace Verif.Nar
/-- One of the three types of NAR. -/
def NarType (h : Header) : Prop := h.typ = typeRegular ∨ h.typ = typeDirectory ∨ h.typ = typeSymlink

end Verif.Nar

namespace Verif.Props
open Verif.Nar Verif.GoLib Verif.Spec Verif.Wire

/-- the writer after `NewWriter` on a sink that never fails -/
def freshWriter : Writer := ⟨⟨⟨str b!"nix-archive-1", none⟩, none⟩, .start, false⟩

/-- the calls of `WriteHeader` with headers that pass `Validate` all succeeded -/
def headersGood (ops : List WOp) (outs : List WOut) : Prop :=
  ∀ x ∈ ops.zip outs, ∀ h, x.1 = .header h → h.validate = .ok () → x.2.good = true

end Verif.Props

namespace Verif.Props
open Verif.Nar Verif.GoLib Verif.Spec Verif.Wire

/-- Files of a size that fits into an `int64`. -/
def NodeSize : Tree → Prop
  | .regular _ c => c.length < 2 ^ 63
  | _ => True

end Verif.Props

namespace Verif.Props
open Verif.Nar Verif.GoLib Verif.Wire Verif.Spec

/-- A `WriteHeader` returned nil. -/
def Begun (ops : List WOp) (results : List WOut) : Prop := ∃ h, (WOp.header h, WOut.unit (.ok ())) ∈ ops.zip results

/-- A `WriteHeader` of a header that passes `Validate` returned an error. -/
def Failed (ops : List WOp) (results : List WOut) : Prop :=
  ∃ h e, (WOp.header h, WOut.unit (.err e)) ∈ ops.zip results ∧ h.validate = .ok ()

/-- The types of all headers are those of the format (`Validate` does not check it). -/
def Known (ops : List WOp) : Prop := ∀ h, .header h ∈ ops → NarType h

/-- All these calls returned. -/
def Returned (results : List WOut) : Prop := ∀ r ∈ results, r.ends = none

end Verif.Props

namespace Verif.Props
open Verif.Nar Verif.GoLib Verif.Wire Verif.Spec

/-- A call, with what it returned, after which nothing is left to do for the goroutine: `Close`, or a `WriteHeader` of a header that passes
`Validate` and is answered with an error. -/
def Stops : WOp → WOut → Prop
  | .close, _ => True
  | .header h, .unit (.err _) => h.validate = .ok ()
  | _, _ => False

/-- One of the calls was such a call. -/
def Stopped (ops : List WOp) (results : List WOut) : Prop := ∃ x ∈ ops.zip results, Stops x.1 x.2

end Verif.Props
