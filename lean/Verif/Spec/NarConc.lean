import Verif.Model.NarConc

/-! # Specification: what a caller sees of a sequence of calls -/

namespace Verif.Nar
open Verif.Conc

/-- A result that does not come back to the caller. -/
def ROut.ends : ROut → Option Ending
  | .next .panic => some .panicked
  | .next .block => some .blocked
  | .read .panic => some .panicked
  | .close .panic => some .panicked
  | .close .block => some .blocked
  | _ => none

@[inherit_doc ROut.ends] def WOut.ends : WOut → Option Ending
  | .unit .panic => some .panicked
  | .unit .block => some .blocked
  | .write .panic => some .panicked
  | .write .block => some .blocked
  | _ => none

/-- The results up to the first call that panics or blocks, and how the sequence ends. -/
def seen {O : Type} (ends : O → Option Ending) : List O → List O × Ending
  | [] => ([], .finished)
  | o :: os =>
    match ends o with
    | some e => ([], e)
    | none => (o :: (seen ends os).1, (seen ends os).2)

/-- `Read` is not called after `Close`. -/
def noReadAfterClose : List ROp → Bool
  | [] => true
  | .close :: ops => ops.all fun o => match o with | .read _ => false | _ => true
  | _ :: ops => noReadAfterClose ops

end Verif.Nar
