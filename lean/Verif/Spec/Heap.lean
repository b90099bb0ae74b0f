import Verif.Model.Heap

/-!
# Specification: values behind pointers
-/

namespace Verif.Props
open Verif.GoLib Verif.Derivation Verif.Store Verif.Wire Verif.Nar

/-- The derivations that a program puts, as they are at that moment. -/
def putValues (heap : Heap Derivation) : List HOp → List Derivation
  | [] => []
  | .set a d :: ops => putValues (heap.set a d) ops
  | .put a :: ops => heap a :: putValues heap ops

/-- The pointer that was put last with the path `p`. -/
def lastPointer (log : List (Addr × Res Bytes)) (p : Bytes) : Option Addr :=
  ((log.filter fun e => e.2 = .ok p).getLast?).map (·.1)

/-- The program never modifies a derivation after it was put successfully. -/
def NeverModified (H : Bytes → Bytes) (heap : Heap Derivation) (ops : List HOp) : Prop :=
  ∀ pre a d post, ops = pre ++ .set a d :: post → ∀ p, (a, .ok p) ∉ (PtrStore.run H heap ⟨[], []⟩ pre).1

/-- The calls of a program, with the headers as they are at that moment. -/
def headerValues (heap : Heap Header) : List PtrOp → List WOp
  | [] => []
  | .set a h :: ops => headerValues (heap.set a h) ops
  | .header a :: ops => .header (heap a) :: headerValues heap ops
  | .write p :: ops => .write p :: headerValues heap ops
  | .close :: ops => .close :: headerValues heap ops

/-- The headers of the nodes that are open. -/
def PtrWriter.openHeaders (w : PtrWriter) : List Addr :=
  match w.phase with
  | .running stack => stack
  | _ => []

end Verif.Props
