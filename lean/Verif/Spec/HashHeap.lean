import Verif.Model.HashHeap

/-!
# Specification: programs that modify arrays
-/

namespace Verif.Props
open Verif.GoLib Verif.Nixhash

/-- A program that has done nothing yet. -/
def emptyProg : HashProg := ⟨fun _ => [], 0, []⟩

/-- The step only names arrays that exist, and slices within them. -/
def CanDo (p : HashProg) : HashOp → Prop
  | .alloc _ => True
  | .store a _ _ => a < p.fresh
  | .new _ s => s.arr < p.fresh ∧ s.Ok p.heap
  | .parse _ _ => True

/-- Every step of the program only names arrays that exist. -/
def CanRun (p : HashProg) : List HashOp → Prop
  | [] => True
  | o :: os => CanDo p o ∧ CanRun (p.step o) os

/-- What was assigned last to element `k` of the array `a`. -/
def lastStored (a : Addr) (k : Nat) : List HashOp → Option UInt8
  | [] => none
  | .store b i v :: os => (lastStored a k os).or (if b = a ∧ i = k then some v else none)
  | _ :: os => lastStored a k os

end Verif.Props
