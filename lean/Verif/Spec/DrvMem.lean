import Verif.Model.DrvMem

/-! # Specification: the derivations a program has read -/

namespace Verif.Derivation
open Verif.GoLib Verif.Wire Verif.Nixhash

/-- A program that has done nothing yet. -/
def emptyMemProg : MemProg := ⟨⟨fun _ => [], 0⟩, [], []⟩

/-- Every assignment of the program is to an array that it can name. -/
def CanStore (keeps : Bool) (jsonName : Bytes → Res (Option Bytes)) : MemProg → List MemOp → Prop
  | _, [] => True
  | p, op :: ops => (∀ a i v, op = .store a i v → a ∈ p.known) ∧ CanStore keeps jsonName (p.step keeps jsonName op) ops

/-- The derivations that the calls of `ReadDerivation` return, as values. -/
def readValues (jsonName : Bytes → Res (Option Bytes)) : List MemOp → List Derivation
  | [] => []
  | .read grow r :: ops =>
    match Scan.readDerivation grow jsonName r with
    | .ok d => d :: readValues jsonName ops
    | _ => readValues jsonName ops
  | _ :: ops => readValues jsonName ops

end Verif.Derivation
