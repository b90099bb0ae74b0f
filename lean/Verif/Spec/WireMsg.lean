import Verif.Spec.Wire
import Verif.Model.Wire

/-!
# Specification: messages of several values

The protocols of Nix send values one after another; the receiver knows from the context which kind comes next. This is how a program uses
`pkg/wire`: a sequence of calls of its functions on the same writer, or on the same reader.
-/

namespace Verif.Spec
open Verif.GoLib Verif.Wire

/-- What the receiver expects next. -/
inductive Kind where
  | uint64
  | bool
  | bytes (max : Nat)
  deriving DecidableEq, Repr

/-- A value. -/
inductive Val where
  | uint64 (n : Nat)
  | bool (v : Bool)
  | bytes (c : Bytes)
  deriving DecidableEq, Repr

/-- The value is one that is expected. -/
def FitsKind : Kind → Val → Prop
  | .uint64, .uint64 n => n < 2 ^ 64
  | .bool, .bool _ => True
  | .bytes max, .bytes c => c.length ≤ max ∧ c.length < 2 ^ 63
  | _, _ => False

/-- The sender: one call per value; it stops at the first error. -/
def sendAll : List Val → M Sink Unit
  | [] => pure ()
  | .uint64 n :: vs => do writeUint64 n; sendAll vs
  | .bool v :: vs => do writeBool v; sendAll vs
  | .bytes c :: vs => do writeBytes c; sendAll vs

/-- The receiver: one call per kind; it stops at the first error. -/
def receiveAll : List Kind → M Stream (List Val)
  | [] => pure []
  | .uint64 :: ks => do
    let n ← readUint64
    let vs ← receiveAll ks
    pure (.uint64 n :: vs)
  | .bool :: ks => do
    let v ← readBool
    let vs ← receiveAll ks
    pure (.bool v :: vs)
  | .bytes max :: ks => do
    let c ← readBytesFull max
    let vs ← receiveAll ks
    pure (.bytes c :: vs)

/-- The receiver on a reader that delivers its bytes in any pieces. -/
def receiveAllF : List Kind → M FReader (List Val)
  | [] => pure []
  | .uint64 :: ks => do
    let n ← FReader.readUint64
    let vs ← receiveAllF ks
    pure (.uint64 n :: vs)
  | .bool :: ks => do
    let v ← FReader.readBool
    let vs ← receiveAllF ks
    pure (.bool v :: vs)
  | .bytes max :: ks => do
    let c ← FReader.readBytesFull max
    let vs ← receiveAllF ks
    pure (.bytes c :: vs)

/-- The text of a message: of each value in turn. -/
inductive Message : List Val → Bytes → Prop
  | nil : Message [] []
  | uint64 {n : Nat} {p d : Bytes} {vs : List Val} : IsLE64 p n → Message vs d → Message (.uint64 n :: vs) (p ++ d)
  | bool {v : Bool} {p d : Bytes} {vs : List Val} : IsLE64 p (if v then 1 else 0) → Message vs d → Message (.bool v :: vs) (p ++ d)
  | bytes {c p d : Bytes} {vs : List Val} : IsPacket p c → Message vs d → Message (.bytes c :: vs) (p ++ d)

/-- What is accepted as a message, with the bytes that are left over. Laxity: any bytes in the place of padding, and if the input ends, less of it. -/
inductive Accepted : List Kind → List Val → Bytes → Bytes → Prop
  | nil {rest : Bytes} : Accepted [] [] rest rest
  | uint64 {n : Nat} {p d rest : Bytes} {ks : List Kind} {vs : List Val} : IsLE64 p n → Accepted ks vs d rest →
      Accepted (.uint64 :: ks) (.uint64 n :: vs) (p ++ d) rest
  | bool {v : Bool} {p d rest : Bytes} {ks : List Kind} {vs : List Val} : IsLE64 p (if v then 1 else 0) → Accepted ks vs d rest →
      Accepted (.bool :: ks) (.bool v :: vs) (p ++ d) rest
  | bytes {max : Nat} {c p pad d rest : Bytes} {ks : List Kind} {vs : List Val} : IsLE64 p c.length → c.length ≤ max → c.length < 2 ^ 63 →
      (pad.length < 8 ∧ (c.length + pad.length) % 8 = 0 ∨ pad.length < (8 - c.length % 8) % 8 ∧ d = []) → Accepted ks vs d rest →
      Accepted (.bytes max :: ks) (.bytes c :: vs) (p ++ c ++ pad ++ d) rest

end Verif.Spec
