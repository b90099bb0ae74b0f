import Verif.GoMap
import Verif.Model.Storepath

/-!
# Model of `pkg/storepath/references/refs.go`
-/

namespace Verif.References
open Verif.GoLib Verif.Nixbase32 Verif.Storepath

/-- `storePrefixLength` (refs.go:13). -/
def storePrefixLength : Nat := storeDir.length + 1

/-- `refLength` (refs.go:14). -/
def refLength : Nat := alphabet.length

/-- `ReferenceScanner` (refs.go:18-30); `hits` is the set, `buf` an array of `refLength` bytes. -/
structure Scanner where
  hashes : GoMap Bytes
  hits : GoMap Unit
  buf : Bytes
  n : Nat
  deriving DecidableEq, Repr

/-- The loop over the candidates (refs.go:37-48). -/
def candidates (hashes : GoMap Bytes) : List Bytes → Res (GoMap Bytes)
  | [] => .ok hashes
  | p :: ps =>
    if !hasPrefix p storeDir then .err (.msg "missing store path prefix")
    else if p.length < storeDir.length + refLength + 3 then .err (.msg "invalid store path length")
    else if p.length < storePrefixLength + refLength then .panic
    else candidates (hashes.insert ((p.drop storePrefixLength).take refLength) p) ps

/-- `NewReferenceScanner` (refs.go:32-56). -/
def newReferenceScanner (ps : List Bytes) : Res Scanner := do
  let hashes ← candidates [] ps
  .ok ⟨hashes, [], List.replicate refLength 0, 0⟩

/-- The body of the loop of `Write` (refs.go:74-93). Indexing panics out of range; that never
happens because `n < refLength` (`Inv`), so `List.set` is used. -/
def Scanner.byte (r : Scanner) (c : UInt8) : Scanner :=
  if !Nixbase32.is c then { r with n := 0 }
  else
    let buf := r.buf.set r.n c
    if r.n + 1 = refLength then
      match r.hashes.get? buf with
      | some _ => { r with buf := buf, hits := r.hits.insert buf (), n := 0 }
      | none => { r with buf := buf, n := 0 }
    else { r with buf := buf, n := r.n + 1 }

/-- `Write` (refs.go:73-95): it always returns `len(s), nil`. -/
def Scanner.write (r : Scanner) (s : Bytes) : Scanner := s.foldl Scanner.byte r

/-- `References` (refs.go:58-71) when `range r.hits` visits `order`. A missing key gives the empty
string. -/
def Scanner.references (r : Scanner) (order : List Bytes) : List Bytes :=
  sortStrings (order.map fun h => (r.hashes.get? h).getD [])

end Verif.References
