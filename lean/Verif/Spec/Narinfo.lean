import Verif.Basic
import Verif.Model.Narinfo
import Verif.Spec.Nixhash

/-!
# Specification: lines of a `.narinfo` file
-/

namespace Verif.Narinfo
open Verif.GoLib Verif.Nixhash Verif.Signature

/-- `line` is `k: v`, and `: ` does not occur anywhere else in it. -/
def SplitsAs (line k v : Bytes) : Prop :=
  line = k ++ b!": " ++ v ∧ ∀ a b, line = a ++ b!": " ++ b → a = k

/-- A decimal number below 2^64. -/
def IsUint64 (v : Bytes) : Prop := v ≠ [] ∧ (∀ c ∈ v, c ∈ b!"0123456789") ∧ digitsValue 0 v < 2 ^ 64

/-- The known keys, with what is required of the value. -/
def GoodValue (k v : Bytes) : Prop :=
  k ∈ [b!"StorePath", b!"URL", b!"Compression", b!"References", b!"Deriver", b!"System", b!"CA"] ∨
  (k ∈ [b!"FileHash", b!"NarHash"] ∧ ∃ h, parseAny v none = .ok h) ∨
  (k ∈ [b!"FileSize", b!"NarSize"] ∧ IsUint64 v) ∨
  (k = b!"Sig" ∧ ∃ s, parseSignature v = .ok s)

/-- The lines of a text, without their ends (`\n` or `\r\n`). -/
def lines (text : Bytes) : List Bytes := (splitByte text 10).map dropCR

/-- The values of the lines with the given key, in order. -/
def values (k : Bytes) (ls : List Bytes) : List Bytes :=
  ls.filterMap fun l => if (k ++ b!": ").isPrefixOf l then some (l.drop (k.length + 2)) else none

/-- A value that survives printing and parsing: no line feed, no carriage return at the end, no
`: `, and short enough for the line buffer. -/
structure ValueOk (v : Bytes) : Prop where
  noLF : (10 : UInt8) ∉ v
  noCR : v.getLast? ≠ some 13
  noSep : ∀ a b, v ≠ a ++ b!": " ++ b
  short : v.length < 1048000

/-- A hash with its algorithm, of the algorithm's size. -/
def HashOk (h : HashWithEncoding) : Prop :=
  (∃ name, (h.hash.algo, name, h.hash.digest.length) ∈ Spec.hashAlgos) ∧ h.encoding ∈ Spec.hashEncodings ∧
    h.includeAlgo = true

/-- A well-formed `NarInfo`. -/
structure WellFormed (n : NarInfo) : Prop where
  storePath : ValueOk n.storePath
  url : ValueOk n.url
  compression : ValueOk n.compression ∧ n.compression ≠ []
  file : (n.fileHash = none ∧ n.fileSize = 0) ∨
    ∃ h, n.fileHash = some h ∧ HashOk h ∧ 0 < n.fileSize ∧ n.fileSize < 2 ^ 64
  narHash : ∃ h, n.narHash = some h ∧ HashOk h
  narSize : n.narSize < 2 ^ 64
  references : (∀ r ∈ n.references, r ≠ [] ∧ (32 : UInt8) ∉ r ∧ (10 : UInt8) ∉ r ∧
      r.getLast? ≠ some 58 ∧ r.getLast? ≠ some 13) ∧
    (n.references.map fun r => r.length + 1).sum < 1048000
  deriver : ValueOk n.deriver ∧ n.deriver ≠ b!"unknown-deriver"
  system : ValueOk n.system
  signatures : ∀ s ∈ n.signatures, s.name ≠ [] ∧ (58 : UInt8) ∉ s.name ∧ (10 : UInt8) ∉ s.name ∧
    s.name.length < 1047000 ∧ s.data.length = 64
  ca : ValueOk n.ca

end Verif.Narinfo
