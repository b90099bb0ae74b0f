import Verif.Spec.Narinfo

/-!
# Specification: printing a parsed `.narinfo` and parsing it again

What `String` prints loses a file hash without a file size (and the other way round), and the line reader
drops a carriage return at the end of a line.
-/

namespace Verif.Narinfo
open Verif.GoLib Verif.Nixhash Verif.Signature

/-- The digest has a size whose base64 text is as long as the base64 text of a digest of the algorithm's
size (so that it is recognised by its length). -/
def HashPrints (h : HashWithEncoding) : Prop :=
  ∃ name size, (h.hash.algo, name, size) ∈ Spec.hashAlgos ∧
    (h.hash.digest.length + 2) / 3 = (size + 2) / 3

/-- The references can be read back from one line: none but the last ends with a colon, and together with
`References: ` and one space between any two of them they are shorter than the line buffer. -/
def RefsPrint (refs : List Bytes) : Prop :=
  (∀ a r b, refs = a ++ r :: b → b ≠ [] → r.getLast? ≠ some 58) ∧
    (join refs [32]).length + 12 < 1048576

/-- What parsing makes of the printed text: carriage returns at the end of a value are lost (one of
them), the file hash and size are kept only when both are there. -/
def normal (n : NarInfo) : NarInfo where
  storePath := dropCR n.storePath
  url := dropCR n.url
  compression := if dropCR n.compression = [] then b!"bzip2" else dropCR n.compression
  fileHash := if n.fileSize = 0 then none else n.fileHash
  fileSize := if n.fileHash = none then 0 else n.fileSize
  narHash := n.narHash
  narSize := n.narSize
  references := if dropCR (join n.references [32]) = [] then []
    else splitByte (dropCR (join n.references [32])) 32
  deriver := if dropCR n.deriver = b!"unknown-deriver" then [] else dropCR n.deriver
  system := dropCR n.system
  signatures := n.signatures
  ca := dropCR n.ca

/-- The value does not end with a carriage return. -/
def NoCR (v : Bytes) : Prop := v.getLast? ≠ some 13

end Verif.Narinfo
