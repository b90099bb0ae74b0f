import Verif.Spec.NarWriting
import Verif.Spec.NarSession
import Verif.Model.NarWriter

/-!
# A program that copies an archive from a `nar.Reader` to a `nar.Writer` (C165)
-/

namespace Verif.Nar
open Verif.GoLib Verif.Spec

/-- `io.Copy(writer, reader)` returned nil: it copies with a buffer of 32 kB. The bytes are those that were copied. -/
inductive CopyBody : Reader → Writer → Bytes → Reader → Writer → Prop
  | eof {r w r'} : r.read 32768 = (.err .eof, r') → CopyBody r w [] r' w
  | nothing {r w r1 c r2 w2} : r.read 32768 = (.ok [], r1) → CopyBody r1 w c r2 w2 → CopyBody r w c r2 w2
  | chunk {r w d r1 w1 c r2 w2} : r.read 32768 = (.ok d, r1) → d ≠ [] → w.write d = (.ok (d.length, none), w1) →
      CopyBody r1 w1 c r2 w2 → CopyBody r w (d ++ c) r2 w2

/-- The program `for { h, err := reader.Next(); ...; writer.WriteHeader(h); io.Copy(writer, reader) }; writer.Close()` has come to its end, and no
call failed: the headers with the bytes that were copied after them, and the writer then. -/
inductive CopyNar : Reader → Writer → List (Header × Bytes) → Writer → Prop
  | done {r w r' w'} : r.next = (.err .eof, r') → w.close = (.ok (), w') → CopyNar r w [] w'
  | entry {r w h r1 w1 c r2 w2 l w'} : r.next = (.ok h, r1) → w.writeHeader h = (.ok (), w1) → CopyBody r1 w1 c r2 w2 →
      CopyNar r2 w2 l w' → CopyNar r w ((h, c) :: l) w'

end Verif.Nar
