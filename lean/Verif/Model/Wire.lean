import Verif.GoLib

/-!
# Model of `pkg/wire`

Two readers are modelled: `Stream` (the bytes still to come, and the error reported at the end),
on which all results of the package are stated, and `FReader` (section "Fragmented readers"), an
`io.Reader` that delivers its data in arbitrary pieces; property C19 relates the two.
-/

namespace Verif.Wire

/-- `binary.LittleEndian.PutUint64` (write.go:20, wire.go:12). -/
def putUint64 (n : Nat) : Bytes :=
  [UInt8.ofNat n, UInt8.ofNat (n >>> 8), UInt8.ofNat (n >>> 16), UInt8.ofNat (n >>> 24),
    UInt8.ofNat (n >>> 32), UInt8.ofNat (n >>> 40), UInt8.ofNat (n >>> 48), UInt8.ofNat (n >>> 56)]

/-- `binary.LittleEndian.Uint64` (read.go:17, wire.go:12). -/
def getUint64 (b : Bytes) : Nat := b.foldr (fun x acc => x.toNat + 256 * acc) 0

/-! ## Writing -/

/-- An `io.Writer`: what it has accepted so far, and how many bytes it will still accept before it
fails (`none`: never fails). A failing `Write` accepts a prefix and returns an error, and so do all
later writes of at least one byte. -/
structure Sink where
  out : Bytes
  budget : Option Nat
  deriving DecidableEq, Repr

/-- `w.Write(p)` on a sink: number of bytes accepted and the error, if any. -/
def Sink.write (w : Sink) (p : Bytes) : (Nat × Option Err) × Sink :=
  match w.budget with
  | none => ((p.length, none), { w with out := w.out ++ p })
  | some k =>
    if p.length ≤ k then ((p.length, none), ⟨w.out ++ p, some (k - p.length)⟩)
    else ((k, some .io), ⟨w.out ++ p.take k, some 0⟩)

/-- `_, err := w.Write(p); return err`. -/
def writeAll (p : Bytes) : M Sink Unit := fun w =>
  match w.write p with
  | ((_, none), w') => (.ok (), w')
  | ((_, some e), w') => (.err e, w')

/-- `WriteUint64` (write.go:20-28). -/
def writeUint64 (n : Nat) : M Sink Unit := writeAll (putUint64 n)

/-- `WriteBool` (write.go:31-37). -/
def writeBool (v : Bool) : M Sink Unit := if v then writeUint64 1 else writeUint64 0

/-- `writePadding` (write.go:68-76): `padding[m:]` has `8 - m` zero bytes. -/
def writePadding (contentLength : Nat) : M Sink Unit :=
  if contentLength % 8 ≠ 0 then writeAll (List.replicate (8 - contentLength % 8) 0)
  else pure ()

/-- `WriteBytes` (write.go:40-51). -/
def writeBytes (buf : Bytes) : M Sink Unit := do
  writeUint64 buf.length
  writeAll buf
  writePadding buf.length

/-- `WriteString` (write.go:54-65); `io.WriteString` is `Write`. -/
def writeString (s : Bytes) : M Sink Unit := do
  writeUint64 s.length
  writeAll s
  writePadding s.length

/-- `BytesWriter` (bytes_writer.go:15-20); `bytesWritten` and `totalLength` are `uint64`. -/
structure BytesWriter where
  bytesWritten : Nat
  totalLength : Nat
  paddingWritten : Bool
  deriving DecidableEq, Repr

/-- `NewBytesWriter` (bytes_writer.go:22-37). -/
def newBytesWriter (contentLength : Nat) : M Sink BytesWriter := do
  writeUint64 contentLength
  pure ⟨0, contentLength, false⟩

/-- `BytesWriter.Write` (bytes_writer.go:39-50): count, error, new state. The addition is on
`uint64`. -/
def BytesWriter.write (bw : BytesWriter) (p : Bytes) (w : Sink) :
    (Nat × Option Err) × BytesWriter × Sink :=
  if (bw.bytesWritten + p.length) % 2 ^ 64 > bw.totalLength then
    ((0, some (.msg "maximum number of bytes exceeded")), bw, w)
  else
    match w.write p with
    | ((n, e), w') => ((n, e), { bw with bytesWritten := (bw.bytesWritten + n) % 2 ^ 64 }, w')

/-- `BytesWriter.Close` (bytes_writer.go:53-72). -/
def BytesWriter.close (bw : BytesWriter) (w : Sink) : Option Err × BytesWriter × Sink :=
  if bw.paddingWritten then (none, bw, w)
  else if bw.bytesWritten ≠ bw.totalLength then
    (some (.msg "wrote other number of bytes than expected"), bw, w)
  else
    match writePadding bw.totalLength w with
    | (.ok (), w') => (none, { bw with paddingWritten := true }, w')
    | (.err e, w') => (some e, bw, w')
    | (.panic, w') => (some .io, bw, w')

/-! ## Reading -/

/-- An `io.Reader`, seen as the bytes it will still deliver and the error it reports after them
(`io.EOF`, or an I/O error). -/
structure Stream where
  data : Bytes
  term : Err
  deriving DecidableEq, Repr

/-- The error of `io.ReadFull` when the reader ends with `term` after `got` bytes, fewer than
wanted: `EOF` becomes `ErrUnexpectedEOF` if something was read. -/
def shortErr (got : Nat) (term : Err) : Err :=
  if 0 < got ∧ term = .eof then .unexpectedEOF else term

/-- `io.ReadFull(r, buf)` with `len(buf) = k`. -/
def readFull (k : Nat) : M Stream Bytes := fun s =>
  if k ≤ s.data.length then (.ok (s.data.take k), { s with data := s.data.drop k })
  else (.err (shortErr s.data.length s.term), { s with data := [] })

/-- `ReadUint64` (read.go:9-18). -/
def readUint64 : M Stream Nat := do
  let buf ← readFull 8
  pure (getUint64 buf)

/-- `ReadBool` (read.go:21-32). -/
def readBool : M Stream Bool := do
  let n ← readUint64
  if n ≠ 0 ∧ n ≠ 1 then M.fail (.msg "invalid value for boolean")
  else pure (n == 1)

/-- `readPadding` (read.go:36-59). -/
def readPadding (contentLength : Nat) : M Stream Unit :=
  if contentLength % 8 = 0 then pure ()
  else do
    let buf ← readFull (8 - contentLength % 8)
    if buf.all (· == 0) then pure ()
    else M.fail (.msg "invalid padding")

/-- The limit of `io.LimitReader(r, int64(contentLength))` (bytes_reader.go:25): conversion to
`int64` makes lengths from 2^63 on negative, and a negative limit reads as 0. -/
def limitOf (contentLength : Nat) : Nat := if contentLength < 2 ^ 63 then contentLength else 0

/-- `BytesReader.Close` (bytes_reader.go:44-59) with `rem` content bytes not yet read: read until
the limited reader reports an error; anything but `EOF` is returned; then the padding. -/
def bytesReaderClose (rem contentLength : Nat) : M Stream Unit := fun s =>
  if s.data.length < rem ∧ s.term ≠ .eof then (.err s.term, { s with data := [] })
  else readPadding contentLength { s with data := s.data.drop rem }

/-- `io.ReadFull(rd, buf)` on the limited reader and the deferred `rd.Close()` whose error is
dropped (read.go:90-98). The limited reader never delivers more than `rem`; here `k = rem`. -/
def readContent (contentLength : Nat) : M Stream Bytes := fun s =>
  match readFull contentLength s with
  | (r, s') =>
    let rem := contentLength - min contentLength s.data.length
    (r, (bytesReaderClose rem contentLength s').2)

/-- `ReadBytesFull` (read.go:78-99), including `ReadBytes` (read.go:64-72). `make([]byte, n)` panics
for `n` outside the range of `int`; running out of memory for smaller `n` is not modelled. -/
def readBytesFull (maxBytes : Nat) : M Stream Bytes := do
  let contentLength ← readUint64
  if contentLength > maxBytes then M.fail (.msg "content length exceeds maximum")
  else if 2 ^ 63 ≤ contentLength then M.panic
  else readContent contentLength

/-- `ReadString` (read.go:99-103). -/
def readString (maxBytes : Nat) : M Stream Bytes := readBytesFull maxBytes

/-! ## Fragmented readers

An `io.Reader` may return fewer bytes than asked for, may return `(0, nil)`, and may return its
last data together with the error. -/

/-- `chunks`: what successive `Read` calls with a large enough buffer return (an empty chunk is a
`(0, nil)` read); `term`: the error reported at the end; `eager`: whether the error comes together
with the last data. -/
structure FReader where
  chunks : List Bytes
  term : Err
  eager : Bool
  deriving DecidableEq, Repr

/-- `r.Read(p)` with `len(p) = k`: data, error, new state. -/
def FReader.read (r : FReader) (k : Nat) : (Bytes × Option Err) × FReader :=
  match r.chunks with
  | [] => (([], some r.term), r)
  | c :: cs =>
    if c.length ≤ k then
      if cs.isEmpty && r.eager then ((c, some r.term), { r with chunks := [] })
      else ((c, none), { r with chunks := cs })
    else ((c.take k, none), { r with chunks := c.drop k :: cs })

/-- A bound on the number of successful reads with a non-empty buffer. -/
def FReader.fuel (r : FReader) : Nat := r.chunks.flatten.length + r.chunks.length

/-- `io.ReadAtLeast(r, buf, min)` with `len(buf) = min = k` as in the Go library: loop while fewer
than `k` bytes were read and no error occurred. -/
def FReader.readLoop : Nat → FReader → Nat → Bytes → (Bytes × Option Err) × FReader
  | 0, r, _, acc => ((acc, none), r)
  | fuel + 1, r, k, acc =>
    if acc.length < k then
      match r.read (k - acc.length) with
      | ((d, none), r') => FReader.readLoop fuel r' k (acc ++ d)
      | ((d, some e), r') => ((acc ++ d, some e), r')
    else ((acc, none), r)

/-- `io.ReadFull`. -/
def FReader.readFull (k : Nat) : M FReader Bytes := fun r =>
  match FReader.readLoop (r.fuel + 1) r k [] with
  | ((d, e), r') =>
    if k ≤ d.length then (.ok d, r')
    else match e with
      | some e => (.err (shortErr d.length e), r')
      | none => (.err .io, r')

/-- `ReadUint64` on a fragmented reader (read.go:9-18). -/
def FReader.readUint64 : M FReader Nat := do
  let buf ← FReader.readFull 8
  pure (getUint64 buf)

/-- `ReadBool` on a fragmented reader (read.go:21-32). -/
def FReader.readBool : M FReader Bool := do
  let n ← FReader.readUint64
  if n ≠ 0 ∧ n ≠ 1 then M.fail (.msg "invalid value for boolean")
  else pure (n == 1)

/-- `readPadding` on a fragmented reader (read.go:36-59). -/
def FReader.readPadding (contentLength : Nat) : M FReader Unit :=
  if contentLength % 8 = 0 then pure ()
  else do
    let buf ← FReader.readFull (8 - contentLength % 8)
    if buf.all (· == 0) then pure ()
    else M.fail (.msg "invalid padding")

/-- `BytesReader` (bytes_reader.go:14-18): `rem` is the `N` field of the `io.LimitedReader`. -/
structure BytesReader where
  contentLength : Nat
  rem : Nat
  r : FReader
  deriving DecidableEq, Repr

/-- `NewBytesReader` (bytes_reader.go:22-28). -/
def newBytesReader (r : FReader) (contentLength : Nat) : BytesReader :=
  ⟨contentLength, limitOf contentLength, r⟩

/-- `BytesReader.Read` (bytes_reader.go:33-37) with `len(b) = k`, through `io.LimitedReader.Read`. -/
def BytesReader.read (br : BytesReader) (k : Nat) : (Bytes × Option Err) × BytesReader :=
  if br.rem = 0 then (([], some .eof), br)
  else
    match br.r.read (min k br.rem) with
    | ((d, e), r') => ((d, e), { br with rem := br.rem - d.length, r := r' })

/-- The loop of `BytesReader.Close` (bytes_reader.go:46-57). -/
def BytesReader.drain : Nat → BytesReader → Option Err × BytesReader
  | 0, br => (none, br)
  | fuel + 1, br =>
    match br.read 1024 with
    | ((_, none), br') => BytesReader.drain fuel br'
    | ((_, some e), br') => if e = .eof then (none, br') else (some e, br')

/-- `BytesReader.Close` (bytes_reader.go:44-59). -/
def BytesReader.close (br : BytesReader) : Res Unit × FReader :=
  match BytesReader.drain (br.r.fuel + 1) br with
  | (some e, br') => (.err e, br'.r)
  | (none, br') => FReader.readPadding br'.contentLength br'.r

/-- `io.ReadFull(rd, buf)` on a `BytesReader`, `len(buf) = k`. -/
def BytesReader.readLoop : Nat → BytesReader → Nat → Bytes → (Bytes × Option Err) × BytesReader
  | 0, br, _, acc => ((acc, none), br)
  | fuel + 1, br, k, acc =>
    if acc.length < k then
      match br.read (k - acc.length) with
      | ((d, none), br') => BytesReader.readLoop fuel br' k (acc ++ d)
      | ((d, some e), br') => ((acc ++ d, some e), br')
    else ((acc, none), br)

/-- `io.ReadFull(rd, buf)` followed by the deferred `rd.Close()` (read.go:90-98). -/
def FReader.readContent (contentLength : Nat) : M FReader Bytes := fun r =>
  match BytesReader.readLoop (r.fuel + 1) (newBytesReader r contentLength) contentLength [] with
  | ((d, e), br') =>
    let r' := (BytesReader.close br').2
    if contentLength ≤ d.length then (.ok d, r')
    else match e with
      | some e => (.err (shortErr d.length e), r')
      | none => (.err .io, r')

/-- `ReadBytesFull` on a fragmented reader (read.go:78-99). -/
def FReader.readBytesFull (maxBytes : Nat) : M FReader Bytes := do
  let contentLength ← FReader.readUint64
  if contentLength > maxBytes then M.fail (.msg "content length exceeds maximum")
  else if 2 ^ 63 ≤ contentLength then M.panic
  else FReader.readContent contentLength

end Verif.Wire
