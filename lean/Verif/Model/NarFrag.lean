import Verif.Model.Nar

/-!
# `nar.Reader` on an `io.Reader` that delivers its data in arbitrary pieces

The same functions as in `Verif.Model.Nar`, line by line, but over `Verif.Wire.FReader`: the
underlying reader may return fewer bytes than asked for, `(0, nil)`, or its last data together with
its error. What the goroutine and the caller share is the `wire.BytesReader` of the current entry
(`Verif.Wire.BytesReader`, whose field `r` is `nr.r`); the dummy reader of directories and symlinks is
one of length 0. Property C121 relates the two models.
-/

namespace Verif.Nar
open Verif.GoLib Verif.Wire

/-- The parser goroutine (reader.go:78-95). -/
abbrev FCoro := Coro BytesReader Header Bool

/-- A read from `nr.r` by the parser. -/
def frd {α : Type} (m : M FReader α) : FCoro α :=
  Coro.lift fun b => ((m b.r).1, { b with r := (m b.r).2 })

/-- `expectString` (reader.go:370-385); `wire.ReadString` (wire/read.go:98-103) is `ReadBytesFull`. -/
def fexpectString (e : Bytes) : M FReader Unit := fun r =>
  match FReader.readBytesFull e.length r with
  | (.ok t, r') => if t ≠ e then (.err (.msg "expected other string"), r') else (.ok (), r')
  | (.err er, r') => (.err (if er = .eof then .unexpectedEOF else er), r')
  | (.panic, r') => (.panic, r')

/-- `nr.contentReader = contentReader` (reader.go:161, 203, 228). -/
def fsetContent (n : Nat) : FCoro Unit := ⟨fun b => .done (.ok ()) (newBytesReader b.r n)⟩

/-- `nr.contentReader.Close()` (reader.go:178; bytes_reader.go:44-59). -/
def fcloseContent : FCoro Unit := ⟨fun b =>
  .done b.close.1 ⟨b.contentLength, (BytesReader.drain (b.r.fuel + 1) b).2.rem, b.close.2⟩⟩

/-- `if currentToken != ")"` (reader.go:299-303). -/
def fexpectClose (tok : Bytes) : FCoro Unit :=
  if tok = b!")" then pure () else Coro.fail (.msg "unexpected token, expected )")

/-- Case "regular" from the `contents` token on (reader.go:147-187). -/
def fparseContents (p : Bytes) (executable : Bool) (tok : Bytes) : FCoro Unit :=
  if tok ≠ b!"contents" then Coro.fail (.msg "invalid token, expected contents")
  else do
    let n ← frd FReader.readUint64
    if n > 2 ^ 63 - 1 then Coro.fail (.msg "content length is larger than MaxInt64")
    else do
      fsetContent n
      let next ← Coro.yield ⟨p, typeRegular, [], n, executable⟩
      if !next then pure ()
      else do
        fcloseContent
        let tok ← frd (FReader.readBytesFull tokenLenMax)
        fexpectClose tok

/-- The placeholder after `executable` (reader.go:134-139). -/
def freadPlaceholder : M FReader Unit := fun r =>
  match FReader.readBytesFull 0 r with
  | (.ok _, r') => (.ok (), r')
  | (.err _, r') => (.err (.msg "error reading placeholder"), r')
  | (.panic, r') => (.panic, r')

/-- Case "regular" (reader.go:122-187). -/
def fparseRegular (p : Bytes) : FCoro Unit := do
  let tok ← frd (FReader.readBytesFull (b!"executable").length)
  if tok = b!"executable" then do
    frd freadPlaceholder
    let tok ← frd (FReader.readBytesFull tokenLenMax)
    fparseContents p true tok
  else fparseContents p false tok

/-- Case "symlink" (reader.go:189-224). -/
def fparseSymlink (p : Bytes) : FCoro Unit := do
  frd (fexpectString b!"target")
  let target ← frd (FReader.readBytesFull pathLenMax)
  fsetContent 0
  let next ← Coro.yield ⟨p, typeSymlink, target, 0, false⟩
  if !next then pure ()
  else do
    let tok ← frd (FReader.readBytesFull tokenLenMax)
    fexpectClose tok

mutual
/-- `parseNode` (reader.go:100-304); the first argument bounds the recursion, as in
`Verif.Nar.parseNode`. -/
def fparseNode : Nat → Bytes → FCoro Unit
  | 0, _ => Coro.fail outOfFuel
  | fuel + 1, p => do
    frd (fexpectString b!"(")
    frd (fexpectString b!"type")
    let tok ← frd (FReader.readBytesFull tokenLenMax)
    if tok = b!"regular" then fparseRegular p
    else if tok = b!"symlink" then fparseSymlink p
    else if tok = b!"directory" then do
      fsetContent 0
      let next ← Coro.yield ⟨p, typeDirectory, [], 0, false⟩
      if !next then pure () else fparseEntries fuel p
    else fexpectClose tok
/-- The loop over the directory entries (reader.go:245-296). -/
def fparseEntries : Nat → Bytes → FCoro Unit
  | 0, _ => Coro.fail outOfFuel
  | fuel + 1, p => do
    let tok ← frd (FReader.readBytesFull tokenLenMax)
    if tok = b!"entry" then do
      frd (fexpectString b!"(")
      frd (fexpectString b!"name")
      let name ← frd (FReader.readBytesFull nameLenMax)
      if !isValidNodeName name then Coro.fail (.msg "name is invalid")
      else do
        frd (fexpectString b!"node")
        fparseNode fuel (pathJoin p name)
        frd (fexpectString b!")")
        if name = b!")" then pure () else fparseEntries fuel p
    else if tok = b!")" then pure ()
    else fparseEntries fuel p
end

/-- Where the goroutine is (reader.go:78-95), as in `Verif.Nar.Phase`. -/
inductive FPhase where
  | start
  | waiting (k : Bool → BytesReader → Step BytesReader Header Bool Unit)
  | finished
  | stuck

/-- `Reader` (reader.go:31-55) with its goroutine, as in `Verif.Nar.Reader`. -/
structure FNarReader where
  st : BytesReader
  phase : FPhase
  err : Option Err
  prev : Bytes
  closed : Bool

/-- `NewReader` (reader.go:59-98). -/
def newFNarReader : M FReader FNarReader := fun r =>
  match fexpectString narVersionMagic1 r with
  | (.ok (), r') => (.ok ⟨⟨0, 0, r'⟩, .start, none, [], false⟩, r')
  | (.err _, r') => (.err (.msg "invalid nar version magic"), r')
  | (.panic, r') => (.panic, r')

/-- What the goroutine does after receiving `true` on `next` (reader.go:78-95). -/
def FNarReader.resume (r : FNarReader) : Option (Step BytesReader Header Bool Unit) :=
  match r.phase with
  | .start => some ((fparseNode (r.st.r.chunks.flatten.length + 1) b!"/").run r.st)
  | .waiting k => some (k true r.st)
  | .finished => none
  | .stuck => none

/-- The `select` of `Next` (reader.go:323-345). -/
def FNarReader.receive (r : FNarReader) : Step BytesReader Header Bool Unit → Call Header × FNarReader
  | .yield h st k =>
    if pathIsLexicographicallyOrdered r.prev h.path then
      (.ok h, { r with st := st, phase := .waiting k, prev := h.path })
    else
      (.err (.msg "received header in the wrong order"),
        { r with st := st, phase := .waiting k, err := some (.msg "received header in the wrong order") })
  | .done (.ok ()) st => (.err .eof, { r with st := st, phase := .finished, err := some .eof })
  | .done (.err e) st => (.err e, { r with st := st, phase := .finished, err := some e })
  | .done .panic st => (.panic, { r with st := st, phase := .finished })

/-- `Next` (reader.go:313-346). -/
def FNarReader.next (r : FNarReader) : Call Header × FNarReader :=
  match r.err with
  | some e => (.err e, r)
  | none =>
    if r.closed then (.panic, r)
    else match r.resume with
      | none => (.block, r)
      | some st => r.receive st

/-- `Read` (reader.go:354-356) with a buffer of `k` bytes: what `nr.contentReader.Read` returns, data
and error. -/
def FNarReader.read (r : FNarReader) (k : Nat) : (Bytes × Option Err) × FNarReader :=
  ((r.st.read k).1, { r with st := (r.st.read k).2 })

/-- The shared state when a goroutine stops at a channel operation or returns. -/
def fstate {Y I α : Type} : Step BytesReader Y I α → BytesReader
  | .done _ st => st
  | .yield _ st _ => st

/-- `Close` (reader.go:359-366), as in `Verif.Nar.Reader.close`. -/
def FNarReader.close (r : FNarReader) : Call Unit × FNarReader :=
  if r.err = some .eof then (.ok (), r)
  else if r.closed then (.panic, r)
  else match r.phase with
    | .waiting k =>
      (.ok (), { r with closed := true, phase := .stuck, st := fstate (k false r.st) })
    | .stuck => (.ok (), { r with closed := true })
    | _ => (.ok (), { r with closed := true, phase := .finished })

/-- What a call returned; `Read` returns data and error. -/
inductive FROut where
  | next (r : Call Header)
  | read (d : Bytes) (e : Option Err)
  | close (r : Call Unit)
  deriving DecidableEq, Repr

/-- One call. -/
def FNarReader.op (r : FNarReader) : ROp → FROut × FNarReader
  | .next => (.next r.next.1, r.next.2)
  | .read k => (.read (r.read k).1.1 (r.read k).1.2, (r.read k).2)
  | .close => (.close r.close.1, r.close.2)

/-- A sequence of calls: what they returned, and the reader afterwards. -/
def FNarReader.run (r : FNarReader) : List ROp → List FROut × FNarReader
  | [] => ([], r)
  | o :: os => ((r.op o).1 :: ((r.op o).2.run os).1, ((r.op o).2.run os).2)

end Verif.Nar
