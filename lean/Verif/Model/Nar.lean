import Verif.GoPath
import Verif.Coro
import Verif.Model.Wire

/-!
# Model of `pkg/nar`: headers, path utilities, Reader
-/

namespace Verif.Nar
open Verif.GoLib Verif.Wire

/-- `Header` (header.go:13-19). `Type` is a string in Go too. -/
structure Header where
  path : Bytes
  typ : Bytes
  linkTarget : Bytes
  size : Int
  executable : Bool
  deriving DecidableEq, Repr

/-- `TypeRegular`, `TypeDirectory`, `TypeSymlink` (types.go:9-15). -/
def typeRegular : Bytes := b!"regular"
@[inherit_doc typeRegular] def typeDirectory : Bytes := b!"directory"
@[inherit_doc typeRegular] def typeSymlink : Bytes := b!"symlink"

/-- `Header.Validate` (header.go:24-61); `ToSlash` is the identity on Unix. -/
def Header.validate (h : Header) : Res Unit :=
  if h.path.length < 1 ∨ h.path.take 1 ≠ b!"/" then .err (.msg "path must start with a /")
  else if h.path.contains 0 then .err (.msg "path may not contain null bytes")
  else if (h.typ = typeRegular ∨ h.typ = typeDirectory) ∧ h.linkTarget ≠ [] then
    .err (.msg "LinkTarget is not empty")
  else if (h.typ = typeDirectory ∨ h.typ = typeSymlink) ∧ h.size ≠ 0 then
    .err (.msg "Size is not 0")
  else if (h.typ = typeDirectory ∨ h.typ = typeSymlink) ∧ h.executable then
    .err (.msg "Executable is true")
  else if h.typ = typeSymlink ∧ h.linkTarget = [] then .err (.msg "LinkTarget is empty")
  else .ok ()

/-- `fs.ModeDir`, `fs.ModeSymlink`, `fs.ModePerm` of the Go library. -/
def modeDir : Nat := 2 ^ 31
@[inherit_doc modeDir] def modeSymlink : Nat := 2 ^ 27
@[inherit_doc modeDir] def modePerm : Nat := 0o777

/-- `headerFileInfo.Mode` (header_mode.go:11-29). -/
def Header.mode (h : Header) : Nat :=
  if h.typ = typeRegular then
    if h.executable then (0o400 ||| 0o040 ||| 0o004) ||| (0o100 ||| 0o010 ||| 0o001)
    else 0o400 ||| 0o040 ||| 0o004
  else if h.typ = typeDirectory then
    (0o400 ||| 0o040 ||| 0o004) ||| (0o100 ||| 0o010 ||| 0o001)
  else if h.typ = typeSymlink then modePerm ||| modeSymlink
  else 0

/-- `headerFileInfo.Mode` on Windows (header_mode_windows.go:7-25); `mode & ^fs.FileMode(0o200)`, on 32 bits. -/
def Header.modeWindows (h : Header) : Nat :=
  (if h.typ = typeRegular then modePerm
   else if h.typ = typeDirectory then modeDir
   else if h.typ = typeSymlink then modeSymlink
   else 0) &&& (2 ^ 32 - 1 - 0o200)

/-- `headerFileInfo.IsDir` (header.go:73). -/
def Header.isDir (h : Header) : Bool := h.typ = typeDirectory

/-- `headerFileInfo.Size` (header.go:72). -/
def Header.fiSize (h : Header) : Int := h.size

/-- `headerFileInfo.Name` (header.go:79); `FileInfo` (header.go:64-66) wraps the header. -/
def Header.fiName (h : Header) : Bytes := h.path

/-- `headerFileInfo.ModTime` (header.go:74): `time.Unix(0, 0)`, in nanoseconds. -/
def Header.fiModTime (_ : Header) : Int := 0

/-- `headerFileInfo.Sys` (header.go:75). -/
def Header.fiSys (h : Header) : Header := h

/-- `IsValidNodeName` (util.go:7-9). -/
def isValidNodeName (n : Bytes) : Bool := !contains n b!"/" && !n.contains 0

/-- The loop of `PathIsLexicographicallyOrdered` (util.go:25-35); `none` when it ends without a
decision. -/
def orderLoop : Bytes → Bytes → Option Bool
  | a :: p, b :: q =>
    if a = b then orderLoop p q
    else if a = 47 ∧ b ≠ 47 then some true
    else some (decide (a < b))
  | _, _ => none

/-- `PathIsLexicographicallyOrdered` (util.go:12-39). -/
def pathIsLexicographicallyOrdered (p q : Bytes) : Bool :=
  if strLe p q then true
  else match orderLoop p q with
    | some r => r
    | none => decide (q.length ≥ p.length)

/-! ## Reader -/

/-- What the goroutine and the caller share: the underlying reader `nr.r` and the content reader
`nr.contentReader`, a `BytesReader` with `rem` content bytes unread of `len` (the dummy reader for
symlinks and directories has `rem = len = 0`). -/
structure RState where
  stream : Stream
  rem : Nat
  len : Nat
  deriving DecidableEq, Repr

/-- The parser goroutine: hands headers to the caller, waits for `next`. -/
abbrev RCoro := Coro RState Header Bool

/-- A read from `nr.r` by the parser. -/
def rd {α : Type} (m : M Stream α) : RCoro α :=
  Coro.lift fun s => ((m s.stream).1, { s with stream := (m s.stream).2 })

/-- `expectString` (reader.go:370-385). -/
def expectString (e : Bytes) : M Stream Unit := fun s =>
  match readString e.length s with
  | (.ok t, s') => if t ≠ e then (.err (.msg "expected other string"), s') else (.ok (), s')
  | (.err er, s') => (.err (if er = .eof then .unexpectedEOF else er), s')
  | (.panic, s') => (.panic, s')

/-- `tokenLenMax`, `nameLenMax`, `pathLenMax` (reader.go:13-23). -/
def tokenLenMax : Nat := 32
@[inherit_doc tokenLenMax] def nameLenMax : Nat := 255
@[inherit_doc tokenLenMax] def pathLenMax : Nat := 4096 - 1

/-- `narVersionMagic1` (types.go:3). -/
def narVersionMagic1 : Bytes := b!"nix-archive-1"

/-- `nr.contentReader = contentReader` for content of length `n`. -/
def setContent (n : Nat) : RCoro Unit := ⟨fun s => .done (.ok ()) { s with rem := n, len := n }⟩

/-- `nr.contentReader.Close()` (reader.go:178; bytes_reader.go:44-59): the content left over is
skipped, then the padding is read. -/
def closeContent : RCoro Unit := ⟨fun s =>
  .done (bytesReaderClose s.rem s.len s.stream).1
    ⟨(bytesReaderClose s.rem s.len s.stream).2, s.rem - min s.rem s.stream.data.length, s.len⟩⟩

/-- `if currentToken != ")" { return fmt.Errorf(...) }; return nil` (reader.go:299-303). -/
def expectClose (tok : Bytes) : RCoro Unit :=
  if tok = b!")" then pure () else Coro.fail (.msg "unexpected token, expected )")

/-- The part of case "regular" from the `contents` token on (reader.go:147-187). -/
def parseContents (p : Bytes) (executable : Bool) (tok : Bytes) : RCoro Unit :=
  if tok ≠ b!"contents" then Coro.fail (.msg "invalid token, expected contents")
  else do
    let n ← rd readUint64
    if n > 2 ^ 63 - 1 then Coro.fail (.msg "content length is larger than MaxInt64")
    else do
      setContent n
      let next ← Coro.yield ⟨p, typeRegular, [], n, executable⟩
      if !next then pure ()
      else do
        closeContent
        let tok ← rd (readString tokenLenMax)
        expectClose tok

/-- The placeholder after `executable` (reader.go:134-139); the error is wrapped, so it is not
`io.EOF` any more. -/
def readPlaceholder : M Stream Unit := fun s =>
  match readBytesFull 0 s with
  | (.ok _, s') => (.ok (), s')
  | (.err _, s') => (.err (.msg "error reading placeholder"), s')
  | (.panic, s') => (.panic, s')

/-- Case "regular" (reader.go:122-187). -/
def parseRegular (p : Bytes) : RCoro Unit := do
  let tok ← rd (readString (b!"executable").length)
  if tok = b!"executable" then do
    rd readPlaceholder
    let tok ← rd (readString tokenLenMax)
    parseContents p true tok
  else parseContents p false tok

/-- Case "symlink" (reader.go:189-224). -/
def parseSymlink (p : Bytes) : RCoro Unit := do
  rd (expectString b!"target")
  let target ← rd (readString pathLenMax)
  setContent 0
  let next ← Coro.yield ⟨p, typeSymlink, target, 0, false⟩
  if !next then pure ()
  else do
    let tok ← rd (readString tokenLenMax)
    expectClose tok

/-- The error of the model when its recursion bound is exhausted; never reached from
`Reader.next` (`parseNode_fuel`). -/
def outOfFuel : Err := .msg "model: out of fuel"

mutual
/-- `parseNode` (reader.go:100-304). The first argument bounds the recursion; a bound above the
number of bytes left is never exhausted. A type label `)` ends the switch without a case and passes
the final check. -/
def parseNode : Nat → Bytes → RCoro Unit
  | 0, _ => Coro.fail outOfFuel
  | fuel + 1, p => do
    rd (expectString b!"(")
    rd (expectString b!"type")
    let tok ← rd (readString tokenLenMax)
    if tok = b!"regular" then parseRegular p
    else if tok = b!"symlink" then parseSymlink p
    else if tok = b!"directory" then do
      setContent 0
      let next ← Coro.yield ⟨p, typeDirectory, [], 0, false⟩
      if !next then pure () else parseEntries fuel p
    else expectClose tok
/-- The loop over the directory entries (reader.go:245-296). Other tokens than `entry` and `)` are
skipped; after an entry `currentToken` is its name. -/
def parseEntries : Nat → Bytes → RCoro Unit
  | 0, _ => Coro.fail outOfFuel
  | fuel + 1, p => do
    let tok ← rd (readString tokenLenMax)
    if tok = b!"entry" then do
      rd (expectString b!"(")
      rd (expectString b!"name")
      let name ← rd (readString nameLenMax)
      if !isValidNodeName name then Coro.fail (.msg "name is invalid")
      else do
        rd (expectString b!"node")
        parseNode fuel (pathJoin p name)
        rd (expectString b!")")
        if name = b!")" then pure () else parseEntries fuel p
    else if tok = b!")" then pure ()
    else parseEntries fuel p
end

/-- Where the goroutine of a `Reader` is (reader.go:78-95): waiting for the first `next`, waiting
for a further `next` inside `parseNode`, returned, or blocked forever in a channel send that nobody
will receive. -/
inductive Phase where
  | start
  | waiting (k : Bool → RState → Step RState Header Bool Unit)
  | finished
  | stuck

/-- `Reader` (reader.go:31-55) together with its goroutine; `closed`: the channel `next` is
closed. -/
structure Reader where
  st : RState
  phase : Phase
  err : Option Err
  prev : Bytes
  closed : Bool

/-- `NewReader` (reader.go:59-98). -/
def newReader : M Stream Reader := fun s =>
  match expectString narVersionMagic1 s with
  | (.ok (), s') => (.ok ⟨⟨s', 0, 0⟩, .start, none, [], false⟩, s')
  | (.err _, s') => (.err (.msg "invalid nar version magic"), s')
  | (.panic, s') => (.panic, s')

/-- What the goroutine does after receiving `true` on `next`. -/
def Reader.resume (r : Reader) : Option (Step RState Header Bool Unit) :=
  match r.phase with
  | .start => some ((parseNode (r.st.stream.data.length + 1) b!"/").run r.st)
  | .waiting k => some (k true r.st)
  | .finished => none
  | .stuck => none

/-- The `select` of `Next` (reader.go:323-345) on what the goroutine sends: a header, or the error
it ended with (`io.EOF` when `parseNode` returned nil, reader.go:86-91). -/
def Reader.receive (r : Reader) : Step RState Header Bool Unit → Call Header × Reader
  | .yield h st k =>
    if pathIsLexicographicallyOrdered r.prev h.path then
      (.ok h, { r with st := st, phase := .waiting k, prev := h.path })
    else
      (.err (.msg "received header in the wrong order"),
        { r with st := st, phase := .waiting k, err := some (.msg "received header in the wrong order") })
  | .done (.ok ()) st => (.err .eof, { r with st := st, phase := .finished, err := some .eof })
  | .done (.err e) st => (.err e, { r with st := st, phase := .finished, err := some e })
  | .done .panic st => (.panic, { r with st := st, phase := .finished })

/-- `Next` (reader.go:313-346). Sending on the closed channel panics. -/
def Reader.next (r : Reader) : Call Header × Reader :=
  match r.err with
  | some e => (.err e, r)
  | none =>
    if r.closed then (.panic, r)
    else match r.resume with
      | none => (.block, r)
      | some st => r.receive st

/-- `Read` (reader.go:354-356) with a buffer of `k` bytes: up to `k` bytes of the content; `io.EOF`
when none is left. Short reads of the underlying reader are not modelled here (see C17, C19). -/
def Reader.read (r : Reader) (k : Nat) : Res Bytes × Reader :=
  if r.st.rem = 0 then (.err .eof, r)
  else
    let d := r.st.stream.data.take (min k r.st.rem)
    if d = [] ∧ k ≠ 0 then (.err r.st.stream.term, r)
    else
      (.ok d, { r with st := ⟨⟨r.st.stream.data.drop d.length, r.st.stream.term⟩,
        r.st.rem - d.length, r.st.len⟩ })

/-- The shared state when a goroutine stops at a channel operation or returns. -/
def Step.state {Y I α : Type} : Step RState Y I α → RState
  | .done _ st => st
  | .yield _ st _ => st

/-- `Close` (reader.go:359-366). After `close(next)` a goroutine waiting for the first `next`
returns; one waiting inside `parseNode` goes on (with `false`), possibly reading more of the archive,
until it tries to send a header or its final error; nothing receives from it any more. -/
def Reader.close (r : Reader) : Call Unit × Reader :=
  if r.err = some .eof then (.ok (), r)
  else if r.closed then (.panic, r)
  else match r.phase with
    | .waiting k =>
      (.ok (), { r with closed := true, phase := .stuck, st := Step.state (k false r.st) })
    | .stuck => (.ok (), { r with closed := true })
    | _ => (.ok (), { r with closed := true, phase := .finished })

/-- A call on a `Reader`; the number is the size of the buffer. -/
inductive ROp where
  | next
  | read (k : Nat)
  | close
  deriving DecidableEq, Repr

/-- What a call on a `Reader` returned. -/
inductive ROut where
  | next (r : Call Header)
  | read (r : Res Bytes)
  | close (r : Call Unit)
  deriving DecidableEq, Repr

/-- One call. -/
def Reader.op (r : Reader) : ROp → ROut × Reader
  | .next => (.next r.next.1, r.next.2)
  | .read k => (.read (r.read k).1, (r.read k).2)
  | .close => (.close r.close.1, r.close.2)

/-- A sequence of calls: what they returned, and the reader afterwards. (A caller whose call panics
or blocks does not get to the next one; the list simply goes on.) -/
def Reader.run (r : Reader) : List ROp → List ROut × Reader
  | [] => ([], r)
  | o :: os => ((r.op o).1 :: ((r.op o).2.run os).1, ((r.op o).2.run os).2)

end Verif.Nar
