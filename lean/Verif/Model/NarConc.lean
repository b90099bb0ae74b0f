import Verif.Conc
import Verif.Model.NarWriter

/-!
# Model of `pkg/nar` with its goroutines

`Model/Nar.lean` and `Model/NarWriter.lean` let the background goroutine of a `Reader` or `Writer` run only while the
caller waits for it. Here both are processes with channels that run at the same time; the functions are the same, line
by line, except that accesses to the shared memory (`nr.r`, `nr.contentReader`, `nw.w`, `nw.contentWriter`) are single steps. One call of
`wire.Read…` or `wire.Write…` counts as one access. The fields `err`, `previousHdrPath` (Reader) and `closed` (Writer) are used by
the caller's goroutine only.
-/

namespace Verif.Nar
open Verif.GoLib Verif.Wire Verif.Conc

/-! ## Reader -/

/-- The channels `next`, `headers`, `errors` (reader.go:38-46). -/
inductive RChan where
  | next
  | headers
  | errors
  deriving DecidableEq, Repr

/-- What is sent on them. -/
inductive RVal where
  | bool (b : Bool)
  | hdr (h : Header)
  | err (e : Err)
  deriving DecidableEq, Repr

/-- The parser. -/
abbrev RProg := Prog RState Header Bool

/-- A read from `nr.r` by the parser. -/
def rdP {α : Type} (m : M Stream α) : RProg α :=
  Prog.lift fun s => ((m s.stream).1, { s with stream := (m s.stream).2 })

/-- `nr.contentReader = contentReader` (reader.go:161, 208, 229). -/
def setContentP (n : Nat) : RProg Unit := Prog.lift fun s => (.ok (), { s with rem := n, len := n })

/-- `nr.contentReader.Close()` (reader.go:178). -/
def closeContentP : RProg Unit := Prog.lift fun s =>
  ((bytesReaderClose s.rem s.len s.stream).1,
    ⟨(bytesReaderClose s.rem s.len s.stream).2, s.rem - min s.rem s.stream.data.length, s.len⟩)

/-- reader.go:299-303 -/
def expectCloseP (tok : Bytes) : RProg Unit :=
  if tok = b!")" then pure () else Prog.fail (.msg "unexpected token, expected )")

/-- reader.go:147-187; the header is sent on `headers`, then `next` is received. -/
def parseContentsP (p : Bytes) (executable : Bool) (tok : Bytes) : RProg Unit :=
  if tok ≠ b!"contents" then Prog.fail (.msg "invalid token, expected contents")
  else do
    let n ← rdP readUint64
    if n > 2 ^ 63 - 1 then Prog.fail (.msg "content length is larger than MaxInt64")
    else do
      setContentP n
      let next ← Prog.hand ⟨p, typeRegular, [], n, executable⟩
      if !next then pure ()
      else do
        closeContentP
        let tok ← rdP (readString tokenLenMax)
        expectCloseP tok

/-- reader.go:122-187 -/
def parseRegularP (p : Bytes) : RProg Unit := do
  let tok ← rdP (readString (b!"executable").length)
  if tok = b!"executable" then do
    rdP readPlaceholder
    let tok ← rdP (readString tokenLenMax)
    parseContentsP p true tok
  else parseContentsP p false tok

/-- reader.go:189-224 -/
def parseSymlinkP (p : Bytes) : RProg Unit := do
  rdP (expectString b!"target")
  let target ← rdP (readString pathLenMax)
  setContentP 0
  let next ← Prog.hand ⟨p, typeSymlink, target, 0, false⟩
  if !next then pure ()
  else do
    let tok ← rdP (readString tokenLenMax)
    expectCloseP tok

mutual
/-- `parseNode` (reader.go:100-304). -/
def parseNodeP : Nat → Bytes → RProg Unit
  | 0, _ => Prog.fail outOfFuel
  | fuel + 1, p => do
    rdP (expectString b!"(")
    rdP (expectString b!"type")
    let tok ← rdP (readString tokenLenMax)
    if tok = b!"regular" then parseRegularP p
    else if tok = b!"symlink" then parseSymlinkP p
    else if tok = b!"directory" then do
      setContentP 0
      let next ← Prog.hand ⟨p, typeDirectory, [], 0, false⟩
      if !next then pure () else parseEntriesP fuel p
    else expectCloseP tok
/-- reader.go:245-296 -/
def parseEntriesP : Nat → Bytes → RProg Unit
  | 0, _ => Prog.fail outOfFuel
  | fuel + 1, p => do
    let tok ← rdP (readString tokenLenMax)
    if tok = b!"entry" then do
      rdP (expectString b!"(")
      rdP (expectString b!"name")
      let name ← rdP (readString nameLenMax)
      if !isValidNodeName name then Prog.fail (.msg "name is invalid")
      else do
        rdP (expectString b!"node")
        parseNodeP fuel (pathJoin p name)
        rdP (expectString b!")")
        if name = b!")" then pure () else parseEntriesP fuel p
    else if tok = b!")" then pure ()
    else parseEntriesP fuel p
end

/-- Processes of a `Reader`. -/
abbrev RProc := Proc RChan RVal RState ROut

/-- `close(narReader.headers); close(narReader.errors)` (reader.go:93-94). -/
def rTail : RProc := .close .headers (.close .errors .stop)

/-- The parser as a goroutine (reader.go:86-94): a header is sent on `headers`, then `next` is received (`false` when it is closed); at the end the
error, or `io.EOF`, is sent on `errors`. -/
def goR : RProg Unit → RProc
  | .ret (.ok _) => .send .errors (.err .eof) rTail
  | .ret (.err e) => .send .errors (.err e) rTail
  | .ret .panic => .crash
  | .act f k => .act f fun s => goR (k s)
  | .yield h k => .send .headers (.hdr h) (.recv [.next] fun _ v => goR (k (v = some (.bool true))))

/-- The goroutine of a `Reader` (reader.go:78-95). The first step only looks up the length of the input, the bound for the recursion. -/
def readerGo : RProc :=
  .recv [.next] fun _ v =>
    if v = some (.bool true) then .act id fun s => goR (parseNodeP (s.stream.data.length + 1) b!"/")
    else .stop

/-- `nr.contentReader.Read` (reader.go:354-356). -/
def contentRead (s : RState) (k : Nat) : Res Bytes × RState :=
  ((Reader.read ⟨s, .start, none, [], false⟩ k).1, (Reader.read ⟨s, .start, none, [], false⟩ k).2.st)

/-- A goroutine that calls these methods of a `Reader`, with the fields `err` and `previousHdrPath`: `Next` (reader.go:313-346), `Read`
(reader.go:354-356), `Close` (reader.go:359-366). A nil header from the closed channel would panic (`hdr.Path`); the last case, two nils from
`Next`, cannot be reached either (`C37_reader`). -/
def readerMain : List ROp → Option Err → Bytes → RProc
  | [], _, _ => .stop
  | .next :: ops, some e, prev => .emit (.next (.err e)) (readerMain ops (some e) prev)
  | .next :: ops, none, prev =>
    .send .next (.bool true) (.recv [.headers, .errors] fun c v =>
      match c, v with
      | .headers, some (.hdr h) =>
        if pathIsLexicographicallyOrdered prev h.path then .emit (.next (.ok h)) (readerMain ops none h.path)
        else .emit (.next (.err (.msg "received header in the wrong order")))
          (readerMain ops (some (.msg "received header in the wrong order")) prev)
      | .errors, some (.err e) => .emit (.next (.err e)) (readerMain ops (some e) prev)
      | _, _ => .crash)
  | .read k :: ops, err, prev =>
    .act (fun s => (contentRead s k).2) fun s => .emit (.read (contentRead s k).1) (readerMain ops err prev)
  | .close :: ops, err, prev =>
    if err = some .eof then .emit (.close (.ok ())) (readerMain ops err prev)
    else .close .next (.emit (.close (.ok ())) (readerMain ops err prev))

/-- A process that has just created a `Reader` (reader.go:66-97), with the memory `s`, and is going to make these calls. -/
def readerInit (s : RState) (ops : List ROp) : Conf RChan RVal RState ROut :=
  ⟨readerMain ops none [], readerGo, fun _ => false, s, []⟩

/-! ## Writer -/

/-- The channels `headers`, `doneWritingHeader`, `errors` (writer.go:20-28). -/
inductive WChan where
  | headers
  | done
  | errors
  deriving DecidableEq, Repr

/-- What is sent on them. -/
inductive WVal where
  | hdr (h : Header)
  | unit
  | err (e : Err)
  deriving DecidableEq, Repr

/-- `emitNode`; it waits for a header or, `none`, for the closing of `headers`. -/
abbrev WProg := Prog WState Unit (Option Header)

/-- A write to `nw.w` by the goroutine. -/
def wrP {α : Type} (m : M Sink α) : WProg α := Prog.lift (wr m)

/-- writer.go:89-154 -/
def emitStartP (h : Header) : WProg Unit := do
  wrP (writeString b!"(")
  wrP (writeString b!"type")
  wrP (writeString h.typ)
  if h.typ = typeRegular then do
    if h.executable then do
      wrP (writeString b!"executable")
      wrP (writeBytes [])
      wrP (writeString b!"contents")
      Prog.lift (setContentWriter (toUint64 h.size))
    else do
      wrP (writeString b!"contents")
      Prog.lift (setContentWriter (toUint64 h.size))
  else if h.typ = typeSymlink then do
    wrP (writeString b!"target")
    wrP (writeString h.linkTarget)
    Prog.lift setDummyWriter
  else if h.typ = typeDirectory then Prog.lift setDummyWriter
  else pure ()

/-- writer.go:242-269 -/
def entryStartP (name : Bytes) : WProg Unit := do
  wrP (writeString b!"entry")
  wrP (writeString b!"(")
  wrP (writeString b!"name")
  wrP (writeString name)
  wrP (writeString b!"node")

mutual
/-- `emitNode` (writer.go:89-287): the header it was called with; it returns the header that its caller has to deal with. The number bounds the
recursion; above twice the number of headers written it is never exhausted. -/
def emitNodeP : Nat → Header → WProg (Option Header)
  | 0, _ => .ret .panic
  | fuel + 1, cur => do
    emitStartP cur
    let next ← Prog.hand ()
    Prog.lift contentClose
    match next with
    | none => do
      wrP (writeString b!")")
      pure none
    | some h => emitLoopP fuel cur (some h)
/-- The loop of `emitNode` (writer.go:183-286). -/
def emitLoopP : Nat → Header → Option Header → WProg (Option Header)
  | 0, _, _ => .ret .panic
  | _ + 1, _, none => do
    wrP (writeString b!")")
    pure none
  | fuel + 1, cur, some h => do
    let p ← Prog.ret (place cur h)
    match p with
    | none => do
      wrP (writeString b!")")
      pure (some h)
    | some name => do
      entryStartP name
      let next ← emitNodeP fuel h
      wrP (writeString b!")")
      emitLoopP fuel cur next
end

/-- Processes of a `Writer`. -/
abbrev WProc := Proc WChan WVal WState WOut

/-- A header, or `none` for a closed channel. -/
def toHeader : Option WVal → Option Header
  | some (.hdr h) => some h
  | _ => none

/-- An error is sent, then `errors` is closed. -/
def wTail (e : Err) : WProc := .send .errors (.err e) (.close .errors .stop)

/-- `emitNode` as a goroutine (writer.go:70-80): `doneWritingHeader` is sent, then a header is received. -/
def goW : WProg (Option Header) → WProc
  | .ret (.ok none) => .close .errors .stop
  | .ret (.ok (some _)) => wTail (.msg "additional header detected")
  | .ret (.err e) => wTail e
  | .ret .panic => .crash
  | .act f k => .act f fun s => goW (k s)
  | .yield _ k => .send .done .unit (.recv [.headers] fun _ v => goW (k (toHeader v)))

/-- The goroutine of a `Writer` (writer.go:49-81). -/
def writerGo (fuel : Nat) : WProc :=
  .recv [.headers] fun _ v =>
    match toHeader v with
    | none => wTail (.msg "unexpected Close()")
    | some h =>
      if h.path ≠ b!"/" then wTail (.msg "first header always needs to have a / as path")
      else goW (emitNodeP fuel h)

/-- `nw.contentWriter.Write` (writer.go:318-320). -/
def contentWrite (s : WState) (p : Bytes) : Call (Nat × Option Err) × WState :=
  ((Writer.write ⟨s, .start, false⟩ p).1, (Writer.write ⟨s, .start, false⟩ p).2.st)

/-- A goroutine that calls these methods of a `Writer`, with the field `closed`: `WriteHeader` (writer.go:296-309), `Write` (writer.go:318-320),
`Close` (writer.go:325-337). -/
def writerMain : List WOp → Bool → WProc
  | [], _ => .stop
  | .header h :: ops, closed =>
    match h.validate with
    | .err _ => .emit (.unit (.err (.msg "unable to write header"))) (writerMain ops closed)
    | .panic => .crash
    | .ok () =>
      .send .headers (.hdr h) (.recv [.errors, .done] fun c v =>
        match c, v with
        | .errors, some (.err e) => .emit (.unit (.err e)) (writerMain ops closed)
        | .errors, none => .emit (.unit (.ok ())) (writerMain ops closed)
        | .done, some .unit => .emit (.unit (.ok ())) (writerMain ops closed)
        | _, _ => .crash)
  | .write p :: ops, closed =>
    .act (fun s => (contentWrite s p).2) fun s =>
      match (contentWrite s p).1 with
      | .ok r => .emit (.write (.ok r)) (writerMain ops closed)
      | _ => .crash
  | .close :: ops, closed =>
    if closed then .emit (.unit (.err (.msg "already closed"))) (writerMain ops closed)
    else .close .headers (.recv [.errors] fun _ v =>
      match v with
      | some (.err e) => .emit (.unit (.err e)) (writerMain ops true)
      | none => .emit (.unit (.ok ())) (writerMain ops true)
      | _ => .crash)

/-- A process that has just created a `Writer` (writer.go:39-83), with the memory `s`, and is going to make these calls. -/
def writerInit (fuel : Nat) (s : WState) (ops : List WOp) : Conf WChan WVal WState WOut :=
  ⟨writerMain ops false, writerGo fuel, fun _ => false, s, []⟩

end Verif.Nar
