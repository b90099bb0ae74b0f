import Verif.Model.Nar

/-!
# Model of `pkg/nar`: Writer

The goroutine of a `Writer` is the recursive function `emitNode`; between two calls of the API it
is blocked in the one receive of `emitNode`, so its call stack is described by the headers of the
activations, innermost first. The Lean functions below are `emitNode` cut at that receive.
-/

namespace Verif.Nar
open Verif.GoLib Verif.Wire

/-- `nw.contentWriter`: a `BytesWriter` on `nw.w`, or (`dummy`) one on a buffer that nobody reads
(writer.go:145-149). -/
structure CW where
  bw : BytesWriter
  dummy : Bool
  deriving DecidableEq, Repr

/-- What the goroutine and the caller share: `nw.w` and `nw.contentWriter` (`none`: nil). -/
structure WState where
  sink : Sink
  cw : Option CW
  deriving DecidableEq, Repr

/-- A write to `nw.w` by the goroutine. -/
def wr {α : Type} (m : M Sink α) : M WState α := fun s =>
  ((m s.sink).1, { s with sink := (m s.sink).2 })

/-- `nw.contentWriter, err = wire.NewBytesWriter(nw.w, n)` (writer.go:122-125). After a failure the
content writer is nil. -/
def setContentWriter (n : Nat) : M WState Unit := fun s =>
  match newBytesWriter n s.sink with
  | (.ok bw, w') => (.ok (), ⟨w', some ⟨bw, false⟩⟩)
  | (.err e, w') => (.err e, ⟨w', none⟩)
  | (.panic, w') => (.panic, ⟨w', none⟩)

/-- The dummy content writer of symlinks and directories (writer.go:145-152); writing to a
`bytes.Buffer` does not fail. -/
def setDummyWriter : M WState Unit := fun s => (.ok (), { s with cw := some ⟨⟨0, 0, false⟩, true⟩ })

/-- `uint64(currentHeader.Size)` (writer.go:122). -/
def toUint64 (n : Int) : Nat := (n % 2 ^ 64).toNat

/-- `emitNode` up to `nw.doneWritingHeader <- struct{}{}` (writer.go:89-157); `ToSlash` is the
identity on Unix. -/
def emitStart (h : Header) : M WState Unit := do
  wr (writeString b!"(")
  wr (writeString b!"type")
  wr (writeString h.typ)
  if h.typ = typeRegular then do
    if h.executable then do
      wr (writeString b!"executable")
      wr (writeBytes [])
      wr (writeString b!"contents")
      setContentWriter (toUint64 h.size)
    else do
      wr (writeString b!"contents")
      setContentWriter (toUint64 h.size)
  else if h.typ = typeSymlink then do
    wr (writeString b!"target")
    wr (writeString h.linkTarget)
    setDummyWriter
  else if h.typ = typeDirectory then setDummyWriter
  else pure ()

/-- `nw.contentWriter.Close()` (writer.go:166-169). -/
def contentClose : M WState Unit := fun s =>
  match s.cw with
  | none => (.panic, s)
  | some c =>
    if c.dummy then
      match c.bw.close ⟨[], none⟩ with
      | (none, bw', _) => (.ok (), { s with cw := some ⟨bw', true⟩ })
      | (some e, bw', _) => (.err e, { s with cw := some ⟨bw', true⟩ })
    else
      match c.bw.close s.sink with
      | (none, bw', w') => (.ok (), ⟨w', some ⟨bw', false⟩⟩)
      | (some e, bw', w') => (.err e, ⟨w', some ⟨bw', false⟩⟩)

/-- The tokens before the node of an entry (writer.go:242-269). -/
def entryStart (name : Bytes) : M WState Unit := do
  wr (writeString b!"entry")
  wr (writeString b!"(")
  wr (writeString b!"name")
  wr (writeString name)
  wr (writeString b!"node")

/-- One activation of `emitNode` with header `cur` looks at the header `h` it received
(writer.go:198-238): `none` when it bounces it to the caller, otherwise the name of the new
entry. -/
def place (cur h : Header) : Res (Option Bytes) :=
  if !pathIsLexicographicallyOrdered cur.path h.path then
    .err (.msg "isn't lexicographically greater than the previous one")
  else match rel cur.path h.path with
    | .err e => .err e
    | .panic => .panic
    | .ok name =>
      if name.length > 2 ∧ name.take 2 = b!".." then .ok none
      else if cur.typ ≠ typeDirectory then .err (.msg "received descending path")
      else if !isValidNodeName name then .err (.msg "name is invalid")
      else .ok (some name)

/-- Lift a result. -/
def ret {α : Type} (r : Res α) : M WState α := fun s => (r, s)

/-- The activations, innermost first, deal with a received header (writer.go:184-287); the result
are the activations when the goroutine waits again. The closing parentheses are that of the node
(writer.go:222) and, in the caller, that of the entry (writer.go:282); the outermost caller reports
an error instead (writer.go:75-77). -/
def descend (h : Header) : List Header → M WState (List Header)
  | [] => M.fail (.msg "additional header detected")
  | cur :: rest => do
    let p ← ret (place cur h)
    match p with
    | none => do
      wr (writeString b!")")
      if rest = [] then M.fail (.msg "additional header detected")
      else do
        wr (writeString b!")")
        descend h rest
    | some name => do
      entryStart name
      emitStart h
      pure (h :: cur :: rest)

/-- The activations return one after the other after the channel `headers` was closed
(writer.go:172-179, 282-285, 187-194). -/
def unwind : List Header → M WState Unit
  | [] => pure ()
  | _ :: rest => do
    wr (writeString b!")")
    if rest = [] then pure ()
    else do
      wr (writeString b!")")
      unwind rest

/-- Where the goroutine of a `Writer` is: waiting for the first header (writer.go:51), waiting in
`emitNode` with these activations, or returned after closing `errors`. -/
inductive WPhase where
  | start
  | running (stack : List Header)
  | ended
  deriving DecidableEq, Repr

/-- `Writer` (writer.go:16-29) together with its goroutine. -/
structure Writer where
  st : WState
  phase : WPhase
  closed : Bool
  deriving DecidableEq, Repr

/-- `NewWriter` (writer.go:32-84). -/
def newWriter (w : Sink) : Res Writer × Sink :=
  match writeString narVersionMagic1 w with
  | (.ok (), w') => (.ok ⟨⟨w', none⟩, .start, false⟩, w')
  | (.err e, w') => (.err e, w')
  | (.panic, w') => (.panic, w')

/-- What the goroutine does with a header, up to its next receive (writer.go:62-69, 159-287). -/
def emitHeader (h : Header) : WPhase → M WState (List Header)
  | .start =>
    if h.path ≠ b!"/" then M.fail (.msg "first header always needs to have a / as path")
    else do
      emitStart h
      pure [h]
  | .running stack => do
    contentClose
    descend h stack
  | .ended => M.panic

/-- `WriteHeader` (writer.go:296-309): sending on the closed channel panics; sending without a
goroutine to receive blocks. -/
def Writer.writeHeader (w : Writer) (h : Header) : Call Unit × Writer :=
  match h.validate with
  | .err _ => (.err (.msg "unable to write header"), w)
  | .panic => (.panic, w)
  | .ok () =>
    if w.closed then (.panic, w)
    else if w.phase = .ended then (.block, w)
    else match emitHeader h w.phase w.st with
      | (.ok stack, st) => (.ok (), { w with st := st, phase := .running stack })
      | (.err e, st) => (.err e, { w with st := st, phase := .ended })
      | (.panic, st) => (.panic, { w with st := st, phase := .ended })

/-- `Write` (writer.go:318-320): number of bytes and error. -/
def Writer.write (w : Writer) (p : Bytes) : Call (Nat × Option Err) × Writer :=
  match w.st.cw with
  | none => (.panic, w)
  | some c =>
    if c.dummy then
      match c.bw.write p ⟨[], none⟩ with
      | (r, bw', _) => (.ok r, { w with st := { w.st with cw := some ⟨bw', true⟩ } })
    else
      match c.bw.write p w.st.sink with
      | (r, bw', s') => (.ok r, { w with st := ⟨s', some ⟨bw', false⟩⟩ })

/-- What the goroutine does when `headers` is closed (writer.go:55-60, 159-179, 282-285). -/
def emitClose : WPhase → M WState Unit
  | .start => M.fail (.msg "unexpected Close()")
  | .running stack => do
    contentClose
    unwind stack
  | .ended => pure ()

/-- `Close` (writer.go:325-337): the error the goroutine sends, or nil from the closed channel. -/
def Writer.close (w : Writer) : Call Unit × Writer :=
  if w.closed then (.err (.msg "already closed"), w)
  else match emitClose w.phase w.st with
    | (.ok (), st) => (.ok (), ⟨st, .ended, true⟩)
    | (.err e, st) => (.err e, ⟨st, .ended, true⟩)
    | (.panic, st) => (.panic, ⟨st, .ended, true⟩)

/-- A call on a `Writer`. -/
inductive WOp where
  | header (h : Header)
  | write (p : Bytes)
  | close
  deriving DecidableEq, Repr

/-- What a call on a `Writer` returned. -/
inductive WOut where
  | unit (r : Call Unit)
  | write (r : Call (Nat × Option Err))
  deriving DecidableEq, Repr

/-- The call returned, without an error. -/
def WOut.good : WOut → Bool
  | .unit (.ok ()) => true
  | .write (.ok (_, none)) => true
  | _ => false

/-- One call. -/
def Writer.op (w : Writer) : WOp → WOut × Writer
  | .header h => (.unit (w.writeHeader h).1, (w.writeHeader h).2)
  | .write p => (.write (w.write p).1, (w.write p).2)
  | .close => (.unit w.close.1, w.close.2)

/-- A sequence of calls: what they returned, and the writer afterwards. -/
def Writer.run (w : Writer) : List WOp → List WOut × Writer
  | [] => ([], w)
  | o :: os => ((w.op o).1 :: ((w.op o).2.run os).1, ((w.op o).2.run os).2)

end Verif.Nar
