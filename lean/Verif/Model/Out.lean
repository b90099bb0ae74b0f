import Verif.Model.NarDump
import Verif.Model.Derivation
import Verif.Model.Cmd

/-!
# Writing to an arbitrary `io.Writer`

The functions that write, line by line as in `Verif.Model.Wire`, `Verif.Model.NarWriter`, `Verif.Model.NarDump` and
`Verif.Model.Derivation`, but over any `io.Writer` (`Dev`) instead of a `Sink`; then `bufio.Writer`, which is
one of them, and `gonix nar dump-path`. Property C125 relates the two models.
-/

namespace Verif.Out
open Verif.GoLib Verif.Wire Verif.Nar

/-- An `io.Writer`: its states, and what `Write(p)` returns and does. -/
structure Dev where
  S : Type
  write : S → Bytes → (Nat × Option Err) × S

/-- A writer in a state, with a record of the bytes it said it accepted (the first `n` of each `p`). -/
structure GSink (D : Dev) where
  st : D.S
  out : Bytes

/-- `w.Write(p)`. -/
def GSink.write {D : Dev} (w : GSink D) (p : Bytes) : (Nat × Option Err) × GSink D :=
  match D.write w.st p with
  | ((n, e), st') => ((n, e), ⟨st', w.out ++ p.take n⟩)

variable {D : Dev}

/-- `_, err := w.Write(p); return err`. -/
def writeAll (p : Bytes) : M (GSink D) Unit := fun w =>
  match w.write p with
  | ((_, none), w') => (.ok (), w')
  | ((_, some e), w') => (.err e, w')

/-- `WriteUint64` (wire/write.go:20-28). -/
def writeUint64 (n : Nat) : M (GSink D) Unit := writeAll (putUint64 n)

/-- `writePadding` (wire/write.go:68-76). -/
def writePadding (contentLength : Nat) : M (GSink D) Unit :=
  if contentLength % 8 ≠ 0 then writeAll (List.replicate (8 - contentLength % 8) 0)
  else pure ()

/-- `WriteBytes` (wire/write.go:40-51) and `WriteString` (54-65). (Simplification: `io.WriteString` is `Write`, as it is for a
`bufio.Writer` and an `os.File` except for the type of the argument.) -/
def writeBytes (buf : Bytes) : M (GSink D) Unit := do
  writeUint64 buf.length
  writeAll buf
  writePadding buf.length

/-- `BytesWriter.Write` (wire/bytes_writer.go:39-50). -/
def bwWrite (bw : BytesWriter) (p : Bytes) (w : GSink D) : (Nat × Option Err) × BytesWriter × GSink D :=
  if (bw.bytesWritten + p.length) % 2 ^ 64 > bw.totalLength then
    ((0, some (.msg "maximum number of bytes exceeded")), bw, w)
  else
    match w.write p with
    | ((n, e), w') => ((n, e), { bw with bytesWritten := (bw.bytesWritten + n) % 2 ^ 64 }, w')

/-- `BytesWriter.Close` (wire/bytes_writer.go:53-72). -/
def bwClose (bw : BytesWriter) (w : GSink D) : Option Err × BytesWriter × GSink D :=
  if bw.paddingWritten then (none, bw, w)
  else if bw.bytesWritten ≠ bw.totalLength then
    (some (.msg "wrote other number of bytes than expected"), bw, w)
  else
    match writePadding bw.totalLength w with
    | (.ok (), w') => (none, { bw with paddingWritten := true }, w')
    | (.err e, w') => (some e, bw, w')
    | (.panic, w') => (some .io, bw, w')

/-- What the goroutine and the caller of a `nar.Writer` share (nar/writer.go:16-29). -/
structure GState (D : Dev) where
  sink : GSink D
  cw : Option CW

/-- A write to `nw.w` by the goroutine. -/
def wr {α : Type} (m : M (GSink D) α) : M (GState D) α := fun s =>
  ((m s.sink).1, { s with sink := (m s.sink).2 })

/-- `nw.contentWriter, err = wire.NewBytesWriter(nw.w, n)` (nar/writer.go:122-125, wire/bytes_writer.go:22-37). -/
def setContentWriter (n : Nat) : M (GState D) Unit := fun s =>
  match writeUint64 n s.sink with
  | (.ok (), w') => (.ok (), ⟨w', some ⟨⟨0, n, false⟩, false⟩⟩)
  | (.err e, w') => (.err e, ⟨w', none⟩)
  | (.panic, w') => (.panic, ⟨w', none⟩)

/-- The dummy content writer (nar/writer.go:145-152). -/
def setDummyWriter : M (GState D) Unit := fun s => (.ok (), { s with cw := some ⟨⟨0, 0, false⟩, true⟩ })

/-- `emitNode` up to the first channel operation (nar/writer.go:89-157). -/
def emitStart (h : Header) : M (GState D) Unit := do
  wr (writeBytes b!"(")
  wr (writeBytes b!"type")
  wr (writeBytes h.typ)
  if h.typ = typeRegular then do
    if h.executable then do
      wr (writeBytes b!"executable")
      wr (writeBytes [])
      wr (writeBytes b!"contents")
      setContentWriter (toUint64 h.size)
    else do
      wr (writeBytes b!"contents")
      setContentWriter (toUint64 h.size)
  else if h.typ = typeSymlink then do
    wr (writeBytes b!"target")
    wr (writeBytes h.linkTarget)
    setDummyWriter
  else if h.typ = typeDirectory then setDummyWriter
  else pure ()

/-- `nw.contentWriter.Close()` (nar/writer.go:166-169). -/
def contentClose : M (GState D) Unit := fun s =>
  match s.cw with
  | none => (.panic, s)
  | some c =>
    if c.dummy then
      match c.bw.close ⟨[], none⟩ with
      | (none, bw', _) => (.ok (), { s with cw := some ⟨bw', true⟩ })
      | (some e, bw', _) => (.err e, { s with cw := some ⟨bw', true⟩ })
    else
      match bwClose c.bw s.sink with
      | (none, bw', w') => (.ok (), ⟨w', some ⟨bw', false⟩⟩)
      | (some e, bw', w') => (.err e, ⟨w', some ⟨bw', false⟩⟩)

/-- The tokens before the node of an entry (nar/writer.go:242-269). -/
def entryStart (name : Bytes) : M (GState D) Unit := do
  wr (writeBytes b!"entry")
  wr (writeBytes b!"(")
  wr (writeBytes b!"name")
  wr (writeBytes name)
  wr (writeBytes b!"node")

/-- Lift a result. -/
def ret {α : Type} (r : Res α) : M (GState D) α := fun s => (r, s)

/-- The activations deal with a received header (nar/writer.go:184-287). -/
def descend (h : Header) : List Header → M (GState D) (List Header)
  | [] => M.fail (.msg "additional header detected")
  | cur :: rest => do
    let p ← ret (place cur h)
    match p with
    | none => do
      wr (writeBytes b!")")
      if rest = [] then M.fail (.msg "additional header detected")
      else do
        wr (writeBytes b!")")
        descend h rest
    | some name => do
      entryStart name
      emitStart h
      pure (h :: cur :: rest)

/-- The activations return (nar/writer.go:172-179, 282-285, 187-194). -/
def unwind : List Header → M (GState D) Unit
  | [] => pure ()
  | _ :: rest => do
    wr (writeBytes b!")")
    if rest = [] then pure ()
    else do
      wr (writeBytes b!")")
      unwind rest

/-- `Writer` (nar/writer.go:16-29) together with its goroutine. -/
structure GWriter (D : Dev) where
  st : GState D
  phase : WPhase
  closed : Bool

/-- `NewWriter` (nar/writer.go:32-84). -/
def newWriter (w : GSink D) : Res (GWriter D) × GSink D :=
  match writeBytes narVersionMagic1 w with
  | (.ok (), w') => (.ok ⟨⟨w', none⟩, .start, false⟩, w')
  | (.err e, w') => (.err e, w')
  | (.panic, w') => (.panic, w')

/-- What the goroutine does with a header (nar/writer.go:62-69, 159-287). -/
def emitHeader (h : Header) : WPhase → M (GState D) (List Header)
  | .start =>
    if h.path ≠ b!"/" then M.fail (.msg "first header always needs to have a / as path")
    else do
      emitStart h
      pure [h]
  | .running stack => do
    contentClose
    descend h stack
  | .ended => M.panic

/-- `WriteHeader` (nar/writer.go:296-309). -/
def GWriter.writeHeader (w : GWriter D) (h : Header) : Call Unit × GWriter D :=
  match h.validate with
  | .err _ => (.err (.msg "unable to write header"), w)
  | .panic => (.panic, w)
  | .ok () =>
    if w.closed then (.panic, w)
    else if w.phase = .ended then (.block, w)
    else match emitHeader h w.phase w.st with
      | (.ok stack, st) => (.ok (), { w with st := st, phase := .running stack })
      | (.err e, st) => (.err e, { w with st := st, phase := .ended })
      | (.panic, st) => (.panic, { w with st := st, phase := .ended })

/-- `Write` (nar/writer.go:318-320). -/
def GWriter.write (w : GWriter D) (p : Bytes) : Call (Nat × Option Err) × GWriter D :=
  match w.st.cw with
  | none => (.panic, w)
  | some c =>
    if c.dummy then
      match c.bw.write p ⟨[], none⟩ with
      | (r, bw', _) => (.ok r, { w with st := { w.st with cw := some ⟨bw', true⟩ } })
    else
      match bwWrite c.bw p w.st.sink with
      | (r, bw', s') => (.ok r, { w with st := ⟨s', some ⟨bw', false⟩⟩ })

/-- What the goroutine does when `headers` is closed (nar/writer.go:55-60, 159-179, 282-285). -/
def emitClose : WPhase → M (GState D) Unit
  | .start => M.fail (.msg "unexpected Close()")
  | .running stack => do
    contentClose
    unwind stack
  | .ended => pure ()

/-- `Close` (nar/writer.go:325-337). -/
def GWriter.close (w : GWriter D) : Call Unit × GWriter D :=
  if w.closed then (.err (.msg "already closed"), w)
  else match emitClose w.phase w.st with
    | (.ok (), st) => (.ok (), ⟨st, .ended, true⟩)
    | (.err e, st) => (.err e, ⟨st, .ended, true⟩)
    | (.panic, st) => (.panic, ⟨st, .ended, true⟩)

/-- One call. -/
def GWriter.op (w : GWriter D) : WOp → WOut × GWriter D
  | .header h => (.unit (w.writeHeader h).1, (w.writeHeader h).2)
  | .write p => (.write (w.write p).1, (w.write p).2)
  | .close => (.unit w.close.1, w.close.2)

/-- A sequence of calls. -/
def GWriter.run (w : GWriter D) : List WOp → List WOut × GWriter D
  | [] => ([], w)
  | o :: os => ((w.op o).1 :: ((w.op o).2.run os).1, ((w.op o).2.run os).2)

/-- Sequencing of calls: `if err != nil { return err }`. -/
def andThen {α β : Type} (r : Call α × GWriter D) (f : α → GWriter D → Call β × GWriter D) : Call β × GWriter D :=
  match r with
  | (.ok a, w) => f a w
  | (.err e, w) => (.err e, w)
  | (.panic, w) => (.panic, w)
  | (.block, w) => (.block, w)

/-- `io.Copy(nw, f)` (nar/dump.go:136). -/
def copyTo (w : GWriter D) : List Bytes → Nat → Call Nat × GWriter D
  | [], n => (.ok n, w)
  | p :: ps, n =>
    if p = [] then copyTo w ps n
    else andThen (w.write p) fun r w' =>
      match r with
      | (_, some e) => (.err e, w')
      | (k, none) => if k ≠ p.length then (.err (.msg "short write"), w') else copyTo w' ps (n + k)

mutual
/-- `dumpPath` (nar/dump.go:44-150). -/
def dumpNode (filter : Option Filter) (path : Bytes) : FNode → Bytes → GWriter D → Call Unit × GWriter D
  | .bad e, _, w => (.err e, w)
  | .symlink t, sub, w =>
    if rejects filter (pathJoin path sub) typeSymlink then (.ok (), w)
    else w.writeHeader ⟨sub, typeSymlink, t, 0, false⟩
  | .directory es, sub, w =>
    if rejects filter (pathJoin path sub) typeDirectory then (.ok (), w)
    else andThen (w.writeHeader ⟨sub, typeDirectory, [], 0, false⟩) fun _ w =>
      dumpEntries filter path es sub w
  | .brokenLink e, sub, w =>
    if rejects filter (pathJoin path sub) typeSymlink then (.ok (), w) else (.err e, w)
  | .brokenDirectory e, sub, w =>
    if rejects filter (pathJoin path sub) typeDirectory then (.ok (), w)
    else andThen (w.writeHeader ⟨sub, typeDirectory, [], 0, false⟩) fun _ w => (.err e, w)
  | .regular exec size chunks fail, sub, w =>
    if rejects filter (pathJoin path sub) typeRegular then (.ok (), w)
    else andThen (w.writeHeader ⟨sub, typeRegular, [], size, exec⟩) fun _ w =>
      andThen (copyTo w chunks 0) fun n w =>
        match fail with
        | some e => (.err e, w)
        | none => if (n : Int) ≠ size then (.err (.msg "read other number of bytes"), w) else (.ok (), w)
/-- The loop over the entries of a directory (nar/dump.go:104-110). -/
def dumpEntries (filter : Option Filter) (path : Bytes) : FEntries → Bytes → GWriter D → Call Unit × GWriter D
  | .nil, _, w => (.ok (), w)
  | .cons n t es, sub, w =>
    andThen (dumpNode filter path t (pathJoin sub n) w) fun _ w => dumpEntries filter path es sub w
end

/-- `DumpPathFilter` (nar/dump.go:25-41): the result, and the writer afterwards. -/
def dumpPathFilter (filter : Option Filter) (path : Bytes) (root : FNode) (s : GSink D) : Call Unit × GSink D :=
  match newWriter s with
  | (.err e, s') => (.err e, s')
  | (.panic, s') => (.panic, s')
  | (.ok nw, _) =>
    let r := andThen (dumpNode filter path root b!"/" nw) fun _ w => w.close
    (r.1, r.2.close.2.st.sink)

/-- The calls of `writer.Write` of `WriteDerivation`, each followed by `if err != nil { return err }`. -/
def writeChunks : List Bytes → M (GSink D) Unit
  | [] => pure ()
  | c :: cs => do
    writeAll c
    writeChunks cs

/-- `WriteDerivation` (derivation/encode.go:81-83). -/
def writeDrv (d : Derivation.Derivation) : M (GSink D) Unit := fun w =>
  match Derivation.writeDerivation d false [] with
  | .ok cs => writeChunks cs w
  | .err e => (.err e, w)
  | .panic => (.panic, w)

/-! ## bufio.Writer -/

/-- A `bufio.Writer` on a `D`: the writer below, `b.buf[0:b.n]`, `b.err`. -/
structure BufSt (D : Dev) where
  u : GSink D
  buf : Bytes
  err : Option Err

/-- `bufio.Writer.Flush` of the Go library. -/
def flush (b : BufSt D) : Option Err × BufSt D :=
  match b.err with
  | some e => (some e, b)
  | none =>
    if b.buf = [] then (none, b)
    else
      match b.u.write b.buf with
      | ((n, e), u') =>
        match (if n < b.buf.length ∧ e = none then some (.msg "short write") else e) with
        | some e' => (some e', ⟨u', b.buf.drop n, some e'⟩)
        | none => (none, ⟨u', [], none⟩)

/-- `bufio.Writer.Write` of the Go library, with a buffer of `size` bytes. In each round of the loop but the last something is
accepted or there is an error; the number bounds the rounds. -/
def bufWrite (size : Nat) : Nat → BufSt D → Bytes → Nat → (Nat × Option Err) × BufSt D
  | 0, b, _, nn => ((nn, some (.msg "out of fuel")), b)
  | fuel + 1, b, p, nn =>
    if p.length > size - b.buf.length ∧ b.err = none then
      if b.buf = [] then
        match b.u.write p with
        | ((n, e), u') => bufWrite size fuel ⟨u', [], e⟩ (p.drop n) (nn + n)
      else
        bufWrite size fuel (flush ⟨b.u, b.buf ++ p.take (size - b.buf.length), b.err⟩).2
          (p.drop (size - b.buf.length)) (nn + (size - b.buf.length))
    else
      match b.err with
      | some e => ((nn, some e), b)
      | none => ((nn + p.length, none), { b with buf := b.buf ++ p })

/-- `bufio.NewWriterSize(w, size)` as an `io.Writer`. -/
def bufDev (size : Nat) (D : Dev) : Dev := ⟨BufSt D, fun b p => bufWrite size (p.length + 3) b p 0⟩

/-- `DumpPathCmd.Run` (cmd/gonix/nar/dump.go:14-24), with any `io.Writer` as the standard output: the result, and that writer
afterwards. The buffer has 4096 bytes. -/
def dumpCmd (path : Bytes) (root : FNode) (stdout : GSink D) : Call Unit × GSink D :=
  match dumpPathFilter none path root (⟨⟨stdout, [], none⟩, []⟩ : GSink (bufDev 4096 D)) with
  | (.ok (), w) =>
    match flush w.st with
    | (none, b) => (.ok (), b.u)
    | (some e, b) => (.err e, b.u)
  | (.err e, w) => (.err e, w.st.u)
  | (.panic, w) => (.panic, w.st.u)
  | (.block, w) => (.block, w.st.u)

/-- `io.Copy` to the standard output (cmd/gonix/nar/cat.go:47): `bufio.Writer`, being empty, hands over to `os.File`, which copies
with a buffer of 32 kB. The number bounds the iterations. -/
def copyAll : Nat → Reader → GSink D → Call Unit × GSink D
  | 0, _, w => (.err outOfFuel, w)
  | fuel + 1, r, w =>
    match r.read 32768 with
    | (.err e, _) => (if e = .eof then .ok () else .err e, w)
    | (.panic, _) => (.panic, w)
    | (.ok d, r') =>
      if d = [] then copyAll fuel r' w
      else
        match w.write d with
        | ((_, some e), w') => (.err e, w')
        | ((n, none), w') => if n ≠ d.length then (.err (.msg "short write"), w') else copyAll fuel r' w'

/-- The loop of `CatCmd.Run` (cmd/gonix/nar/cat.go:28-54). The number bounds the iterations. -/
def catLoop (path : Bytes) (w : GSink D) : Nat → Reader → Call Unit × GSink D
  | 0, _ => (.err outOfFuel, w)
  | fuel + 1, r =>
    match r.next with
    | (.err e, _) => (.err (if e = .eof then .msg "requested path not found" else e), w)
    | (.panic, _) => (.panic, w)
    | (.block, _) => (.block, w)
    | (.ok h, r') =>
      if h.path = path then
        if h.typ ≠ typeRegular then (.err (.msg "unable to cat non-regular file"), w)
        else copyAll (h.size.toNat + 1) r' w
      else catLoop path w fuel r'

/-- `CatCmd.Run` (cmd/gonix/nar/cat.go:17-55) on a file with these contents, with any `io.Writer` as the standard output. -/
def catRun (s : Stream) (path : Bytes) (w : GSink D) : Call Unit × GSink D :=
  match newReader s with
  | (.err e, _) => (.err e, w)
  | (.panic, _) => (.panic, w)
  | (.ok r, _) => catLoop path w (s.data.length + 1) r

/-! ## io.MultiWriter -/

/-- `Write` of an `io.MultiWriter` (Go standard library, io/multi.go): the writers get `p` one after another, up to the first that fails or
accepts less. -/
def multiWrite {D : Dev} : List (GSink D) → Bytes → (Nat × Option Err) × List (GSink D)
  | [], p => ((p.length, none), [])
  | w :: ws, p =>
    match w.write p with
    | ((n, some e), w') => ((n, some e), w' :: ws)
    | ((n, none), w') =>
      if n ≠ p.length then ((n, some (.msg "short write")), w' :: ws)
      else match multiWrite ws p with
        | (r, ws') => (r, w' :: ws')

/-- `io.MultiWriter(ws...)`. -/
abbrev multiDev (D : Dev) : Dev := ⟨List (GSink D), multiWrite⟩

/-- Writers of different types. -/
abbrev sumDev {ι : Type} (Ds : ι → Dev) : Dev :=
  ⟨(i : ι) × (Ds i).S, fun st p => (((Ds st.1).write st.2 p).1, ⟨st.1, ((Ds st.1).write st.2 p).2⟩)⟩

end Verif.Out
