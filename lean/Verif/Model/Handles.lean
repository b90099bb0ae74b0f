import Verif.Model.NarDump
import Verif.Model.Store

/-!
# Open files: `dump.go`, `filesystem.go` and `http.go` with the file handles of the process

The same functions as in `NarDump.lean` and `Store.lean`, with the number of files (or connections) the process has open.
A process may have only so many of them; `os.Open`, `os.ReadDir` and `Client.Do` fail if there is none left. An `os.File` that nobody
refers to any more is closed by the garbage collector at some time; that is not part of the functions.
-/

namespace Verif.Handles
open Verif.GoLib Verif.Wire Verif.Nar Verif.Store Verif.Derivation

/-- The open files of the process, and how many there may be (`RLIMIT_NOFILE`). -/
structure Handles where
  opened : Nat
  limit : Nat
  deriving DecidableEq, Repr

/-- `EMFILE`. -/
def tooMany : Err := .msg "too many open files"

/-- One more open file, if there may be one more. -/
def Handles.acquire (h : Handles) : Option Handles := if h.opened < h.limit then some ⟨h.opened + 1, h.limit⟩ else none

/-- `Close`. -/
def Handles.release (h : Handles) : Handles := ⟨h.opened - 1, h.limit⟩

/-! ## nar.DumpPath -/

/-- A call on the writer, with the open files, which it does not touch. -/
def andThenH {α β : Type} (r : Call α × Writer) (h : Handles) (f : α → Writer → Call β × Writer × Handles) : Call β × Writer × Handles :=
  match r with
  | (.ok a, w) => f a w
  | (.err e, w) => (.err e, w, h)
  | (.panic, w) => (.panic, w, h)
  | (.block, w) => (.block, w, h)

mutual
/-- `dumpPath` (dump.go:44-150) with the open files: the file is opened after the header is written, and closed when the function returns
(129-133); `os.ReadDir` opens and closes the directory before the entries are visited (98-101). -/
def dumpNode (filter : Option Filter) (path : Bytes) : FNode → Bytes → Writer → Handles → Call Unit × Writer × Handles
  | .bad e, _, w, h => (.err e, w, h)
  | .symlink t, sub, w, h =>
    if rejects filter (pathJoin path sub) typeSymlink then (.ok (), w, h)
    else andThenH (w.writeHeader ⟨sub, typeSymlink, t, 0, false⟩) h fun _ w => (.ok (), w, h)
  | .directory es, sub, w, h =>
    if rejects filter (pathJoin path sub) typeDirectory then (.ok (), w, h)
    else andThenH (w.writeHeader ⟨sub, typeDirectory, [], 0, false⟩) h fun _ w =>
      match h.acquire with
      | none => (.err tooMany, w, h)
      | some h1 => dumpEntries filter path es sub w h1.release
  | .brokenLink e, sub, w, h =>
    if rejects filter (pathJoin path sub) typeSymlink then (.ok (), w, h) else (.err e, w, h)
  | .brokenDirectory e, sub, w, h =>
    if rejects filter (pathJoin path sub) typeDirectory then (.ok (), w, h)
    else andThenH (w.writeHeader ⟨sub, typeDirectory, [], 0, false⟩) h fun _ w =>
      match h.acquire with
      | none => (.err tooMany, w, h)
      | some h1 => (.err e, w, h1.release)
  | .regular exec size chunks fail, sub, w, h =>
    if rejects filter (pathJoin path sub) typeRegular then (.ok (), w, h)
    else andThenH (w.writeHeader ⟨sub, typeRegular, [], size, exec⟩) h fun _ w =>
      match h.acquire with
      | none => (.err tooMany, w, h)
      | some h1 =>
        let r := andThen (copyTo w chunks 0) fun n w =>
          match fail with
          | some e => (.err e, w)
          | none => if (n : Int) ≠ size then (.err (.msg "read other number of bytes"), w) else (.ok (), w)
        (r.1, r.2, h1.release)
/-- The loop over the entries of a directory (dump.go:104-110). -/
def dumpEntries (filter : Option Filter) (path : Bytes) : FEntries → Bytes → Writer → Handles → Call Unit × Writer × Handles
  | .nil, _, w, h => (.ok (), w, h)
  | .cons n t es, sub, w, h =>
    match dumpNode filter path t (pathJoin sub n) w h with
    | (.ok _, w, h) => dumpEntries filter path es sub w h
    | (.err e, w, h) => (.err e, w, h)
    | (.panic, w, h) => (.panic, w, h)
    | (.block, w, h) => (.block, w, h)
end

/-- `DumpPathFilter` (dump.go:25-41) with the open files. -/
def dumpPathFilter (filter : Option Filter) (path : Bytes) (root : FNode) (s : Sink) (h : Handles) : Call Unit × Sink × Handles :=
  match newWriter s with
  | (.err e, s') => (.err e, s', h)
  | (.panic, s') => (.panic, s', h)
  | (.ok nw, _) =>
    match dumpNode filter path root b!"/" nw h with
    | (r, w, h) =>
      let c := andThen (r, w) fun _ w => w.close
      (c.1, c.2.close.2.st.sink, h)

/-! ## The stores -/

/-- `FSStore.Get` (filesystem.go:54-68) with the open files: the file is not closed. -/
def fsGet (jsonName : Bytes → Res (Option Bytes)) (os : Fs) (fs : FSStore) (p : Bytes) : M Handles Derivation := fun h =>
  match h.acquire with
  | none => (.err tooMany, h)
  | some h1 =>
    match os.openFile (fs.getFilepath p) with
    | .err e => (.err e, h)
    | .panic => (.panic, h)
    | .ok s =>
      match readDerivation jsonName s with
      | .err _ => (.err (.msg "unable to parse derivation"), h1)
      | .panic => (.panic, h1)
      | .ok d => (.ok d, h1)

/-- `HTTPStore.Get` (http.go:73-105) with the open connections; `defer resp.Body.Close()` (83). -/
def httpGet (jsonName : Bytes → Res (Option Bytes)) (request : Bytes → GoUrl.URL → Res Response) (hs : HTTPStore) (p : Bytes) :
    M Handles Derivation := fun h =>
  match hs.constructRequest p with
  | .err e => (.err e, h)
  | .panic => (.panic, h)
  | .ok u =>
    match h.acquire with
    | none => (.err tooMany, h)
    | some h1 =>
      match request b!"GET" u with
      | .err e => (.err e, h)
      | .panic => (.panic, h)
      | .ok resp =>
        if resp.status < 200 ∨ resp.status ≥ 300 then (.err (.msg "bad status code"), h1.release)
        else if resp.body.term ≠ .eof then (.err (.msg "error reading body"), h1.release)
        else match readDerivation jsonName ⟨resp.body.data, .eof⟩ with
          | .err _ => (.err (.msg "error parsing derivation"), h1.release)
          | .panic => (.panic, h1.release)
          | .ok d => (.ok d, h1.release)

/-- `HTTPStore.Has` (http.go:109-134) with the open connections; `defer resp.Body.Close()` (119). -/
def httpHas (request : Bytes → GoUrl.URL → Res Response) (hs : HTTPStore) (p : Bytes) : M Handles Bool := fun h =>
  match hs.constructRequest p with
  | .err e => (.err e, h)
  | .panic => (.panic, h)
  | .ok u =>
    match h.acquire with
    | none => (.err tooMany, h)
    | some h1 =>
      match request b!"HEAD" u with
      | .err e => (.err e, h)
      | .panic => (.panic, h)
      | .ok resp =>
        if resp.status = 404 then (.ok false, h1.release)
        else if resp.status ≥ 200 ∧ resp.status < 300 then (.ok true, h1.release)
        else (.err (.msg "bad status code"), h1.release)

end Verif.Handles
