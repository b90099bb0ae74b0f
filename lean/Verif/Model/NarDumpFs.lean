import Verif.Model.NarDump

/-!
# `pkg/nar/dump.go` with its system calls

In `NarDump.lean` the file system is the tree of everything `dumpPath` sees. Here it is an arbitrary machine that
answers the system calls of `dumpPath`, each with the path that is passed to it. Its state may change with every
call, also by itself (other processes), so that no two calls need to agree.
-/

namespace Verif.Nar
open Verif.GoLib Verif.Wire

/-- What `dumpPath` takes from the result of `os.Lstat` (dump.go:54-63, 119, 122): the type, and for a regular file
whether its owner may execute it, and its size. -/
inductive Kind where
  | regular (exec : Bool) (size : Int)
  | symlink
  | directory
  | other
  deriving DecidableEq, Repr

/-- A file system with states `S`: `os.Lstat` (dump.go:49), `os.Readlink` (72), `os.ReadDir` (99, only the names are
used) and `os.Open` with the `Read` calls of `io.Copy` (129, 136): the pieces that are read, up to an error if there
is one; if `os.Open` fails, the error comes before the first piece. -/
structure FileSys (S : Type) where
  lstat : Bytes → S → Except Err Kind × S
  readlink : Bytes → S → Except Err Bytes × S
  readDir : Bytes → S → Except Err (List Bytes) × S
  read : Bytes → S → (List Bytes × Option Err) × S

/-- The loop over the entries of a directory (dump.go:104-110), `dump` being the recursive call. -/
def dumpNames {S : Type} (dump : Bytes → S → Writer → Call Unit × Writer × S) (sub : Bytes) :
    List Bytes → S → Writer → Call Unit × Writer × S
  | [], s, w => (.ok (), w, s)
  | n :: ns, s, w =>
    match dump (pathJoin sub n) s w with
    | (.ok _, w, s) => dumpNames dump sub ns s w
    | (.err e, w, s) => (.err e, w, s)
    | (.panic, w, s) => (.panic, w, s)
    | (.block, w, s) => (.block, w, s)

/-- `dumpPath` (dump.go:44-150). The first number is how deep the recursion may go: with 0 the call has not come back
(a file system that answers everything with a directory keeps it going for ever). -/
def dumpFs {S : Type} (fs : FileSys S) (filter : Option Filter) (path : Bytes) : Nat → Bytes → S → Writer → Call Unit × Writer × S
  | 0, _, s, w => (.block, w, s)
  | fuel + 1, sub, s, w =>
    let p := pathJoin path sub
    match fs.lstat p s with
    | (.error e, s) => (.err e, w, s)
    | (.ok .other, s) => (.err (.msg "unknown type"), w, s)
    | (.ok .symlink, s) =>
      if rejects filter p typeSymlink then (.ok (), w, s)
      else
        match fs.readlink p s with
        | (.error e, s) => (.err e, w, s)
        | (.ok t, s) =>
          let r := w.writeHeader ⟨sub, typeSymlink, t, 0, false⟩
          (r.1, r.2, s)
    | (.ok .directory, s) =>
      if rejects filter p typeDirectory then (.ok (), w, s)
      else
        match w.writeHeader ⟨sub, typeDirectory, [], 0, false⟩ with
        | (.ok _, w) =>
          match fs.readDir (pathJoin path sub) s with
          | (.error e, s) => (.err e, w, s)
          | (.ok names, s) => dumpNames (dumpFs fs filter path fuel) sub names s w
        | (.err e, w) => (.err e, w, s)
        | (.panic, w) => (.panic, w, s)
        | (.block, w) => (.block, w, s)
    | (.ok (.regular exec size), s) =>
      if rejects filter p typeRegular then (.ok (), w, s)
      else
        match w.writeHeader ⟨sub, typeRegular, [], size, exec⟩ with
        | (.ok _, w) =>
          match fs.read p s with
          | ((chunks, fail), s) =>
            let r := andThen (copyTo w chunks 0) fun n w =>
              match fail with
              | some e => (.err e, w)
              | none => if (n : Int) ≠ size then (.err (.msg "read other number of bytes"), w) else (.ok (), w)
            (r.1, r.2, s)
        | (.err e, w) => (.err e, w, s)
        | (.panic, w) => (.panic, w, s)
        | (.block, w) => (.block, w, s)

/-- `DumpPathFilter` (dump.go:25-41; `DumpPath`, dump.go:18-20, has no filter): the result, what the sink got, and the
state of the file system afterwards. The deferred `Close` runs in any case. -/
def dumpPathFilterFs {S : Type} (fs : FileSys S) (fuel : Nat) (filter : Option Filter) (path : Bytes) (s : S) (out : Sink) :
    Call Unit × Sink × S :=
  match newWriter out with
  | (.err e, out) => (.err e, out, s)
  | (.panic, out) => (.panic, out, s)
  | (.ok nw, _) =>
    match dumpFs fs filter path fuel b!"/" s nw with
    | (.ok _, w, s) => (w.close.1, w.close.2.close.2.st.sink, s)
    | (.err e, w, s) => (.err e, w.close.2.st.sink, s)
    | (.panic, w, s) => (.panic, w.close.2.st.sink, s)
    | (.block, w, s) => (.block, w.close.2.st.sink, s)

end Verif.Nar
