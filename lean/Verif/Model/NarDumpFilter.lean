import Verif.Model.NarDumpFs

/-!
# `pkg/nar/dump.go` with a filter that has a state

A `SourceFilterFunc` is any Go function: it may keep a state, look at the file system, and answer differently each time. Here it is part
of the machine that also answers the system calls.
-/

namespace Verif.Nar
open Verif.GoLib Verif.Wire

/-- A `SourceFilterFunc` (dump.go:11-14) that may read and change the state of the machine. -/
abbrev Asker (S : Type) := Bytes → Bytes → S → Bool × S

/-- The call of the filter (dump.go:65-67); without one everything is taken. -/
def ask {S : Type} (filter : Option (Asker S)) (p ty : Bytes) (s : S) : Bool × S :=
  match filter with
  | none => (true, s)
  | some f => f p ty s

/-- `dumpPath` (dump.go:44-150), like `dumpFs`. -/
def dumpAsk {S : Type} (fs : FileSys S) (filter : Option (Asker S)) (path : Bytes) : Nat → Bytes → S → Writer → Call Unit × Writer × S
  | 0, _, s, w => (.block, w, s)
  | fuel + 1, sub, s, w =>
    let p := pathJoin path sub
    match fs.lstat p s with
    | (.error e, s) => (.err e, w, s)
    | (.ok .other, s) => (.err (.msg "unknown type"), w, s)
    | (.ok .symlink, s) =>
      match ask filter p typeSymlink s with
      | (false, s) => (.ok (), w, s)
      | (true, s) =>
        match fs.readlink p s with
        | (.error e, s) => (.err e, w, s)
        | (.ok t, s) =>
          let r := w.writeHeader ⟨sub, typeSymlink, t, 0, false⟩
          (r.1, r.2, s)
    | (.ok .directory, s) =>
      match ask filter p typeDirectory s with
      | (false, s) => (.ok (), w, s)
      | (true, s) =>
        match w.writeHeader ⟨sub, typeDirectory, [], 0, false⟩ with
        | (.ok _, w) =>
          match fs.readDir (pathJoin path sub) s with
          | (.error e, s) => (.err e, w, s)
          | (.ok names, s) => dumpNames (dumpAsk fs filter path fuel) sub names s w
        | (.err e, w) => (.err e, w, s)
        | (.panic, w) => (.panic, w, s)
        | (.block, w) => (.block, w, s)
    | (.ok (.regular exec size), s) =>
      match ask filter p typeRegular s with
      | (false, s) => (.ok (), w, s)
      | (true, s) =>
        match w.writeHeader ⟨sub, typeRegular, [], size, exec⟩ with
        | (.ok _, w) =>
          match fs.read p s with
          | ((chunks, fail), s) =>
            let r := andThen (copyTo w chunks 0) fun n w =>
              match fail with
              | some e => (.err e, w)
              | none => if (n : Int) ≠ size then (.err (.msg "read other number of bytes"), w) else (.ok (), w)
            (r.1, r.2, s)
        | (.err e, w) => (.err e, w, s)
        | (.panic, w) => (.panic, w, s)
        | (.block, w) => (.block, w, s)

/-- `DumpPathFilter` (dump.go:25-41), like `dumpPathFilterFs`. -/
def dumpPathAsk {S : Type} (fs : FileSys S) (fuel : Nat) (filter : Option (Asker S)) (path : Bytes) (s : S) (out : Sink) :
    Call Unit × Sink × S :=
  match newWriter out with
  | (.err e, out) => (.err e, out, s)
  | (.panic, out) => (.panic, out, s)
  | (.ok nw, _) =>
    match dumpAsk fs filter path fuel b!"/" s nw with
    | (.ok _, w, s) => (w.close.1, w.close.2.close.2.st.sink, s)
    | (.err e, w, s) => (.err e, w.close.2.st.sink, s)
    | (.panic, w, s) => (.panic, w.close.2.st.sink, s)
    | (.block, w, s) => (.block, w.close.2.st.sink, s)

end Verif.Nar
