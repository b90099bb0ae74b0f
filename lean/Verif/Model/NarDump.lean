import Verif.Model.NarWriter

/-!
# Model of `pkg/nar/dump.go`
-/

namespace Verif.Nar
open Verif.GoLib Verif.Wire

mutual
/-- What `dumpPath` sees at a path of the file system (dump.go:49-64, 68-150). -/
inductive FNode where
  /-- a regular file: executable by its owner, `fi.Size()`, and what reading it delivers, piece by
  piece (the size is taken before the file is opened, so the two may differ), up to an error if there is
  one (`os.Open` failing is an error before the first piece) -/
  | regular (exec : Bool) (size : Int) (chunks : List Bytes) (fail : Option Err)
  /-- a symlink with its target -/
  | symlink (target : Bytes)
  /-- a directory with the result of `os.ReadDir` (which sorts by name) -/
  | directory (entries : FEntries)
  /-- a symlink for which `os.Readlink` fails -/
  | brokenLink (e : Err)
  /-- a directory for which `os.ReadDir` fails -/
  | brokenDirectory (e : Err)
  /-- `Lstat` fails, or the type is none of the three -/
  | bad (e : Err)
/-- The entries of a directory. -/
inductive FEntries where
  | nil
  | cons (name : Bytes) (node : FNode) (rest : FEntries)
end

/-- `SourceFilterFunc` (dump.go:14): the path and the node type. -/
abbrev Filter := Bytes → Bytes → Bool

/-- `filter != nil && !filter(p, nodeType)` (dump.go:66). -/
def rejects (filter : Option Filter) (p typ : Bytes) : Bool :=
  match filter with
  | none => false
  | some f => !f p typ

/-- Sequencing of calls on a writer: `if err != nil { return err }`. -/
def andThen {α β : Type} (r : Call α × Writer) (f : α → Writer → Call β × Writer) : Call β × Writer :=
  match r with
  | (.ok a, w) => f a w
  | (.err e, w) => (.err e, w)
  | (.panic, w) => (.panic, w)
  | (.block, w) => (.block, w)

/-- `io.Copy(nw, f)` (dump.go:136): the pieces read are written one by one; the number of bytes
written. -/
def copyTo (w : Writer) : List Bytes → Nat → Call Nat × Writer
  | [], n => (.ok n, w)
  | p :: ps, n =>
    if p = [] then copyTo w ps n
    else andThen (w.write p) fun r w' =>
      match r with
      | (_, some e) => (.err e, w')
      | (k, none) => if k ≠ p.length then (.err (.msg "short write"), w') else copyTo w' ps (n + k)

mutual
/-- `dumpPath` (dump.go:44-150) for the node at `filepath.Join(path, subpath)`. -/
def dumpNode (filter : Option Filter) (path : Bytes) : FNode → Bytes → Writer → Call Unit × Writer
  | .bad e, _, w => (.err e, w)
  | .symlink t, sub, w =>
    if rejects filter (pathJoin path sub) typeSymlink then (.ok (), w)
    else w.writeHeader ⟨sub, typeSymlink, t, 0, false⟩
  | .directory es, sub, w =>
    if rejects filter (pathJoin path sub) typeDirectory then (.ok (), w)
    else andThen (w.writeHeader ⟨sub, typeDirectory, [], 0, false⟩) fun _ w =>
      dumpEntries filter path es sub w
  | .brokenLink e, sub, w =>
    if rejects filter (pathJoin path sub) typeSymlink then (.ok (), w) else (.err e, w)
  | .brokenDirectory e, sub, w =>
    if rejects filter (pathJoin path sub) typeDirectory then (.ok (), w)
    else andThen (w.writeHeader ⟨sub, typeDirectory, [], 0, false⟩) fun _ w => (.err e, w)
  | .regular exec size chunks fail, sub, w =>
    if rejects filter (pathJoin path sub) typeRegular then (.ok (), w)
    else andThen (w.writeHeader ⟨sub, typeRegular, [], size, exec⟩) fun _ w =>
      andThen (copyTo w chunks 0) fun n w =>
        match fail with
        | some e => (.err e, w)
        | none => if (n : Int) ≠ size then (.err (.msg "read other number of bytes"), w) else (.ok (), w)
/-- The loop over the entries of a directory (dump.go:104-110). -/
def dumpEntries (filter : Option Filter) (path : Bytes) : FEntries → Bytes → Writer → Call Unit × Writer
  | .nil, _, w => (.ok (), w)
  | .cons n t es, sub, w =>
    andThen (dumpNode filter path t (pathJoin sub n) w) fun _ w => dumpEntries filter path es sub w
end

/-- `DumpPathFilter` (dump.go:25-41; `DumpPath`, dump.go:18-20, has no filter): the result and what the sink
got. The deferred `Close` runs in any case. -/
def dumpPathFilter (filter : Option Filter) (path : Bytes) (root : FNode) (s : Sink) : Call Unit × Sink :=
  match newWriter s with
  | (.err e, s') => (.err e, s')
  | (.panic, s') => (.panic, s')
  | (.ok nw, _) =>
    let r := andThen (dumpNode filter path root b!"/" nw) fun _ w => w.close
    (r.1, r.2.close.2.st.sink)

end Verif.Nar
