import Verif.Model.Out
import Verif.Model.Show

/-!
# The commands of `cmd/gonix` with their standard streams

`Model/Cmd.lean` and `Model/Show.lean` return what is printed. Here the commands have a standard output and a standard error, which are arbitrary `io.Writer`s.
(What kong prints when a command fails is not modelled.)
-/

namespace Verif.Streams
open Verif.GoLib Verif.Wire Verif.Nar Verif.Out

/-- The standard streams of the process. -/
structure Std (D : Dev) where
  out : GSink D
  err : GSink D

variable {D : Dev}

/-- The built-in function `print` of Go: one write to the standard error, whose result is ignored. -/
def print (s : Bytes) (x : Std D) : Std D := { x with err := (x.err.write s).2 }

/-- The loop of `LsCmd.Run` (cmd/gonix/nar/ls.go:55-82); lines are printed with `print` (73). The number bounds the iterations. -/
def lsLoop (path : Bytes) (recursive : Bool) : Nat → Reader → Std D → Call Unit × Std D
  | 0, _, x => (.err outOfFuel, x)
  | fuel + 1, r, x =>
    match r.next with
    | (.err e, _) => (if e = .eof then .ok () else .err e, x)
    | (.panic, _) => (.panic, x)
    | (.block, _) => (.block, x)
    | (.ok h, r') =>
      if hasPrefix h.path path then
        lsLoop path recursive fuel r'
          (if recursive || !contains (h.path.drop path.length) b!"/" then print (Cmd.headerLineString h) x else x)
      else if strLt path h.path then (.ok (), x)
      else lsLoop path recursive fuel r' x

/-- `LsCmd.Run` (cmd/gonix/nar/ls.go:44-83) on a file with these contents. -/
def lsRun (s : Stream) (path : Bytes) (recursive : Bool) (x : Std D) : Call Unit × Std D :=
  match newReader s with
  | (.err e, _) => (.err e, x)
  | (.panic, _) => (.panic, x)
  | (.ok r, _) => lsLoop path recursive (s.data.length + 1) r x

/-- `CatCmd.Run` (cmd/gonix/nar/cat.go:17-55): prints to `os.Stdout` (45). -/
def catRun (s : Stream) (path : Bytes) (x : Std D) : Call Unit × Std D :=
  match Out.catRun s path x.out with
  | (r, w) => (r, { x with out := w })

/-- `DumpPathCmd.Run` (cmd/gonix/nar/dump.go:14-24): prints to `os.Stdout` (16). -/
def dumpRun (path : Bytes) (root : FNode) (x : Std D) : Call Unit × Std D :=
  match Out.dumpCmd path root x.out with
  | (r, w) => (r, { x with out := w })

/-- `ShowCmd.Run` (cmd/gonix/drv/cmd.go:23-53), as `Cmd.showDrv`: the JSON encoder makes one `Write` (encoding/json, `Encoder.Encode`) and
returns its error; the ATerm is written piece by piece. -/
def showRun (short : Bool) (format : Bytes) (got : Res Derivation.Derivation) (x : Std D) : Res Unit × Std D :=
  match got with
  | .err e => (.err e, x)
  | .panic => (.panic, x)
  | .ok d =>
    if format = b!"json" then
      match writeAll ((Cmd.jsonDrv d).text short ++ b!"\n") x.out with
      | (r, w) => (r, { x with out := w })
    else if format = b!"json-pretty" then
      match writeAll ((Cmd.jsonDrv d).pretty short 0 ++ b!"\n") x.out with
      | (r, w) => (r, { x with out := w })
    else if format = b!"aterm" then
      match writeDrv d x.out with
      | (r, w) => (r, { x with out := w })
    else (.err (.msg "invalid format"), x)

end Verif.Streams
