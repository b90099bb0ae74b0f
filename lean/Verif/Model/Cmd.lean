import Verif.Model.Nar
import Verif.Model.Store

/-!
# Model of `cmd/gonix`

The parts of the commands after the arguments are parsed (kong is not modelled). What is printed is
returned: that `ls` prints with the built-in `print`, to the standard error, is in `Model/Streams`, C139; failures of the
standard output are in `Model/Out`, C125.
-/

namespace Verif.Cmd
open Verif.GoLib Verif.Nar Verif.Wire

/-- `fs.FileMode.String` of the Go library. -/
def modeString (m : Nat) : Bytes :=
  let t := ((b!"dalTLDpSugct?").zip (List.range 13)).filterMap fun x => if m.testBit (31 - x.2) then some x.1 else none
  (if t = [] then b!"-" else t) ++
    ((b!"rwxrwxrwx").zip (List.range 9)).map fun x => if m.testBit (8 - x.2) then x.1 else 45

/-- `headerLineString` (cmd/gonix/nar/ls.go:20-42). -/
def headerLineString (h : Header) : Bytes :=
  modeString h.mode ++ b!" " ++ h.path ++
    (if h.size > 0 then b!" (" ++ formatUint h.size.toNat ++ b!" bytes)" else []) ++
    (if h.linkTarget ≠ [] then b!" -> " ++ h.linkTarget else []) ++ b!"\n"

/-- The loop of `LsCmd.Run` (cmd/gonix/nar/ls.go:55-82): what is printed, and the result. The number
bounds the iterations; a bound above the number of bytes left is never reached (`C91_ls_total`). -/
def lsLoop (path : Bytes) (recursive : Bool) : Nat → Reader → Bytes × Call Unit
  | 0, _ => ([], .err outOfFuel)
  | fuel + 1, r =>
    match r.next with
    | (.err e, _) => ([], if e = .eof then .ok () else .err e)
    | (.panic, _) => ([], .panic)
    | (.block, _) => ([], .block)
    | (.ok h, r') =>
      if hasPrefix h.path path then
        let rest := lsLoop path recursive fuel r'
        ((if recursive || !contains (h.path.drop path.length) b!"/" then headerLineString h else []) ++ rest.1, rest.2)
      else if strLt path h.path then ([], .ok ())
      else lsLoop path recursive fuel r'

/-- `LsCmd.Run` (cmd/gonix/nar/ls.go:44-83) on a file with these contents. -/
def lsRun (s : Stream) (path : Bytes) (recursive : Bool) : Bytes × Call Unit :=
  match newReader s with
  | (.err e, _) => ([], .err e)
  | (.panic, _) => ([], .panic)
  | (.ok r, _) => lsLoop path recursive (s.data.length + 1) r

/-- `io.Copy` to the standard output (cmd/gonix/nar/cat.go:47): what is written, and the result. `bufio.Writer` hands over to
`os.File`, which copies with a buffer of 32 kB. The number bounds the iterations (`C91_cat_total`). -/
def copyAll : Nat → Reader → Bytes × Call Unit
  | 0, _ => ([], .err outOfFuel)
  | fuel + 1, r =>
    match r.read 32768 with
    | (.err e, _) => ([], if e = .eof then .ok () else .err e)
    | (.panic, _) => ([], .panic)
    | (.ok d, r') => (d ++ (copyAll fuel r').1, (copyAll fuel r').2)

/-- The loop of `CatCmd.Run` (cmd/gonix/nar/cat.go:28-54). The number bounds the iterations. -/
def catLoop (path : Bytes) : Nat → Reader → Bytes × Call Unit
  | 0, _ => ([], .err outOfFuel)
  | fuel + 1, r =>
    match r.next with
    | (.err e, _) => ([], .err (if e = .eof then .msg "requested path not found" else e))
    | (.panic, _) => ([], .panic)
    | (.block, _) => ([], .block)
    | (.ok h, r') =>
      if h.path = path then
        if h.typ ≠ typeRegular then ([], .err (.msg "unable to cat non-regular file"))
        else copyAll (h.size.toNat + 1) r'
      else catLoop path fuel r'

/-- `CatCmd.Run` (cmd/gonix/nar/cat.go:17-55) on a file with these contents. -/
def catRun (s : Stream) (path : Bytes) : Bytes × Call Unit :=
  match newReader s with
  | (.err e, _) => ([], .err e)
  | (.panic, _) => ([], .panic)
  | (.ok r, _) => catLoop path (s.data.length + 1) r

/-- `ShowCmd.Run` (cmd/gonix/drv/cmd.go:23-53) for the format `aterm`; `get` is the `Get` of the store, and the standard output does not
fail. The JSON formats are not modelled. -/
def showAterm (get : Bytes → Res Derivation.Derivation) (drv : Bytes) : Res Bytes :=
  match get drv with
  | .err e => .err e
  | .panic => .panic
  | .ok d =>
    match d.write ⟨[], none⟩ with
    | (.ok (), w) => .ok w.out
    | (.err e, _) => .err e
    | (.panic, _) => .panic

end Verif.Cmd
