import Verif.Model.Derivation
import Verif.GoJson

/-!
# Model of `cmd/gonix/drv`

`gonix drv show` after the arguments are parsed (kong is not modelled). What is printed is returned; failures
of the standard output are in `Model/Streams`, C139. `encoding/json` is modelled in GoJson.lean.
-/

namespace Verif.Cmd
open Verif.GoLib Verif.GoJson Verif.Derivation

/-- `encoding/json` on a `[]string` that is not nil. -/
def jsonStrings : List Bytes → Jsons
  | [] => .nil
  | s :: l => .cons (.str s) (jsonStrings l)

/-- `encoding/json` on the entries of a map: in the order of the (sorted) keys. -/
def jsonEntries {α : Type} (enc : α → Json) (m : GoMap α) : List Bytes → Members
  | [] => .nil
  | k :: ks => match m.get? k with
    | some a => .cons k (enc a) (jsonEntries enc m ks)
    | none => jsonEntries enc m ks

/-- `encoding/json` on a map that is not nil. -/
def jsonMap {α : Type} (enc : α → Json) (m : GoMap α) : Json := .obj (jsonEntries enc m (sortStrings m.keys))

/-- `encoding/json` on an `Output` (output.go:7-11): empty hash and algorithm are omitted. -/
def jsonOutput (o : Output) : Json :=
  .obj (.cons b!"path" (.str o.path)
    (if o.hashAlgorithm = [] then
      (if o.hash = [] then .nil else .cons b!"hash" (.str o.hash) .nil)
    else .cons b!"hashAlgo" (.str o.hashAlgorithm)
      (if o.hash = [] then .nil else .cons b!"hash" (.str o.hash) .nil)))

/-- `encoding/json` on a `Derivation` (derivation.go:16-40) whose maps and slices are not nil: those that
`ReadDerivation` returns (parser.go:57-61, 66, 127, 210: only `Env` could be left nil, by a text of fewer than
seven fields, but `Validate` wants a `name` or `__json` in it). The name is not exported. -/
def jsonDrv (d : Derivation) : Json :=
  .obj (.cons b!"outputs" (jsonMap jsonOutput d.outputs)
    (.cons b!"inputSrcs" (.arr (jsonStrings d.inputSources))
    (.cons b!"inputDrvs" (jsonMap (fun l => .arr (jsonStrings l)) d.inputDerivations)
    (.cons b!"system" (.str d.platform)
    (.cons b!"builder" (.str d.builder)
    (.cons b!"args" (.arr (jsonStrings d.arguments))
    (.cons b!"env" (jsonMap .str d.env) .nil)))))))

/-- `ShowCmd.Run` (cmd/gonix/drv/cmd.go:23-53); `got` is the outcome of the `Get` of the store, `short` says
whether Go is 1.22 or later (`go.mod` allows 1.20). `Encode` ends the value with a newline. -/
def showDrv (short : Bool) (format : Bytes) (got : Res Derivation) : Res Bytes :=
  match got with
  | .err e => .err e
  | .panic => .panic
  | .ok d =>
    if format = b!"json" then .ok ((jsonDrv d).text short ++ b!"\n")
    else if format = b!"json-pretty" then .ok ((jsonDrv d).pretty short 0 ++ b!"\n")
    else if format = b!"aterm" then aterm d false []
    else .err (.msg "invalid format")

end Verif.Cmd
