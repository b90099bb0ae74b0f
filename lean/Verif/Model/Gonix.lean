import Verif.Model.Show
import Verif.Model.Store

/-!
# Model of the command `gonix drv show`, from the store URI to the output

kong's reading of the command line is not modelled.
-/

namespace Verif.Cmd
open Verif.GoLib Verif.Derivation Verif.Store

/-- What is outside of the process: the files, the HTTP client, Badger's `Open` for a directory, and the `name` in a JSON text. -/
structure World where
  os : Fs
  request : Bytes → GoUrl.URL → Res Response
  openBadger : Bytes → Res Badger
  jsonName : Bytes → Res (Option Bytes)

/-- A `derivation.Store` that `NewFromURI` has returned. -/
inductive OpenStore where
  | fs (store : FSStore)
  | badger (db : Badger)
  | http (store : HTTPStore)

/-- `NewFromURI` (store/uri.go:16-36) with `NewBadgerStore` (store/badger.go:20-31) and `NewBadgerMemoryStore` (33-43): a database in
memory is empty. -/
def openURI (w : World) (uri : Bytes) : Res OpenStore :=
  match newFromURI uri with
  | .err e => .err e
  | .panic => .panic
  | .ok (.fs s) => .ok (.fs s)
  | .ok (.http s) => .ok (.http s)
  | .ok .badgerMemory => .ok (.badger [])
  | .ok (.badger path) =>
    match w.openBadger path with
    | .err _ => .err (.msg "error opening badger store")
    | .panic => .panic
    | .ok db => .ok (.badger db)

/-- `drvStoreURIDecoder` (cmd/gonix/drv_store_uri_mapper.go:11-29), on the value of the flag. -/
def drvStoreURIDecode (w : World) (uri : Bytes) : Res OpenStore :=
  match openURI w uri with
  | .err _ => .err (.msg "error creating store from URI")
  | .panic => .panic
  | .ok s => .ok s

/-- `Store.Get`. -/
def OpenStore.get (w : World) : OpenStore → Bytes → Res Derivation
  | .fs s, p => s.get w.jsonName w.os p
  | .badger db, p => db.getDrv w.jsonName p
  | .http s, p => s.get w.jsonName w.request p

/-- `main` (cmd/gonix/main.go:17-31) for `gonix drv --drv-store=URI show --format=FORMAT PATH`: what is printed; an error is
`FatalIfErrorf` (line 30), a panic includes that of a flag that could not be decoded (lines 24-26). -/
def gonixDrvShow (w : World) (short : Bool) (uri format path : Bytes) : Res Bytes :=
  match drvStoreURIDecode w uri with
  | .err _ => .panic
  | .panic => .panic
  | .ok s => showDrv short format (s.get w path)

end Verif.Cmd
