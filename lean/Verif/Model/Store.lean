import Verif.Model.Derivation
import Verif.GoUrl

/-!
# Model of `pkg/derivation/store`

Derivations are values: a caller that modifies a derivation after `Put` or after `Get` (the stores keep
and hand out pointers) is the subject of Model/Heap. Badger, the file system and the HTTP client are parameters or
simplified as said below.
-/

namespace Verif.Store
open Verif.GoLib Verif.Derivation Verif.Wire
open Verif.GoUrl (URL)

/-! ## util.go -/

/-- The loop over the input derivations (util.go:23-32). -/
def checkInputs (has : Bytes → Res Bool) : List Bytes → Res Unit
  | [] => .ok ()
  | p :: rest =>
    match has p with
    | .err _ => .err (.msg "error checking if input derivation exists")
    | .panic => .panic
    | .ok found =>
      if !found then .err (.msg "unable to find referred input drv path") else checkInputs has rest

/-- `validateDerivationInStore` (util.go:12-35); `has` is `store.Has`. -/
def validateInStore (has : Bytes → Res Bool) (d : Derivation) : Res Unit :=
  match d.validate with
  | .err _ => .err (.msg "unable to validate derivation")
  | .panic => .panic
  | .ok () => checkInputs has d.inputDerivations.keys

/-- The comparison of the output paths (util.go:48-55). A missing output would be a nil pointer. -/
def comparePaths (d : Derivation) : GoMap Bytes → Res Unit
  | [] => .ok ()
  | (outputName, calculated) :: rest =>
    match d.outputs.get? outputName with
    | none => .panic
    | some o =>
      if calculated ≠ o.path then .err (.msg "calculated output path doesn't match sent output path")
      else comparePaths d rest

/-- `checkOutputPaths` (util.go:39-58). -/
def checkOutputPaths (sha256 : Bytes → Bytes) (d : Derivation) (repl : GoMap Bytes) : Res Unit :=
  match calculateOutputPaths sha256 d repl with
  | .err _ => .err (.msg "unable to calculate output paths")
  | .panic => .panic
  | .ok m => comparePaths d m

/-! ## map.go -/

/-- `MapStore` (map.go:23-29). -/
structure MapStore where
  drvs : GoMap Derivation
  drvReplacements : GoMap Bytes
  deriving DecidableEq, Repr

/-- `NewMapStore` (map.go:13-18). -/
def newMapStore : MapStore := ⟨[], []⟩

/-- `Has` (map.go:73-79). -/
def MapStore.has (ms : MapStore) (p : Bytes) : Res Bool := .ok (ms.drvs.get? p).isSome

/-- `Get` (map.go:64-70). -/
def MapStore.get (ms : MapStore) (p : Bytes) : Res Derivation :=
  match ms.drvs.get? p with
  | some d => .ok d
  | none => .err (.msg "derivation path not found")

/-- The checks at the beginning of `Put`, and the path (map.go:33-45). -/
def MapStore.putPath (sha256 : Bytes → Bytes) (ms : MapStore) (d : Derivation) : Res Bytes := do
  validateInStore ms.has d
  checkOutputPaths sha256 d ms.drvReplacements
  drvPath sha256 d

/-- `Put` (map.go:32-61). -/
def MapStore.put (sha256 : Bytes → Bytes) (d : Derivation) : M MapStore Bytes := fun ms =>
  match ms.putPath sha256 d with
  | .err e => (.err e, ms)
  | .panic => (.panic, ms)
  | .ok p =>
    let ms1 : MapStore := ⟨ms.drvs.insert p d, ms.drvReplacements⟩
    match calculateDrvReplacement sha256 d ms1.drvReplacements with
    | .err _ => (.err (.msg "unable to calculate drv replacement"), ms1)
    | .panic => (.panic, ms1)
    | .ok r => (.ok p, ⟨ms1.drvs, ms1.drvReplacements.insert p r⟩)

/-! ## badger.go -/

/-- The Badger database: keys and values. Operations of Badger that fail for other reasons than a missing
key are not modelled. -/
abbrev Badger := GoMap Bytes

/-- The keys that an iterator visits after `Seek(key)`: those that are not less than `key`, in order. -/
def Badger.seek (db : Badger) (key : Bytes) : List Bytes := (sortStrings db.keys).dropWhile fun k => !strLe key k

/-- The loop of `Has` (badger.go:184-193), over the keys that the iterator visits. -/
def hasKey (key : Bytes) : List Bytes → Bool
  | [] => false
  | k :: ks => if k = key then true else hasKey key ks

/-- `Has` (badger.go:172-202). -/
def Badger.has (db : Badger) (p : Bytes) : Res Bool := .ok (hasKey (b!"drv:" ++ p) (db.seek (b!"drv:" ++ p)))

/-- `Get` (badger.go:140-168). -/
def Badger.getDrv (jsonName : Bytes → Res (Option Bytes)) (db : Badger) (p : Bytes) : Res Derivation :=
  match db.get? (b!"drv:" ++ p) with
  | none => .err (.msg "derivation path not found")
  | some v => readDerivation jsonName ⟨v, .eof⟩

/-- The lookup of the replacements (badger.go:61-86). The `return` is inside the loop: the loop ends with the
first input derivation. -/
def Badger.loadReplacements (db : Badger) : List Bytes → Res (GoMap Bytes)
  | [] => .ok []
  | p :: _ =>
    match db.get? (b!"replacement:" ++ p) with
    | none => .err (.msg "unable to get input derivations")
    | some r => .ok [(p, r)]

/-- `Put` up to the transaction (badger.go:54-104): the path, the text and the replacements. -/
def Badger.putPath (sha256 : Bytes → Bytes) (db : Badger) (d : Derivation) : Res (Bytes × Bytes × GoMap Bytes) := do
  validateInStore db.has d
  let repl ← db.loadReplacements d.inputDerivations.keys
  checkOutputPaths sha256 d repl
  let p ← drvPath sha256 d
  let t ← aterm d false []
  .ok (p, t, repl)

/-- `Put` (badger.go:54-137). The transaction is applied only if its function returns nil. -/
def Badger.put (sha256 : Bytes → Bytes) (d : Derivation) : M Badger Bytes := fun db =>
  match db.putPath sha256 d with
  | .err e => (.err e, db)
  | .panic => (.panic, db)
  | .ok (p, t, repl) =>
    match calculateDrvReplacement sha256 d repl with
    | .err _ => (.err (.msg "unable to calculate replacement string"), db)
    | .panic => (.panic, db)
    | .ok r => (.ok p, (db.insert (b!"drv:" ++ p) t).insert (b!"replacement:" ++ p) r)

/-! ## filesystem.go -/

/-- What `os.Lstat` tells about a file. -/
inductive FileKind where
  | regular | directory | symlink | other
  deriving DecidableEq, Repr

/-- The file system: `lstat` (`none`: the file does not exist), and what `os.Open` followed by reading delivers. -/
structure Fs where
  lstat : Bytes → Res (Option FileKind)
  openFile : Bytes → Res Stream

/-- `FSStore` (filesystem.go:37-40). -/
structure FSStore where
  storageDir : Bytes
  deriving DecidableEq, Repr

/-- `NewFSStore` (filesystem.go:21-29). -/
def newFSStore (dir : Bytes) : FSStore := ⟨if dir = [] then Storepath.storeDir else dir⟩

/-- `Put` (filesystem.go:43-45). -/
def FSStore.put (_ : FSStore) (_ : Derivation) : Res Bytes := .err (.msg "not implemented")

/-- `getFilepath` (filesystem.go:49-51). -/
def FSStore.getFilepath (fs : FSStore) (p : Bytes) : Bytes := pathJoin fs.storageDir (pathBase p)

/-- `Get` (filesystem.go:54-68). -/
def FSStore.get (jsonName : Bytes → Res (Option Bytes)) (os : Fs) (fs : FSStore) (p : Bytes) : Res Derivation := do
  let s ← os.openFile (fs.getFilepath p)
  match readDerivation jsonName s with
  | .err _ => .err (.msg "unable to parse derivation")
  | .panic => .panic
  | .ok d => .ok d

/-- `Has` (filesystem.go:73-95). -/
def FSStore.has (os : Fs) (fs : FSStore) (p : Bytes) : Res Bool :=
  match os.lstat (fs.getFilepath p) with
  | .err _ => .err (.msg "unable to stat")
  | .panic => .panic
  | .ok none => .ok false
  | .ok (some k) => if k ≠ .regular then .err (.msg "file is not regular") else .ok true

/-! ## http.go -/

/-- A response: the status code and the body. -/
structure Response where
  status : Int
  body : Stream

/-- `HTTPStore` (http.go:32-36): the base URL. The client is a parameter of the methods. -/
structure HTTPStore where
  baseURL : URL
  deriving DecidableEq, Repr

/-- `getURL` (http.go:47-53): the base URL with another path. -/
def HTTPStore.getURL (hs : HTTPStore) (p : Bytes) : URL :=
  { hs.baseURL with path := pathJoin hs.baseURL.path (pathBase p) }

/-- `constructRequest` (http.go:56-70): the URL of the request. `http.NewRequestWithContext` parses the text of the
URL and removes a colon at the end of the host (`removeEmptyPort`). -/
def HTTPStore.constructRequest (hs : HTTPStore) (p : Bytes) : Res URL :=
  match GoUrl.parse (hs.getURL p).string with
  | .err _ => .err (.msg "error constructing request")
  | .panic => .panic
  | .ok u => .ok { u with host := if u.host.getLast? = some 58 then u.host.dropLast else u.host }

/-- `Put` (http.go:39-41). -/
def HTTPStore.put (_ : HTTPStore) (_ : Derivation) : Res Bytes := .err (.msg "not implemented")

/-- `Get` (http.go:73-105); `request` is `Client.Do` for a method and a URL. -/
def HTTPStore.get (jsonName : Bytes → Res (Option Bytes)) (request : Bytes → URL → Res Response) (hs : HTTPStore)
    (p : Bytes) : Res Derivation := do
  let u ← hs.constructRequest p
  let resp ← request b!"GET" u
  if resp.status < 200 ∨ resp.status ≥ 300 then .err (.msg "bad status code")
  else if resp.body.term ≠ .eof then .err (.msg "error reading body")
  else match readDerivation jsonName ⟨resp.body.data, .eof⟩ with
    | .err _ => .err (.msg "error parsing derivation")
    | .panic => .panic
    | .ok d => .ok d

/-- `Has` (http.go:109-134). -/
def HTTPStore.has (request : Bytes → URL → Res Response) (hs : HTTPStore) (p : Bytes) : Res Bool := do
  let u ← hs.constructRequest p
  let resp ← request b!"HEAD" u
  if resp.status = 404 then .ok false
  else if resp.status ≥ 200 ∧ resp.status < 300 then .ok true
  else .err (.msg "bad status code")

/-! ## uri.go -/

/-- The constructor that is called, with its argument. -/
inductive Opened where
  | fs (store : FSStore)
  | badger (path : Bytes)
  | badgerMemory
  | http (store : HTTPStore)
  deriving DecidableEq, Repr

/-- `NewFromURI` (uri.go:16-36) and `NewHTTPStore` (http.go:18-23); opening the Badger store is not modelled. -/
def newFromURI (uri : Bytes) : Res Opened :=
  match GoUrl.parse uri with
  | .err _ => .err (.msg "unable to parse uri")
  | .panic => .panic
  | .ok u =>
    if u.scheme = [] then .ok (.fs (newFSStore u.path))
    else if u.scheme = b!"badger" then .ok (.badger [])
    else if u.scheme = b!"file" then .ok (.fs (newFSStore u.path))
    else if u.scheme = b!"http" then .ok (.http ⟨u⟩)
    else if u.scheme = b!"https" then .ok (.http ⟨u⟩)
    else .err (.msg "unknown scheme")

end Verif.Store
