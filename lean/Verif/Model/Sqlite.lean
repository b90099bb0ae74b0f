import Verif.Basic

/-!
# Model of `pkg/sqlite`

The four packages are sqlc-generated wrappers: every method sends one SQL statement with its
arguments and copies the rows into structs. The meaning of these statements on tables with the quoted schemas is
modelled here; SQLite itself, the driver, I/O errors, locking and cancelled contexts are not. A statement that
fails leaves the database as it was (SQLite rolls the statement back). Foreign keys are enforced only if the
connection enables them (`fk`): SQLite's default is off, and the constructors (sqlite.go:15-49) hand the caller's DSN
through. Text is `Bytes`, a nullable column is an `Option`, an `int64` is an `Int`. Rows of a table are a list; results of
`:many` queries come in some order.
-/

namespace Verif.Sqlite

/-- `insert or replace` of a row into a table with the given primary key. -/
def insertOrReplace {R K : Type} [DecidableEq K] (key : R → K) (row : R) (t : List R) : List R :=
  t.filter (fun x => key x ≠ key row) ++ [row]

/-! ## fetcher_cache_v2 -/

namespace Fetcher

/-- table `Cache` (fetcher_cache_v2/schema.sql:1-7) -/
structure Row where
  domain : Bytes
  key : Bytes
  value : Bytes
  timestamp : Int
  deriving DecidableEq, Repr

/-- `UpsertCache` (fetcher_cache_v2/query.sql:1-2, query.sql.go:49-68). -/
def upsertCache (r : Row) (t : List Row) : List Row := insertOrReplace (fun x => (x.domain, x.key)) r t

/-- `QueryCache` (fetcher_cache_v2/query.sql:4-5, query.sql.go:12-48). -/
def queryCache (t : List Row) (domain key : Bytes) : List (Bytes × Int) :=
  (t.filter fun x => x.domain = domain && x.key = key).map fun x => (x.value, x.timestamp)

end Fetcher

/-! ## eval_cache_v5 -/

namespace Eval

/-- table `Attributes` (eval_cache_v5/schema.sql:1-8) -/
structure Row where
  parent : Int
  name : Option Bytes
  typ : Int
  value : Option Bytes
  context : Option Bytes
  deriving DecidableEq, Repr

/-- `insert or replace` with the primary key `(parent, name)`: NULL is different from everything,
itself included, so a row without a name replaces nothing. -/
def insertRow (r : Row) (t : List Row) : List Row :=
  t.filter (fun x => !(x.parent = r.parent && x.name.isSome && x.name = r.name)) ++ [r]

/-- `InsertAttribute` (eval_cache_v5/query.sql:1-2, query.sql.go:13-32): the context becomes NULL. -/
def insertAttribute (parent : Int) (name : Option Bytes) (typ : Int) (value : Option Bytes) (t : List Row) : List Row :=
  insertRow ⟨parent, name, typ, value, none⟩ t

/-- `InsertAttributeWithContext` (eval_cache_v5/query.sql:4-5, query.sql.go:34-55). -/
def insertAttributeWithContext (parent : Int) (name : Option Bytes) (typ : Int) (value context : Option Bytes)
    (t : List Row) : List Row :=
  insertRow ⟨parent, name, typ, value, context⟩ t

/-- `QueryAttribute` (eval_cache_v5/query.sql:7-9, query.sql.go:57-78); `none` is `sql.ErrNoRows`. `name = NULL` is never true. -/
def queryAttribute (t : List Row) (parent : Int) (name : Option Bytes) : Option (Int × Option Bytes × Option Bytes) :=
  ((t.filter fun x => x.parent = parent && x.name.isSome && x.name = name).map fun x => (x.typ, x.value, x.context)).head?

/-- `QueryAttributes` (eval_cache_v5/query.sql:11-12, query.sql.go:80-105). -/
def queryAttributes (t : List Row) (parent : Int) : List (Option Bytes) :=
  (t.filter fun x => x.parent = parent).map (·.name)

end Eval

/-! ## binary_cache_v6 -/

namespace BinCache

/-- table `BinaryCaches` (binary_cache_v6/schema.sql:1-8) -/
structure CacheRow where
  id : Int
  url : Bytes
  timestamp : Int
  storeDir : Bytes
  wantMassQuery : Int
  priority : Int
  deriving DecidableEq, Repr

/-- The nullable columns of `NARs`. -/
structure NarInfoCols where
  namePart : Option Bytes
  url : Option Bytes
  compression : Option Bytes
  fileHash : Option Bytes
  fileSize : Option Int
  narHash : Option Bytes
  narSize : Option Int
  refs : Option Bytes
  deriver : Option Bytes
  sigs : Option Bytes
  ca : Option Bytes
  deriving DecidableEq, Repr

/-- table `NARs` (binary_cache_v6/schema.sql:10-28) -/
structure NarRow where
  cache : Int
  hashPart : Bytes
  info : NarInfoCols
  timestamp : Int
  present : Int
  deriving DecidableEq, Repr

/-- table `Realisations` (binary_cache_v6/schema.sql:29-36) -/
structure RealRow where
  cache : Int
  outputId : Bytes
  content : Option Bytes
  timestamp : Int
  deriving DecidableEq, Repr

/-- The database; `seq` is the largest id ever given out (`sqlite_sequence`). -/
structure DB where
  caches : List CacheRow
  seq : Nat
  nars : List NarRow
  reals : List RealRow
  lastPurge : List (Bytes × Option Int)
  deriving DecidableEq, Repr

/-- The tables after the schema was executed. -/
def empty : DB := ⟨[], 0, [], [], []⟩

/-- `InsertCache` (binary_cache_v6/query.sql:1-6, query.sql.go:13-40). An id that was never used before is taken for a new
row; SQLite may skip some (`gap`). -/
def insertCache (gap : Nat) (url : Bytes) (timestamp : Int) (storeDir : Bytes) (wantMassQuery priority : Int) (db : DB) :
    Int × DB :=
  match db.caches.find? (fun c => c.url = url) with
  | some c => (c.id, { db with seq := db.seq + gap, caches := db.caches.map fun x =>
      if x.url = url then { x with timestamp := timestamp, storeDir := storeDir, wantMassQuery := wantMassQuery, priority := priority }
      else x })
  | none =>
    (((db.seq + gap + 1 : Nat) : Int), { db with seq := db.seq + gap + 1, caches := db.caches ++
      [⟨((db.seq + gap + 1 : Nat) : Int), url, timestamp, storeDir, wantMassQuery, priority⟩] })

/-- `QueryCache` (binary_cache_v6/query.sql:8-9, query.sql.go:153-195). -/
def queryCache (db : DB) (url : Bytes) (timestamp : Int) : List (Int × Bytes × Int × Int) :=
  (db.caches.filter fun c => c.url = url && c.timestamp > timestamp).map fun c => (c.id, c.storeDir, c.wantMassQuery, c.priority)

/-- `foreign key (cache) references BinaryCaches(id)` -/
def cacheKnown (fk : Bool) (db : DB) (cache : Int) : Bool := !fk || db.caches.any (·.id = cache)

/-- `insert or replace into NARs`. -/
def putNar (fk : Bool) (r : NarRow) (db : DB) : Res Unit × DB :=
  if cacheKnown fk db r.cache then
    (.ok (), { db with nars := insertOrReplace (fun x => (x.cache, x.hashPart)) r db.nars })
  else (.err (.msg "FOREIGN KEY constraint failed"), db)

/-- `InsertNar` (binary_cache_v6/query.sql:11-15, query.sql.go:73-115). -/
def insertNar (fk : Bool) (cache : Int) (hashPart : Bytes) (info : NarInfoCols) (timestamp : Int) (db : DB) : Res Unit × DB :=
  putNar fk ⟨cache, hashPart, info, timestamp, 1⟩ db

/-- all NULL -/
def noInfo : NarInfoCols := ⟨none, none, none, none, none, none, none, none, none, none, none⟩

/-- `InsertMissingNAR` (binary_cache_v6/query.sql:17-18, query.sql.go:42-55). -/
def insertMissingNAR (fk : Bool) (cache : Int) (hashPart : Bytes) (timestamp : Int) (db : DB) : Res Unit × DB :=
  putNar fk ⟨cache, hashPart, noInfo, timestamp, 0⟩ db

/-- `QueryNar` (binary_cache_v6/query.sql:20-22, query.sql.go:208-274). -/
def queryNar (db : DB) (cache : Int) (hashPart : Bytes) (timestamp timestamp2 : Int) : List (Int × NarInfoCols) :=
  (db.nars.filter fun x => x.cache = cache && x.hashPart = hashPart &&
    ((x.present = 0 && x.timestamp > timestamp) || (x.present = 1 && x.timestamp > timestamp2))).map fun x => (x.present, x.info)

/-- `PurgeNars` (binary_cache_v6/query.sql:46-47, query.sql.go:139-151). -/
def purgeNars (timestamp timestamp2 : Int) (db : DB) : DB :=
  { db with nars := db.nars.filter fun x =>
      !((x.present = 0 && x.timestamp < timestamp) || (x.present = 1 && x.timestamp < timestamp2)) }

/-- `insert or replace into Realisations`. -/
def putRealisation (fk : Bool) (r : RealRow) (db : DB) : Res Unit × DB :=
  if cacheKnown fk db r.cache then
    (.ok (), { db with reals := insertOrReplace (fun x => (x.cache, x.outputId)) r db.reals })
  else (.err (.msg "FOREIGN KEY constraint failed"), db)

/-- `InsertRealisation` (binary_cache_v6/query.sql:24-26, query.sql.go:117-137); a nil slice is NULL. -/
def insertRealisation (fk : Bool) (cache : Int) (outputId : Bytes) (content : Option Bytes) (timestamp : Int) (db : DB) :
    Res Unit × DB :=
  putRealisation fk ⟨cache, outputId, content, timestamp⟩ db

/-- `InsertMissingRealisation` (binary_cache_v6/query.sql:28-30, query.sql.go:57-71). -/
def insertMissingRealisation (fk : Bool) (cache : Int) (outputId : Bytes) (timestamp : Int) (db : DB) : Res Unit × DB :=
  putRealisation fk ⟨cache, outputId, none, timestamp⟩ db

/-- `QueryRealisation` (binary_cache_v6/query.sql:32-38, query.sql.go:276-318). -/
def queryRealisation (db : DB) (cache : Int) (outputId : Bytes) (timestamp timestamp2 : Int) : List (Option Bytes) :=
  (db.reals.filter fun x => x.cache = cache && x.outputId = outputId &&
    ((x.content.isNone && x.timestamp > timestamp) || (x.content.isSome && x.timestamp > timestamp2))).map (·.content)

/-- `QueryLastPurge` (binary_cache_v6/query.sql:40-41, query.sql.go:197-206); `none` is `sql.ErrNoRows`. -/
def queryLastPurge (db : DB) : Option (Option Int) := (db.lastPurge.map (·.2)).head?

/-- `UpdateLastPurge` (binary_cache_v6/query.sql:43-44, query.sql.go:320-327). -/
def updateLastPurge (value : Option Int) (db : DB) : DB :=
  { db with lastPurge := insertOrReplace (·.1) (([] : Bytes), value) db.lastPurge }

end BinCache

/-! ## nix_v10 -/

namespace Nix

/-- table `ValidPaths` (nix_v10/schema.sql:1-11) -/
structure PathRow where
  id : Int
  path : Bytes
  hash : Bytes
  registrationTime : Int
  deriver : Option Bytes
  narSize : Option Int
  ultimate : Option Int
  sigs : Option Bytes
  ca : Option Bytes
  deriving DecidableEq, Repr

/-- table `DerivationOutputs` (nix_v10/schema.sql:26-32) -/
structure OutRow where
  drv : Int
  id : Bytes
  path : Bytes
  deriving DecidableEq, Repr

/-- The database; `refs` is the table `Refs` (nix_v10/schema.sql:13-19): pairs of referrer and reference. -/
structure DB where
  paths : List PathRow
  seq : Nat
  refs : List (Int × Int)
  outs : List OutRow
  deriving DecidableEq, Repr

/-- The tables after the schema was executed. -/
def empty : DB := ⟨[], 0, [], []⟩

/-- `RegisterValidPathParams` (nix_v10/query.sql.go:215-224). -/
structure PathParams where
  path : Bytes
  hash : Bytes
  registrationTime : Int
  deriver : Option Bytes
  narSize : Option Int
  ultimate : Option Int
  sigs : Option Bytes
  ca : Option Bytes
  deriving DecidableEq, Repr

/-- `RegisterValidPath` (nix_v10/query.sql:1-3, query.sql.go:210-238). The id is one that was never used before (`gap` as in
`BinCache.insertCache`). -/
def registerValidPath (gap : Nat) (a : PathParams) (db : DB) : Res Unit × DB :=
  if db.paths.any (·.path = a.path) then (.err (.msg "UNIQUE constraint failed: ValidPaths.path"), db)
  else (.ok (), { db with
    seq := db.seq + gap + 1
    paths := db.paths ++ [⟨((db.seq + gap + 1 : Nat) : Int), a.path, a.hash, a.registrationTime, a.deriver, a.narSize, a.ultimate, a.sigs, a.ca⟩] })

/-- `UpdatePathInfo` (nix_v10/query.sql:5-6, query.sql.go:240-263). -/
def updatePathInfo (narSize : Option Int) (hash : Bytes) (ultimate : Option Int) (sigs ca : Option Bytes) (path : Bytes)
    (db : DB) : DB :=
  { db with paths := db.paths.map fun r =>
      if r.path = path then { r with narSize := narSize, hash := hash, ultimate := ultimate, sigs := sigs, ca := ca } else r }

/-- A foreign key into `ValidPaths(id)` holds. -/
def idKnown (fk : Bool) (db : DB) (id : Int) : Bool := !fk || db.paths.any (·.id = id)

/-- `AddReference` (nix_v10/query.sql:8-9, query.sql.go:28-40). -/
def addReference (fk : Bool) (referrer reference : Int) (db : DB) : Res Unit × DB :=
  if idKnown fk db referrer && idKnown fk db reference then
    (.ok (), { db with refs := insertOrReplace id (referrer, reference) db.refs })
  else (.err (.msg "FOREIGN KEY constraint failed"), db)

/-- `QueryPathInfo` (nix_v10/query.sql:11-12, query.sql.go:93-122); `none` is `sql.ErrNoRows`. -/
def queryPathInfo (db : DB) (path : Bytes) : Option (Int × Bytes × Int × Option Bytes × Option Int × Option Int × Option Bytes × Option Bytes) :=
  ((db.paths.filter fun r => r.path = path).map fun r =>
    (r.id, r.hash, r.registrationTime, r.deriver, r.narSize, r.ultimate, r.sigs, r.ca)).head?

/-- `QueryReferences` (nix_v10/query.sql:14-15, query.sql.go:124-149). -/
def queryReferences (db : DB) (referrer : Int) : List Bytes :=
  (db.refs.filter (·.1 = referrer)).flatMap fun e => (db.paths.filter fun r => e.2 = r.id).map (·.path)

/-- `QueryReferrers` (nix_v10/query.sql:17-18, query.sql.go:151-176). The subquery is NULL, and equal to nothing, if the path is not
registered. -/
def queryReferrers (db : DB) (path : Bytes) : List Bytes :=
  match (db.paths.filter fun r => r.path = path).map (·.id) with
  | [] => []
  | p :: _ => (db.refs.filter (·.2 = p)).flatMap fun e => (db.paths.filter fun r => e.1 = r.id).map (·.path)

/-- `InvalidatePath` (nix_v10/query.sql:20-21, query.sql.go:42-49) with the trigger `DeleteSelfRefs` (nix_v10/schema.sql:22-25) and the actions
of the foreign keys (`reference`: restrict; `referrer` and `drv`: cascade). -/
def invalidatePath (fk : Bool) (path : Bytes) (db : DB) : Res Unit × DB :=
  match db.paths.find? (fun r => r.path = path) with
  | none => (.ok (), db)
  | some r =>
    let refs := db.refs.filter fun e => !(e.1 = r.id && e.2 = r.id)
    if fk && refs.any (·.2 = r.id) then (.err (.msg "FOREIGN KEY constraint failed"), db)
    else (.ok (), { db with
      paths := db.paths.filter fun x => x.path ≠ path
      refs := if fk then refs.filter (·.1 ≠ r.id) else refs
      outs := if fk then db.outs.filter (·.drv ≠ r.id) else db.outs })

/-- `AddDerivationOutput` (nix_v10/query.sql:23-24, query.sql.go:13-26). -/
def addDerivationOutput (fk : Bool) (drv : Int) (id path : Bytes) (db : DB) : Res Unit × DB :=
  if idKnown fk db drv then
    (.ok (), { db with outs := insertOrReplace (fun x => (x.drv, x.id)) ⟨drv, id, path⟩ db.outs })
  else (.err (.msg "FOREIGN KEY constraint failed"), db)

/-- `QueryValidDerivers` (nix_v10/query.sql:26-27, query.sql.go:178-208). -/
def queryValidDerivers (db : DB) (path : Bytes) : List (Int × Bytes) :=
  (db.outs.filter (·.path = path)).flatMap fun o => (db.paths.filter fun r => o.drv = r.id).map fun r => (r.id, r.path)

/-- `QueryDerivationOutputs` (nix_v10/query.sql:29-30, query.sql.go:51-81). -/
def queryDerivationOutputs (db : DB) (drv : Int) : List (Bytes × Bytes) :=
  (db.outs.filter (·.drv = drv)).map fun o => (o.id, o.path)

/-- `QueryPathFromHashPart` (nix_v10/query.sql:32-33, query.sql.go:83-91): some row with `path >= ?`; the statement has no `order by`. -/
def QueryPathFromHashPart (db : DB) (arg : Bytes) (result : Option Bytes) : Prop :=
  match result with
  | some p => ∃ r ∈ db.paths, r.path = p ∧ arg ≤ p
  | none => ∀ r ∈ db.paths, ¬ arg ≤ r.path

end Nix

end Verif.Sqlite
