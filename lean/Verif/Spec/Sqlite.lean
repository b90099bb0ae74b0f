import Verif.Model.Sqlite

/-! # Specification: histories of database calls, and what the queries are to return after them -/

namespace Verif.Sqlite

/-! ## fetcher_cache_v2 -/

/-- The database after these `UpsertCache` calls. -/
def Fetcher.history (t : List Fetcher.Row) (calls : List Fetcher.Row) : List Fetcher.Row :=
  calls.foldl (fun t r => Fetcher.upsertCache r t) t

/-- The last call for a domain and key. -/
def Fetcher.last (calls : List Fetcher.Row) (domain key : Bytes) : Option Fetcher.Row :=
  calls.reverse.find? fun r => r.domain = domain && r.key = key

/-! ## eval_cache_v5 -/

/-- A modifying call: `InsertAttribute`, or with the last argument `InsertAttributeWithContext`. -/
structure Eval.Call where
  parent : Int
  name : Option Bytes
  typ : Int
  value : Option Bytes
  context : Option (Option Bytes)
  deriving DecidableEq, Repr

/-- One call. -/
def Eval.step (t : List Eval.Row) (c : Eval.Call) : List Eval.Row :=
  match c.context with
  | none => Eval.insertAttribute c.parent c.name c.typ c.value t
  | some x => Eval.insertAttributeWithContext c.parent c.name c.typ c.value x t

/-- The last call for a parent and name. -/
def Eval.last (calls : List Eval.Call) (parent : Int) (name : Bytes) : Option Eval.Call :=
  calls.reverse.find? fun c => c.parent = parent && c.name = some name

/-! ## binary_cache_v6 -/

namespace BinCache

/-- A modifying call. -/
inductive Op where
  | insertCache (gap : Nat) (url : Bytes) (timestamp : Int) (storeDir : Bytes) (wantMassQuery priority : Int)
  | insertNar (cache : Int) (hashPart : Bytes) (info : NarInfoCols) (timestamp : Int)
  | insertMissingNAR (cache : Int) (hashPart : Bytes) (timestamp : Int)
  | purgeNars (timestamp timestamp2 : Int)
  | insertRealisation (cache : Int) (outputId : Bytes) (content : Option Bytes) (timestamp : Int)
  | insertMissingRealisation (cache : Int) (outputId : Bytes) (timestamp : Int)
  | updateLastPurge (value : Option Int)

/-- One call; what it returned (the id for `InsertCache`, 0 for the others) or its error. -/
def step (fk : Bool) (db : DB) : Op → Res Int × DB
  | .insertCache gap url ts sd w p => (.ok (insertCache gap url ts sd w p db).1, (insertCache gap url ts sd w p db).2)
  | .insertNar c h i ts => ((insertNar fk c h i ts db).1.bind fun _ => .ok 0, (insertNar fk c h i ts db).2)
  | .insertMissingNAR c h ts => ((insertMissingNAR fk c h ts db).1.bind fun _ => .ok 0, (insertMissingNAR fk c h ts db).2)
  | .purgeNars t t2 => (.ok 0, purgeNars t t2 db)
  | .insertRealisation c o x ts => ((insertRealisation fk c o x ts db).1.bind fun _ => .ok 0, (insertRealisation fk c o x ts db).2)
  | .insertMissingRealisation c o ts =>
    ((insertMissingRealisation fk c o ts db).1.bind fun _ => .ok 0, (insertMissingRealisation fk c o ts db).2)
  | .updateLastPurge v => (.ok 0, updateLastPurge v db)

/-- A history of calls: what each returned, and the database. -/
def run (fk : Bool) (db : DB) : List Op → List (Op × Res Int) × DB
  | [] => ([], db)
  | o :: os => ((o, (step fk db o).1) :: (run fk (step fk db o).2 os).1, (run fk (step fk db o).2 os).2)

/-- What is known about a NAR: presence, data, time. -/
structure NarRec where
  present : Int
  info : NarInfoCols
  timestamp : Int
  deriving DecidableEq, Repr

/-- The knowledge about one NAR changed by one call. -/
def narStep (cache : Int) (hashPart : Bytes) (cur : Option NarRec) : Op × Res Int → Option NarRec
  | (.insertNar c h i ts, .ok _) => if c = cache ∧ h = hashPart then some ⟨1, i, ts⟩ else cur
  | (.insertMissingNAR c h ts, .ok _) => if c = cache ∧ h = hashPart then some ⟨0, noInfo, ts⟩ else cur
  | (.purgeNars t t2, _) => cur.filter fun r => !decide (r.timestamp < if r.present = 0 then t else t2)
  | _ => cur

/-- What is known about a NAR after a history: the last record, unless it was purged since. -/
def knownNar (cache : Int) (hashPart : Bytes) (hist : List (Op × Res Int)) : Option NarRec :=
  hist.foldl (narStep cache hashPart) none

/-- The last successful `InsertRealisation` / `InsertMissingRealisation` for a cache and output: content and time. -/
def lastReal (cache : Int) (outputId : Bytes) (hist : List (Op × Res Int)) : Option (Option Bytes × Int) :=
  hist.reverse.findSome? fun
    | (.insertRealisation c o x ts, .ok _) => if c = cache ∧ o = outputId then some (x, ts) else none
    | (.insertMissingRealisation c o ts, .ok _) => if c = cache ∧ o = outputId then some (none, ts) else none
    | _ => none

/-- The last `InsertCache` for a url: id returned, time, store directory, mass query, priority. -/
def lastCache (url : Bytes) (hist : List (Op × Res Int)) : Option (Int × Int × Bytes × Int × Int) :=
  hist.reverse.findSome? fun
    | (.insertCache _ u ts sd w p, .ok i) => if u = url then some (i, ts, sd, w, p) else none
    | _ => none

/-- The argument of the last `UpdateLastPurge`. -/
def lastPurged (hist : List (Op × Res Int)) : Option (Option Int) :=
  hist.reverse.findSome? fun
    | (.updateLastPurge v, _) => some v
    | _ => none

/-- An `InsertCache` for the url returned this id. -/
def Returned (hist : List (Op × Res Int)) (url : Bytes) (id : Int) : Prop :=
  ∃ gap ts sd w p, (Op.insertCache gap url ts sd w p, Res.ok id) ∈ hist

end BinCache

/-! ## nix_v10 -/

namespace Nix

/-- A modifying call. -/
inductive Op where
  | register (gap : Nat) (a : PathParams)
  | update (narSize : Option Int) (hash : Bytes) (ultimate : Option Int) (sigs ca : Option Bytes) (path : Bytes)
  | addReference (referrer reference : Int)
  | invalidate (path : Bytes)
  | addOutput (drv : Int) (id path : Bytes)

/-- One call. -/
def step (fk : Bool) (db : DB) : Op → Res Unit × DB
  | .register gap a => registerValidPath gap a db
  | .update n h u s c p => (.ok (), updatePathInfo n h u s c p db)
  | .addReference a b => addReference fk a b db
  | .invalidate p => invalidatePath fk p db
  | .addOutput d i p => addDerivationOutput fk d i p db

/-- The database after a history of calls. -/
def run (fk : Bool) (db : DB) : List Op → DB
  | [] => db
  | o :: os => run fk (step fk db o).2 os

/-- The id of a path, as `QueryPathInfo` returns it. -/
def pathId (db : DB) (path : Bytes) : Option Int := (queryPathInfo db path).map (·.1)

/-- Referential integrity of the tables. -/
structure Integrity (db : DB) : Prop where
  paths : (db.paths.map (·.path)).Nodup
  ids : (db.paths.map (·.id)).Nodup
  refs : db.refs.Nodup
  refEnds : ∀ e ∈ db.refs, (∃ r ∈ db.paths, r.id = e.1) ∧ (∃ r ∈ db.paths, r.id = e.2)
  outs : (db.outs.map fun o => (o.drv, o.id)).Nodup
  outDrvs : ∀ o ∈ db.outs, ∃ r ∈ db.paths, r.id = o.drv

end Nix

end Verif.Sqlite
