import Verif.Model.Store

/-!
# Model of `BadgerStore` with any number of goroutines

`Model/Store.lean` has the methods as functions of the whole database. Here a call is a sequence of Badger transactions
(`db.View`, `db.Update`), and transactions of different goroutines interleave. A transaction is atomic; the one
of `Put` that writes does not read, so that it is never refused because of a conflict. Any transaction may fail, with an error from the disk for
example; it then is not known whether it was committed. The process may crash at any point; the database then
contains the transactions that were committed.
-/

namespace Verif.Store
open Verif.GoLib Verif.Derivation Verif.Wire

/-- A call of a method. -/
inductive SOp where
  | put (d : Derivation)
  | get (p : Bytes)
  | has (p : Bytes)
  deriving DecidableEq, Repr

/-- What it returned; `failed` is an error that comes from Badger (whatever its text), and not from the contents of the database. -/
inductive SOut where
  | failed
  | put (r : Res Bytes)
  | get (r : Res Derivation)
  | has (r : Res Bool)
  deriving DecidableEq, Repr

/-- The rest of a call: it returns, or runs a transaction that changes the database by `f` and goes on with what it read; if the transaction fails, it returns
`fail`. -/
inductive SProg where
  | ret (o : SOut)
  | txn (fail : SOut) (f : Badger → Badger) (k : Badger → SProg)

/-- The loop of `validateDerivationInStore` (util.go:23-32); every `Has` is a transaction; its error is returned (util.go:25-27, badger.go:196-198,
55-57). -/
def hasLoop (k : SProg) : List Bytes → SProg
  | [] => k
  | p :: rest => .txn .failed id fun db =>
    match db.has p with
    | .err _ => .ret (.put (.err (.msg "error checking if input derivation exists")))
    | .panic => .ret (.put .panic)
    | .ok found =>
      if !found then .ret (.put (.err (.msg "unable to find referred input drv path"))) else hasLoop k rest

/-- `Put` after the replacements were loaded (badger.go:88-136); the error of `Update` is returned (131-133). -/
def putFinish (sha256 : Bytes → Bytes) (d : Derivation) (repl : GoMap Bytes) : SProg :=
  match checkOutputPaths sha256 d repl with
  | .err e => .ret (.put (.err e))
  | .panic => .ret (.put .panic)
  | .ok () =>
    match drvPath sha256 d with
    | .err e => .ret (.put (.err e))
    | .panic => .ret (.put .panic)
    | .ok p =>
      match aterm d false [] with
      | .err e => .ret (.put (.err e))
      | .panic => .ret (.put .panic)
      | .ok t =>
        match calculateDrvReplacement sha256 d repl with
        | .err _ => .ret (.put (.err (.msg "unable to calculate replacement string")))
        | .panic => .ret (.put .panic)
        | .ok r => .txn .failed (fun db => (db.insert (b!"drv:" ++ p) t).insert (b!"replacement:" ++ p) r) fun _ => .ret (.put (.ok p))

/-- `Put` after the validation (badger.go:59-86): one `View` if there are input derivations; its error is returned (79-81). -/
def putLoad (sha256 : Bytes → Bytes) (d : Derivation) : SProg :=
  if d.inputDerivations.keys = [] then putFinish sha256 d []
  else .txn .failed id fun db =>
    match db.loadReplacements d.inputDerivations.keys with
    | .err e => .ret (.put (.err e))
    | .panic => .ret (.put .panic)
    | .ok repl => putFinish sha256 d repl

/-- A call from its beginning: `Put` (badger.go:54-137), `Get` (badger.go:140-168), `Has` (badger.go:172-202). The errors of `View` are returned (158-164,
196-198). -/
def SOp.prog (sha256 : Bytes → Bytes) (jsonName : Bytes → Res (Option Bytes)) : SOp → SProg
  | .put d =>
    match d.validate with
    | .err _ => .ret (.put (.err (.msg "unable to validate derivation")))
    | .panic => .ret (.put .panic)
    | .ok () => hasLoop (putLoad sha256 d) d.inputDerivations.keys
  | .get p => .txn .failed id fun db => .ret (.get (db.getDrv jsonName p))
  | .has p => .txn .failed id fun db => .ret (.has (db.has p))

/-- What can be observed: a goroutine calls a method, a call returns, the process crashes (and is started again). -/
inductive Ev (ι : Type) where
  | inv (i : ι) (op : SOp)
  | ret (i : ι) (o : SOut)
  | crash

/-- The database and what every goroutine is doing (`none`: not in a call). -/
structure Sys (ι : Type) where
  db : Badger
  threads : ι → Option SProg

/-- A goroutine goes on. -/
def setThread {ι : Type} [DecidableEq ι] (t : ι → Option SProg) (i : ι) (p : Option SProg) : ι → Option SProg :=
  fun j => if j = i then p else t j

/-- The executions that begin after `h0` in `s0`: what was observed, and the state reached. The goroutines call what they like, when they like;
the scheduler is arbitrary, and any transaction may fail, after it was committed or before. -/
inductive RunFrom (sha256 : Bytes → Bytes) (jsonName : Bytes → Res (Option Bytes)) {ι : Type} [DecidableEq ι] (h0 : List (Ev ι)) (s0 : Sys ι) :
    List (Ev ι) → Sys ι → Prop where
  | init : RunFrom sha256 jsonName h0 s0 h0 s0
  | inv {h s} (i : ι) (op : SOp) : RunFrom sha256 jsonName h0 s0 h s → s.threads i = none →
      RunFrom sha256 jsonName h0 s0 (h ++ [.inv i op]) ⟨s.db, setThread s.threads i (some (op.prog sha256 jsonName))⟩
  | txn {h s} (i : ι) (o : SOut) (f : Badger → Badger) (k : Badger → SProg) : RunFrom sha256 jsonName h0 s0 h s → s.threads i = some (.txn o f k) →
      RunFrom sha256 jsonName h0 s0 h ⟨f s.db, setThread s.threads i (some (k s.db))⟩
  | fail {h s} (i : ι) (o : SOut) (f : Badger → Badger) (k : Badger → SProg) (committed : Bool) : RunFrom sha256 jsonName h0 s0 h s →
      s.threads i = some (.txn o f k) →
      RunFrom sha256 jsonName h0 s0 h ⟨if committed then f s.db else s.db, setThread s.threads i (some (.ret o))⟩
  | ret {h s} (i : ι) (o : SOut) : RunFrom sha256 jsonName h0 s0 h s → s.threads i = some (.ret o) →
      RunFrom sha256 jsonName h0 s0 (h ++ [.ret i o]) ⟨s.db, setThread s.threads i none⟩
  | crash {h s} : RunFrom sha256 jsonName h0 s0 h s → RunFrom sha256 jsonName h0 s0 (h ++ [.crash]) ⟨s.db, fun _ => none⟩

/-- The executions that begin with an empty database. -/
abbrev Run (sha256 : Bytes → Bytes) (jsonName : Bytes → Res (Option Bytes)) {ι : Type} [DecidableEq ι] : List (Ev ι) → Sys ι → Prop :=
  RunFrom sha256 jsonName [] ⟨[], fun _ => none⟩

end Verif.Store
