import Verif.Model.Sqlite

/-!
# Model of `pkg/sqlite`: queries inside and outside of transactions

`db.go` of the four packages is the same generated code: a `Queries` holds the handle on which its methods execute their
statement, either the `*sql.DB` or a `*sql.Tx`. What the handles do is `database/sql` with SQLite, which is trusted to behave as
follows (a database in a file, any number of connections, processes and goroutines): a statement on the `*sql.DB` is a transaction of its own. A
transaction begins with its first statement (`BEGIN DEFERRED`, the driver's default) and from then on sees what was
committed at that moment and its own changes. At most one transaction has written; the first write of a transaction is refused
(`SQLITE_BUSY`) if another transaction has written or something was committed since it began. Any statement may fail
(busy, cancelled context, I/O), without an effect; so may `Commit`, which then rolls back (as the driver does). After `Commit` and `Rollback` the
`*sql.Tx` refuses statements (`sql.ErrTxDone`). A crash loses the open transactions. Not modelled: databases in memory, where
each connection has its own; `PRAGMA`s; statements of other programs that are not of these packages.
-/

namespace Verif.Sqlite.Tx

/-- What implements `DBTX` (nix_v10/db.go:12-17 and the same lines of the other packages): the `*sql.DB` or a `*sql.Tx`. -/
inductive Handle where
  | db
  | tx (i : Nat)
  deriving DecidableEq, Repr

/-- `Queries` (nix_v10/db.go:23-25). -/
structure Queries where
  db : Handle
  deriving DecidableEq, Repr

/-- `New` (nix_v10/db.go:19-21). -/
def new (db : Handle) : Queries := ⟨db⟩

/-- `WithTx` (nix_v10/db.go:27-31). -/
def Queries.withTx (_ : Queries) (tx : Nat) : Queries := ⟨.tx tx⟩

/-- A method of `Queries` with its arguments: one statement, on databases `D`, with results `A` (rows, or a constraint error, after which the
database is as before). `write`: it is no `select`. -/
structure Stmt (D A : Type) where
  run : D → A × D
  write : Bool
  select : write = false → ∀ d, (run d).2 = d

/-- A `*sql.Tx`: not begun yet, open without a statement, open with a view of the database (`changes`: the number of commits of changes
at the time of its first statement; `wrote`: it has written), or over. -/
inductive TxState (D : Type) where
  | unused
  | fresh
  | active (view : D) (changes : Nat) (wrote : Bool)
  | over

/-- The database: what is committed, the number of commits that changed it, the transaction that has written, the
transactions. -/
structure Sys (D : Type) where
  committed : D
  changes : Nat
  writer : Option Nat
  txs : Nat → TxState D

/-- What a program does. A statement is executed by a method of the `Queries` from the constructor in sqlite.go (15-49: `New(db)`), to
which `WithTx` was applied for each of `via`, in this order; `none`: the method returned an error of the database. -/
inductive Ev (D A : Type) where
  | begin (i : Nat)
  | exec (via : List Nat) (s : Stmt D A) (result : Option A)
  | commit (i : Nat) (ok : Bool)
  | rollback (i : Nat)
  | crash

/-- The `Queries` on which the method is called. -/
def queries (via : List Nat) : Queries := via.foldl Queries.withTx (new .db)

/-- Set the state of a transaction. -/
def Sys.set {D : Type} (s : Sys D) (i : Nat) (t : TxState D) : Sys D :=
  { s with txs := fun j => if j = i then t else s.txs j }

/-- The view of a transaction at its next statement. -/
def Sys.view {D : Type} (s : Sys D) (i : Nat) : Option (D × Nat × Bool) :=
  match s.txs i with
  | .fresh => some (s.committed, s.changes, false)
  | .active v c w => some (v, c, w)
  | _ => none

/-- The steps of the database; see the text above. -/
inductive Step {D A : Type} : Sys D → Ev D A → Sys D → Prop where
  | begin {s i} : s.txs i = .unused → Step s (.begin i) (s.set i .fresh)
  | fails {s via st} : Step s (.exec via st none) s
  | read {s via st} : (queries via).db = .db → st.write = false →
      Step s (.exec via st (some (st.run s.committed).1)) s
  | write {s via st} : (queries via).db = .db → st.write = true → s.writer = none →
      Step s (.exec via st (some (st.run s.committed).1))
        { s with committed := (st.run s.committed).2, changes := s.changes + 1 }
  | txRead {s via st i v c w} : (queries via).db = .tx i → st.write = false → s.view i = some (v, c, w) →
      Step s (.exec via st (some (st.run v).1)) (s.set i (.active v c w))
  | txWrite {s via st i v c w} : (queries via).db = .tx i → st.write = true → s.view i = some (v, c, w) →
      (s.writer = some i ∨ (s.writer = none ∧ c = s.changes)) →
      Step s (.exec via st (some (st.run v).1)) { s.set i (.active (st.run v).2 c true) with writer := some i }
  | commitNothing {s i} : (s.txs i = .fresh ∨ ∃ v c, s.txs i = .active v c false) → Step s (.commit i true) (s.set i .over)
  | commit {s i v c} : s.txs i = .active v c true →
      Step s (.commit i true) { s.set i .over with committed := v, changes := s.changes + 1, writer := none }
  | commitFails {s i} : s.txs i ≠ .unused →
      Step s (.commit i false) { s.set i .over with writer := if s.writer = some i then none else s.writer }
  | rollback {s i} : s.txs i ≠ .unused →
      Step s (.rollback i) { s.set i .over with writer := if s.writer = some i then none else s.writer }
  | crash {s} : Step s .crash
      { s with writer := none, txs := fun j => match s.txs j with | .unused => .unused | _ => .over }

/-- An execution on a database that contains `d`, from the beginning. -/
inductive Run {D A : Type} (d : D) : List (Ev D A) → Sys D → Prop where
  | nil : Run d [] ⟨d, 0, none, fun _ => .unused⟩
  | snoc {h s e s'} : Run d h s → Step s e s' → Run d (h ++ [e]) s'

end Verif.Sqlite.Tx
