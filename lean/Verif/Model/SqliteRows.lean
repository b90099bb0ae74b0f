import Verif.Model.Sqlite

/-!
# Model of `pkg/sqlite`: how the query methods take their rows

`sqlc` generates the same code for every query, so it is modelled once, for rows of any type `R`. `database/sql` (`QueryContext`, `Rows`, `Row`) is modelled from
its documentation and source (trusted).
-/

namespace Verif.Sqlite.Rows

/-- What the database does for one query: for each row what `Scan` makes of it; the error that ends the rows (`none`: there are no more); the error of
closing them before their end. A context that is cancelled ends the rows with an error, or makes `Scan` fail. -/
structure Answer (R : Type) where
  rows : List (Except Err R)
  stop : Option Err
  closeErr : Option Err

/-- The connections of a `sql.DB`: those in use and how many there may be. -/
structure Conns where
  used : Nat
  max : Nat
  deriving DecidableEq, Repr

/-- `sql.Rows`: what is still to come; the current row, if there is one; what `Err` returns; whether it is closed. -/
structure Rows (R : Type) where
  left : List (Except Err R)
  stop : Option Err
  closeErr : Option Err
  cur : Option (Except Err R)
  lasterr : Option Err
  closed : Bool

/-- what a call returns that cannot get a connection before its context ends -/
def noConn : Err := .msg "context deadline exceeded"

/-- `sql.ErrNoRows` -/
def errNoRows : Err := .msg "sql: no rows in result set"

/-- `QueryContext` of `database/sql`: takes a connection, waiting for it, and keeps it if the query is accepted. -/
def queryContext {R : Type} (a : Except Err (Answer R)) (c : Conns) : Except Err (Rows R) × Conns :=
  if c.used < c.max then
    match a with
    | .error e => (.error e, c)
    | .ok a => (.ok ⟨a.rows, a.stop, a.closeErr, none, none, false⟩, { c with used := c.used + 1 })
  else (.error noConn, c)

/-- `Rows.Close` of `database/sql`: gives back the connection, the first time. -/
def Rows.close {R : Type} (r : Rows R) (c : Conns) : Option Err × Rows R × Conns :=
  if r.closed then (none, r, c) else (r.closeErr, { r with closed := true, cur := none }, { c with used := c.used - 1 })

/-- `Rows.Next` of `database/sql`: at the end of the rows it closes them (and ignores the error of that). -/
def Rows.next {R : Type} (r : Rows R) (c : Conns) : Bool × Rows R × Conns :=
  if r.closed then (false, r, c)
  else
    match r.left with
    | [] => (false, ({ r with lasterr := r.stop, cur := none }.close c).2)
    | x :: l => (true, { r with left := l, cur := some x }, c)

/-- `Rows.Scan` of `database/sql`. -/
def Rows.scan {R : Type} (r : Rows R) : Except Err R :=
  if r.closed then .error (.msg "sql: Rows are closed")
  else match r.cur with
    | none => .error (.msg "sql: Scan called without calling Next")
    | some x => x

/-- `Rows.Err` of `database/sql`. -/
def Rows.err {R : Type} (r : Rows R) : Option Err := r.lasterr

theorem Rows.next_less {R : Type} {r r' : Rows R} {c c' : Conns} (h : r.next c = (true, r', c')) : r'.left.length < r.left.length := by
  unfold Rows.next at h
  split at h
  · cases h
  · split at h
    · cases h
    · rename_i e
      cases h
      simp [e]

/-- The loop over the rows (nix_v10/query.sql.go:67-73 and the same in every `:many` query). -/
def loop {R : Type} (items : List R) (r : Rows R) (c : Conns) : Res (List R) × Rows R × Conns :=
  match h : r.next c with
  | (false, r, c) => (.ok items, r, c)
  | (true, r, c) =>
    match r.scan with
    | .error e => (.err e, r, c)
    | .ok i => loop (items ++ [i]) r c
termination_by r.left.length
decreasing_by exact Rows.next_less h

/-- A `:many` query: nix_v10/query.sql.go:60-81 (`QueryDerivationOutputs`), 128-149 (`QueryReferences`), 155-176 (`QueryReferrers`), 187-208
(`QueryValidDerivers`); binary_cache_v6/query.sql.go:169-195, 235-269, 292-318; eval_cache_v5/query.sql.go:84-105;
fetcher_cache_v2/query.sql.go:26-47. The deferred `Close` runs at every return after the first. -/
def many {R : Type} (a : Except Err (Answer R)) (c : Conns) : Res (List R) × Conns :=
  match queryContext a c with
  | (.error e, c) => (.err e, c)
  | (.ok rows, c) =>
    match loop [] rows c with
    | (.err e, rows, c) => (.err e, (rows.close c).2.2)
    | (.panic, rows, c) => (.panic, (rows.close c).2.2)
    | (.ok items, rows, c) =>
      match rows.close c with
      | (some e, rows, c) => (.err e, (rows.close c).2.2)
      | (none, rows, c) =>
        match rows.err with
        | some e => (.err e, (rows.close c).2.2)
        | none => (.ok items, (rows.close c).2.2)

/-- `QueryRowContext(..).Scan(&dest)` of `database/sql`: what was assigned to the destination, if anything, and the error. -/
def scanRow {R : Type} (a : Except Err (Answer R)) (c : Conns) : Option R × Option Err × Conns :=
  match queryContext a c with
  | (.error e, c) => (none, some e, c)
  | (.ok rows, c) =>
    match rows.next c with
    | (false, rows, c) =>
      match rows.err with
      | some e => (none, some e, (rows.close c).2.2)
      | none => (none, some errNoRows, (rows.close c).2.2)
    | (true, rows, c) =>
      match rows.scan with
      | .error e => (none, some e, (rows.close c).2.2)
      | .ok v => (some v, (rows.close c).1, ((rows.close c).2.1.close (rows.close c).2.2).2.2)

/-- `QueryPathFromHashPart` (nix_v10/query.sql.go:87-91), which scans into its argument: the string and the error that it returns. -/
def pathFromHashPart (a : Except Err (Answer Bytes)) (path : Bytes) (c : Conns) : Bytes × Option Err × Conns :=
  match scanRow a c with
  | (v, e, c) => (v.getD path, e, c)

/-- The other `:one` queries (nix_v10/query.sql.go:108-122 `QueryPathInfo`; binary_cache_v6/query.sql.go:29-40 `InsertCache`, 201-206
`QueryLastPurge`; eval_cache_v5/query.sql.go:73-78 `QueryAttribute`): with an error, the caller has to ignore the value. -/
def one {R : Type} (a : Except Err (Answer R)) (c : Conns) : Res R × Conns :=
  match scanRow a c with
  | (_, some e, c) => (.err e, c)
  | (some v, none, c) => (.ok v, c)
  | (none, none, c) => (.panic, c)

end Verif.Sqlite.Rows
