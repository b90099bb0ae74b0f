import Verif.Model.SqliteTx

/-!
# Specification: transactions one after the other
-/

namespace Verif.Sqlite.Tx
variable {D A : Type}

/-- Calls that succeeded: the statement and what it returned. -/
abbrev Calls (D A : Type) := List (Stmt D A × A)

/-- The database after these calls, one after the other. -/
def after (d : D) : Calls D A → D
  | [] => d
  | c :: cs => after (c.1.run d).2 cs

/-- The calls return what they return when they are executed one after the other, alone, on the database `d`. -/
def Alone (d : D) : Calls D A → Prop
  | [] => True
  | c :: cs => c.2 = (c.1.run d).1 ∧ Alone (c.1.run d).2 cs

/-- The calls that succeeded in the transaction `i`: those on the `Queries` that `WithTx` returned for it. -/
def callsIn (i : Nat) : List (Ev D A) → Calls D A
  | [] => []
  | .exec via st (some r) :: h => if via.getLast? = some i then (st, r) :: callsIn i h else callsIn i h
  | _ :: h => callsIn i h

/-- What the event `e` after the history `h` adds to the database for good: a call outside of transactions adds itself; a
successful `Commit` of a transaction that wrote adds all calls of the transaction; nothing else does. -/
def added (h : List (Ev D A)) : Ev D A → Calls D A
  | .exec [] st (some r) => [(st, r)]
  | .commit i true => if (callsIn i h).any (·.1.write) then callsIn i h else []
  | _ => []

/-- All that a history adds, in the order of the calls outside of transactions and the `Commit`s. -/
def lasting (past : List (Ev D A)) : List (Ev D A) → Calls D A
  | [] => []
  | e :: h => added past e ++ lasting (past ++ [e]) h

end Verif.Sqlite.Tx
