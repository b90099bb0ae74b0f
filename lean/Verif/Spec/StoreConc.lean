import Verif.Model.StoreConc

/-! # Specification: linearizability

A history of calls and returns is linearizable if one can insert, between every call and its return, the moment at which it takes effect, such that the
calls executed one after the other in the order of these moments return what they did return. A call that was interrupted by a crash, or that
returned an error of the database, may have taken effect or not. -/

namespace Verif.Store
open Verif.GoLib Verif.Derivation

/-- A call when nothing interferes: what it returns, and the database afterwards. -/
def SOp.seq (sha256 : Bytes → Bytes) (jsonName : Bytes → Res (Option Bytes)) : SOp → Badger → SOut × Badger
  | .put d, db => (.put (Badger.put sha256 d db).1, (Badger.put sha256 d db).2)
  | .get p, db => (.get (db.getDrv jsonName p), db)
  | .has p, db => (.has (db.has p), db)

/-- An observable event, or the moment at which the call `op` of `i` takes effect, and returns `o`. -/
inductive LEv (ι : Type) where
  | ev (e : Ev ι)
  | lin (i : ι) (op : SOp) (o : SOut)

/-- The observable events. -/
def LEv.ev? {ι : Type} : LEv ι → Option (Ev ι)
  | .ev e => some e
  | .lin .. => none

/-- Where a goroutine is. -/
inductive CSt where
  | idle
  | called (op : SOp)
  | effective (o : SOut)
  deriving DecidableEq, Repr

/-- The events of one goroutine must be, again and again, a call, the moment at which it takes effect, and its return with that result. If it returns an error of the
database, it may have taken effect or not. -/
def clientStep {ι : Type} [DecidableEq ι] (i : ι) (c : CSt) : LEv ι → Option CSt
  | .ev .crash => some .idle
  | .ev (.inv j op) => if j ≠ i then some c else if c = .idle then some (.called op) else none
  | .lin j op o => if j ≠ i then some c else if c = .called op then some (.effective o) else none
  | .ev (.ret j o) => if j ≠ i then some c else if c = .effective o ∨ (o = .failed ∧ c ≠ .idle) then some .idle else none

/-- The calls are executed at their moments, one after the other, and must return what they are said to return. -/
def linStep {ι : Type} (sha256 : Bytes → Bytes) (jsonName : Bytes → Res (Option Bytes)) (db : Badger) : LEv ι → Option Badger
  | .ev _ => some db
  | .lin _ op o => if (op.seq sha256 jsonName db).1 = o then some (op.seq sha256 jsonName db).2 else none

/-- The history `h`, which left `db` behind, is linearizable. -/
def Linearizable {ι : Type} [DecidableEq ι] (sha256 : Bytes → Bytes) (jsonName : Bytes → Res (Option Bytes)) (h : List (Ev ι)) (db : Badger) : Prop :=
  ∃ e : List (LEv ι), e.filterMap LEv.ev? = h ∧ e.foldlM (linStep sha256 jsonName) [] = some db ∧
    ∀ i, ∃ c, e.foldlM (clientStep i) CSt.idle = some c

/-- No two different derivations in the history have the same path. -/
def NoCollision {ι : Type} (sha256 : Bytes → Bytes) (h : List (Ev ι)) : Prop :=
  ∀ i j d d' p, Ev.inv i (.put d) ∈ h → Ev.inv j (.put d') ∈ h → drvPath sha256 d = .ok p → drvPath sha256 d' = .ok p → d = d'

end Verif.Store
