import Verif.Model.MapConc
import Verif.Spec.StoreConc

/-! # Specification: a `MapStore` whose `Put`s are alone

The condition under which several goroutines may use a `MapStore` (for instance because they hold a `sync.RWMutex`, for writing while they call `Put` and for
reading while they call `Get` or `Has`), and what they then see. -/

namespace Verif.Store
open Verif.GoLib Verif.Derivation

/-- In the history `h`, the call `op` of `i` has not returned. -/
def Open {ι : Type} (h : List (Ev ι)) (i : ι) (op : SOp) : Prop :=
  ∃ h1 h2, h = h1 ++ .inv i op :: h2 ∧ ∀ o, Ev.ret i o ∉ h2

/-- Whether a call is a `Put`. -/
def SOp.isPut : SOp → Bool
  | .put _ => true
  | _ => false

/-- While a `Put` has not returned, no other call is made, and it is not made while another call has not returned. -/
def PutsAlone {ι : Type} (h : List (Ev ι)) : Prop :=
  ∀ h1 i op h2 j op', h = h1 ++ .inv i op :: h2 → Open h1 j op' → op.isPut = false ∧ op'.isPut = false

/-- A call when nothing interferes: what it returns, and the store afterwards. -/
def SOp.mapSeq (sha256 : Bytes → Bytes) : SOp → MapStore → SOut × MapStore
  | .put d, ms => (.put (MapStore.put sha256 d ms).1, (MapStore.put sha256 d ms).2)
  | .get p, ms => (.get (ms.get p), ms)
  | .has p, ms => (.has (ms.has p), ms)

/-- The calls are executed at their moments, one after the other, and must return what they are said to return. -/
def mapLinStep {ι : Type} (sha256 : Bytes → Bytes) (ms : MapStore) : LEv ι → Option MapStore
  | .ev _ => some ms
  | .lin _ op o => if (op.mapSeq sha256 ms).1 = o then some (op.mapSeq sha256 ms).2 else none

/-- The events of one goroutine must be, again and again, a call, the moment at which it takes effect, and its return with that result. -/
def mapClientStep {ι : Type} [DecidableEq ι] (i : ι) (c : CSt) : LEv ι → Option CSt
  | .ev .crash => none
  | .ev (.inv j op) => if j ≠ i then some c else if c = .idle then some (.called op) else none
  | .lin j op o => if j ≠ i then some c else if c = .called op then some (.effective o) else none
  | .ev (.ret j o) => if j ≠ i then some c else if c = .effective o then some .idle else none

/-- The history `h` is linearizable, and leaves `ms` behind. -/
def MapLinearizable {ι : Type} [DecidableEq ι] (sha256 : Bytes → Bytes) (h : List (Ev ι)) (ms : MapStore) : Prop :=
  ∃ e : List (LEv ι), e.filterMap LEv.ev? = h ∧ e.foldlM (mapLinStep sha256) newMapStore = some ms ∧
    ∀ i, ∃ c, e.foldlM (mapClientStep i) CSt.idle = some c

end Verif.Store
