import Verif.Model.StoreConc

/-!
# Model of `MapStore` with any number of goroutines

`Model/Store.lean` has the methods as functions of the whole store. Here a call is a sequence of accesses to the two Go maps of a `MapStore`
(map.go:23-29); there is no lock in it. An access takes time: it begins, and it ends, and meanwhile other goroutines go on. Two accesses to the same
map that are under way at the same time, at least one of them an assignment, are a data race: the Go runtime may end the process
with `fatal error: concurrent map writes` (or `read and map write`), or let both accesses see anything.
-/

namespace Verif.Store
open Verif.GoLib Verif.Derivation

/-- The two maps of a `MapStore` (map.go:25, 28). -/
inductive Cell where
  | drvs
  | drvReplacements
  deriving DecidableEq, Repr

/-- The rest of a call: it returns, or accesses a map: assigns to it (`write`) by `f`, and goes on with what it read. -/
inductive MProg where
  | ret (o : SOut)
  | acc (c : Cell) (write : Bool) (f : MapStore → MapStore) (k : MapStore → MProg)

/-- The loop of `validateDerivationInStore` (util.go:23-32); every `Has` reads `drvs` (map.go:74). -/
def mapHasLoop (k : MProg) : List Bytes → MProg
  | [] => k
  | p :: rest => .acc .drvs false id fun ms =>
    match ms.has p with
    | .err _ => .ret (.put (.err (.msg "error checking if input derivation exists")))
    | .panic => .ret (.put .panic)
    | .ok found =>
      if !found then .ret (.put (.err (.msg "unable to find referred input drv path"))) else mapHasLoop k rest

/-- `Put` after `drvs` was assigned to (map.go:51-60): `CalculateDrvReplacement` reads `drvReplacements`, then it is assigned to. The reads
of one function are one access here, also if there are none (no input derivations). -/
def mapPutReplacement (sha256 : Bytes → Bytes) (d : Derivation) (p : Bytes) : MProg :=
  .acc .drvReplacements false id fun ms =>
    match calculateDrvReplacement sha256 d ms.drvReplacements with
    | .err _ => .ret (.put (.err (.msg "unable to calculate drv replacement")))
    | .panic => .ret (.put .panic)
    | .ok r => .acc .drvReplacements true (fun ms => ⟨ms.drvs, ms.drvReplacements.insert p r⟩) fun _ => .ret (.put (.ok p))

/-- `Put` after the validation (map.go:37-60): `checkOutputPaths` reads `drvReplacements` (one access, as above), then `drvs` is assigned to. -/
def mapPutRest (sha256 : Bytes → Bytes) (d : Derivation) : MProg :=
  .acc .drvReplacements false id fun ms =>
    match checkOutputPaths sha256 d ms.drvReplacements with
    | .err e => .ret (.put (.err e))
    | .panic => .ret (.put .panic)
    | .ok () =>
      match drvPath sha256 d with
      | .err e => .ret (.put (.err e))
      | .panic => .ret (.put .panic)
      | .ok p => .acc .drvs true (fun ms => ⟨ms.drvs.insert p d, ms.drvReplacements⟩) fun _ => mapPutReplacement sha256 d p

/-- A call from its beginning: `Put` (map.go:32-61), `Get` (map.go:64-70), `Has` (map.go:73-79). -/
def SOp.mapProg (sha256 : Bytes → Bytes) : SOp → MProg
  | .put d =>
    match d.validate with
    | .err _ => .ret (.put (.err (.msg "unable to validate derivation")))
    | .panic => .ret (.put .panic)
    | .ok () => mapHasLoop (mapPutRest sha256 d) d.inputDerivations.keys
  | .get p => .acc .drvs false id fun ms => .ret (.get (ms.get p))
  | .has p => .acc .drvs false id fun ms => .ret (.has (ms.has p))

/-- What a goroutine is doing: the rest of its call, and whether the access at the beginning of it is under way. -/
structure MThread where
  prog : MProg
  busy : Bool

/-- The store and what every goroutine is doing (`none`: not in a call). -/
structure MSys (ι : Type) where
  store : MapStore
  threads : ι → Option MThread

/-- A goroutine goes on. -/
def setMThread {ι : Type} [DecidableEq ι] (t : ι → Option MThread) (i : ι) (p : Option MThread) : ι → Option MThread :=
  fun j => if j = i then p else t j

/-- The executions that begin with a new store: what was observed, and the state reached. The goroutines call what they like, when they like; the
scheduler is arbitrary. -/
inductive MRun (sha256 : Bytes → Bytes) {ι : Type} [DecidableEq ι] : List (Ev ι) → MSys ι → Prop where
  | init : MRun sha256 [] ⟨newMapStore, fun _ => none⟩
  | inv {h s} (i : ι) (op : SOp) : MRun sha256 h s → s.threads i = none →
      MRun sha256 (h ++ [.inv i op]) ⟨s.store, setMThread s.threads i (some ⟨op.mapProg sha256, false⟩)⟩
  | begin {h s} (i : ι) (c : Cell) (w : Bool) (f : MapStore → MapStore) (k : MapStore → MProg) : MRun sha256 h s →
      s.threads i = some ⟨.acc c w f k, false⟩ → MRun sha256 h ⟨s.store, setMThread s.threads i (some ⟨.acc c w f k, true⟩)⟩
  | done {h s} (i : ι) (c : Cell) (w : Bool) (f : MapStore → MapStore) (k : MapStore → MProg) : MRun sha256 h s →
      s.threads i = some ⟨.acc c w f k, true⟩ → MRun sha256 h ⟨f s.store, setMThread s.threads i (some ⟨k s.store, false⟩)⟩
  | ret {h s} (i : ι) (o : SOut) : MRun sha256 h s → s.threads i = some ⟨.ret o, false⟩ →
      MRun sha256 (h ++ [.ret i o]) ⟨s.store, setMThread s.threads i none⟩

/-- A data race: two accesses to the same map are under way at the same time, and one of them is an assignment. -/
def MSys.Race {ι : Type} (s : MSys ι) : Prop :=
  ∃ i j c w f k w' f' k', i ≠ j ∧ s.threads i = some ⟨.acc c w f k, true⟩ ∧ s.threads j = some ⟨.acc c w' f' k', true⟩ ∧ (w = true ∨ w' = true)

end Verif.Store
