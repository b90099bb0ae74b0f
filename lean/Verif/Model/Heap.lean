import Verif.Model.NarWriter
import Verif.Model.Store

/-!
# Pointers that the API keeps

`MapStore` keeps the `*Derivation` of a `Put` and hands it out again in `Get` (map.go:23-70); `nar.Writer` keeps the `*Header` of
a `WriteHeader` while the node is open (writer.go:89, 159, 198). `Model/Store.lean` and `Model/NarWriter.lean` treat
both as values. Here the caller owns a heap of derivations or headers, can modify them between the calls, and the code works on
addresses. A derivation or header is one cell of the heap; what it refers to (maps, slices) belongs to it.
-/

namespace Verif

/-- An address. -/
abbrev Addr := Nat

/-- A heap: what is at each address. -/
abbrev Heap (α : Type) := Addr → α

/-- `*a = v`. -/
def Heap.set {α : Type} (h : Heap α) (a : Addr) (v : α) : Heap α := fun b => if b = a then v else h b

namespace Store
open Verif.GoLib Verif.Derivation

/-- `MapStore` (map.go:23-29) with its pointers. -/
structure PtrStore where
  drvs : GoMap Addr
  drvReplacements : GoMap Bytes
  deriving DecidableEq, Repr

/-- `Has` (map.go:73-79). -/
def PtrStore.has (ms : PtrStore) (p : Bytes) : Res Bool := .ok (ms.drvs.get? p).isSome

/-- `Get` (map.go:64-70): the pointer. -/
def PtrStore.get (ms : PtrStore) (p : Bytes) : Res Addr :=
  match ms.drvs.get? p with
  | some a => .ok a
  | none => .err (.msg "derivation path not found")

/-- The checks at the beginning of `Put`, and the path (map.go:33-45). -/
def PtrStore.putPath (sha256 : Bytes → Bytes) (ms : PtrStore) (d : Derivation) : Res Bytes := do
  validateInStore ms.has d
  checkOutputPaths sha256 d ms.drvReplacements
  drvPath sha256 d

/-- `Put` (map.go:32-61) of the derivation at `a`. -/
def PtrStore.put (sha256 : Bytes → Bytes) (heap : Heap Derivation) (a : Addr) : M PtrStore Bytes := fun ms =>
  match ms.putPath sha256 (heap a) with
  | .err e => (.err e, ms)
  | .panic => (.panic, ms)
  | .ok p =>
    let ms1 : PtrStore := ⟨ms.drvs.insert p a, ms.drvReplacements⟩
    match calculateDrvReplacement sha256 (heap a) ms1.drvReplacements with
    | .err _ => (.err (.msg "unable to calculate drv replacement"), ms1)
    | .panic => (.panic, ms1)
    | .ok r => (.ok p, ⟨ms1.drvs, ms1.drvReplacements.insert p r⟩)

/-- What a program does: it modifies a derivation that it has a pointer to, or calls the store. -/
inductive HOp where
  | set (a : Addr) (d : Derivation)
  | put (a : Addr)
  deriving DecidableEq, Repr

/-- The program runs: the results of the `Put`s with their addresses, the heap and the store afterwards. -/
def PtrStore.run (sha256 : Bytes → Bytes) (heap : Heap Derivation) (ms : PtrStore) :
    List HOp → List (Addr × Res Bytes) × Heap Derivation × PtrStore
  | [] => ([], heap, ms)
  | .set a d :: ops => PtrStore.run sha256 (heap.set a d) ms ops
  | .put a :: ops =>
    let r := PtrStore.put sha256 heap a ms
    let h := PtrStore.run sha256 heap r.2 ops
    ((a, r.1) :: h.1, h.2)

end Store

namespace Nar
open Verif.GoLib Verif.Wire

/-- `descend` (writer.go:184-287) with the pointers to the headers of the activations. -/
def descendPtr (heap : Heap Header) (a : Addr) : List Addr → M WState (List Addr)
  | [] => M.fail (.msg "additional header detected")
  | cur :: rest => do
    let p ← ret (place (heap cur) (heap a))
    match p with
    | none => do
      wr (writeString b!")")
      if rest = [] then M.fail (.msg "additional header detected")
      else do
        wr (writeString b!")")
        descendPtr heap a rest
    | some name => do
      entryStart name
      emitStart (heap a)
      pure (a :: cur :: rest)

/-- `unwind` (writer.go:172-179, 282-285, 187-194). -/
def unwindPtr : List Addr → M WState Unit
  | [] => pure ()
  | _ :: rest => do
    wr (writeString b!")")
    if rest = [] then pure ()
    else do
      wr (writeString b!")")
      unwindPtr rest

/-- Where the goroutine of a `Writer` is, with pointers. -/
inductive PtrPhase where
  | start
  | running (stack : List Addr)
  | ended
  deriving DecidableEq, Repr

/-- `Writer` (writer.go:16-29) together with its goroutine. -/
structure PtrWriter where
  st : WState
  phase : PtrPhase
  closed : Bool
  deriving DecidableEq, Repr

/-- `NewWriter` (writer.go:32-84). -/
def newPtrWriter (w : Sink) : Res PtrWriter × Sink :=
  match writeString narVersionMagic1 w with
  | (.ok (), w') => (.ok ⟨⟨w', none⟩, .start, false⟩, w')
  | (.err e, w') => (.err e, w')
  | (.panic, w') => (.panic, w')

/-- What the goroutine does with a header (writer.go:62-69, 159-287). -/
def emitHeaderPtr (heap : Heap Header) (a : Addr) : PtrPhase → M WState (List Addr)
  | .start =>
    if (heap a).path ≠ b!"/" then M.fail (.msg "first header always needs to have a / as path")
    else do
      emitStart (heap a)
      pure [a]
  | .running stack => do
    contentClose
    descendPtr heap a stack
  | .ended => M.panic

/-- `WriteHeader` (writer.go:296-309). -/
def PtrWriter.writeHeader (w : PtrWriter) (heap : Heap Header) (a : Addr) : Call Unit × PtrWriter :=
  match (heap a).validate with
  | .err _ => (.err (.msg "unable to write header"), w)
  | .panic => (.panic, w)
  | .ok () =>
    if w.closed then (.panic, w)
    else if w.phase = .ended then (.block, w)
    else match emitHeaderPtr heap a w.phase w.st with
      | (.ok stack, st) => (.ok (), { w with st := st, phase := .running stack })
      | (.err e, st) => (.err e, { w with st := st, phase := .ended })
      | (.panic, st) => (.panic, { w with st := st, phase := .ended })

/-- `Write` (writer.go:318-320). -/
def PtrWriter.write (w : PtrWriter) (p : Bytes) : Call (Nat × Option Err) × PtrWriter :=
  match w.st.cw with
  | none => (.panic, w)
  | some c =>
    if c.dummy then
      match c.bw.write p ⟨[], none⟩ with
      | (r, bw', _) => (.ok r, { w with st := { w.st with cw := some ⟨bw', true⟩ } })
    else
      match c.bw.write p w.st.sink with
      | (r, bw', s') => (.ok r, { w with st := ⟨s', some ⟨bw', false⟩⟩ })

/-- What the goroutine does when `headers` is closed (writer.go:55-60, 159-179, 282-285). -/
def emitClosePtr : PtrPhase → M WState Unit
  | .start => M.fail (.msg "unexpected Close()")
  | .running stack => do
    contentClose
    unwindPtr stack
  | .ended => pure ()

/-- `Close` (writer.go:325-337). -/
def PtrWriter.close (w : PtrWriter) : Call Unit × PtrWriter :=
  if w.closed then (.err (.msg "already closed"), w)
  else match emitClosePtr w.phase w.st with
    | (.ok (), st) => (.ok (), ⟨st, .ended, true⟩)
    | (.err e, st) => (.err e, ⟨st, .ended, true⟩)
    | (.panic, st) => (.panic, ⟨st, .ended, true⟩)

/-- What a program does: it modifies a header that it has a pointer to, or calls the writer. -/
inductive PtrOp where
  | set (a : Addr) (h : Header)
  | header (a : Addr)
  | write (p : Bytes)
  | close
  deriving DecidableEq, Repr

/-- The program runs: what the calls returned, the heap and the writer afterwards. -/
def PtrWriter.run (heap : Heap Header) (w : PtrWriter) : List PtrOp → List WOut × Heap Header × PtrWriter
  | [] => ([], heap, w)
  | .set a h :: ops => PtrWriter.run (heap.set a h) w ops
  | .header a :: ops =>
    let r := w.writeHeader heap a
    let t := PtrWriter.run heap r.2 ops
    (.unit r.1 :: t.1, t.2)
  | .write p :: ops =>
    let r := w.write p
    let t := PtrWriter.run heap r.2 ops
    (.write r.1 :: t.1, t.2)
  | .close :: ops =>
    let r := w.close
    let t := PtrWriter.run heap r.2 ops
    (.unit r.1 :: t.1, t.2)

end Nar
end Verif
