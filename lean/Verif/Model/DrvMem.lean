import Verif.Model.HashHeap
import Verif.Model.Scan

/-!
# The memory behind a derivation that was read

`ReadDerivation` reads everything into a buffer of its own (`io.ReadAll`) and makes the strings of the derivation from parts of that buffer without
copying them (`unsafeString`, helpers.go:10-12): they are strings only as long as nobody assigns to the buffer. `Model/Derivation.lean` treats strings as values.
Here a string is a part of an array in the heap, or a string of its own, and the slices that `io.ReadAll` hands to the reader are recorded.
-/

namespace Verif.Derivation
open Verif.GoLib Verif.Wire Verif.Nixhash

/-- A string: part of an array (`unsafeString`, helpers.go:10-12), or one that Go made. -/
inductive Str where
  | part (s : Slice)
  | own (b : Bytes)
  deriving DecidableEq, Repr

/-- What the string is at the moment. -/
def Str.val (heap : Heap Bytes) : Str → Bytes
  | .part s => s.bytes heap
  | .own b => b

/-- `Output` (output.go:7-11). -/
structure SOutput where
  path : Str
  hashAlgorithm : Str
  hash : Str
  deriving DecidableEq, Repr

/-- `Derivation` (derivation.go:16-40). -/
structure SDrv where
  name : Str
  outputs : List (Str × SOutput)
  inputSources : List Str
  inputDerivations : List (Str × List Str)
  platform : Str
  builder : Str
  arguments : List Str
  env : List (Str × Str)
  deriving DecidableEq, Repr

/-- What the output is at the moment. -/
def SOutput.val (heap : Heap Bytes) (o : SOutput) : Output := ⟨o.path.val heap, o.hashAlgorithm.val heap, o.hash.val heap⟩

/-- What the derivation is at the moment. -/
def SDrv.val (heap : Heap Bytes) (d : SDrv) : Derivation where
  name := d.name.val heap
  outputs := d.outputs.map fun e => (e.1.val heap, e.2.val heap)
  inputSources := d.inputSources.map (·.val heap)
  inputDerivations := d.inputDerivations.map fun e => (e.1.val heap, e.2.map (·.val heap))
  platform := d.platform.val heap
  builder := d.builder.val heap
  arguments := d.arguments.map (·.val heap)
  env := d.env.map fun e => (e.1.val heap, e.2.val heap)

/-- `m[k] = v`: keys are compared as strings. -/
def insertS {α : Type} (heap : Heap Bytes) : List (Str × α) → Str → α → List (Str × α)
  | [], k, v => [(k, v)]
  | (a, x) :: m, k, v => if a.val heap = k.val heap then (k, v) :: m else (a, x) :: insertS heap m k v

/-- `v, ok := m[k]`. -/
def getS {α : Type} (heap : Heap Bytes) : List (Str × α) → Bytes → Option α
  | [], _ => none
  | (a, v) :: m, k => if a.val heap = k then some v else getS heap m k

/-- `unquoteSlice` (parser.go:379-391): `b[1 : len(b)-1]`, not copied. -/
def unquoteSliceS (heap : Heap Bytes) (b : Slice) : Res Str :=
  if b.len < 2 then .err (.msg "invalid quoted string length")
  else if (b.bytes heap).head? ≠ some 34 ∨ (b.bytes heap).getLast? ≠ some 34 then .err (.msg "string not quoted")
  else .ok (.part ⟨b.arr, b.off + 1, b.len - 2⟩)

/-- `unquote` (parser.go:363-375); `Replace` of the Go library returns its argument if there is nothing to replace. -/
def unquoteS (heap : Heap Bytes) (b : Slice) : Res Str := do
  let s ← unquoteSliceS heap b
  if !(b.bytes heap).contains 92 then .ok s
  else if unescape (s.val heap) = s.val heap then .ok s
  else .ok (.own (unescape (s.val heap)))

/-- The loop of `arrayEach` (parser.go:302-357), as the list of the slices passed to the callback; `start` and `i` count from the beginning of the
array. -/
def itemLoopS (arr : Addr) (count : Int) (escaped inString : Bool) (start i : Nat) : Bytes → List Slice
  | [] => []
  | c :: cs =>
    if escaped then itemLoopS arr count false inString start (i + 1) cs
    else if c = 92 then itemLoopS arr count true inString start (i + 1) cs
    else if c = 34 then itemLoopS arr count false (!inString) start (i + 1) cs
    else if inString then itemLoopS arr count false inString start (i + 1) cs
    else if (count = 1 ∧ c = 44) ∨ cs = [] then ⟨arr, start, i - start⟩ :: itemLoopS arr (depthAfter count c) false false (i + 1) (i + 1) cs
    else itemLoopS arr (depthAfter count c) false false start (i + 1) cs

/-- The slices that `arrayEach` passes to its callback (parser.go:280-360), as in `arrayItems`. -/
def arrayItemsS (heap : Heap Bytes) (value : Slice) : Res (List Slice) :=
  if value.len < 2 then .err (.msg "array too short")
  else if value.len = 2 then .ok []
  else if (value.bytes heap).head? = some 40 then
    if (value.bytes heap).getLast? ≠ some 41 then .err (.msg "array not closed")
    else .ok (itemLoopS value.arr 1 false false (value.off + 1) (value.off + 1) ((value.bytes heap).drop 1))
  else if (value.bytes heap).head? = some 91 then
    if (value.bytes heap).getLast? ≠ some 93 then .err (.msg "array not closed")
    else .ok (itemLoopS value.arr 1 false false (value.off + 1) (value.off + 1) ((value.bytes heap).drop 1))
  else .err (.msg "invalid array opening character")

/-- The callbacks of `arrayEach` in order (parser.go:302-357). -/
def callEachS {σ : Type} (f : σ → Slice → Nat → Res σ) (s : σ) (idx : Nat) : List Slice → Res σ
  | [] => .ok s
  | v :: vs => do
    let s' ← f s v idx
    callEachS f s' (idx + 1) vs

/-- `arrayEach` (parser.go:280-360). -/
def arrayEachS {σ : Type} (heap : Heap Bytes) (value : Slice) (s : σ) (f : σ → Slice → Nat → Res σ) : Res σ := do
  let items ← arrayItemsS heap value
  callEachS f s 0 items

/-- A list of quoted strings (parser.go:149-158, 180-189, 198-207). -/
def stringListS (heap : Heap Bytes) (value : Slice) : Res (List Str) :=
  arrayEachS heap value ([] : List Str) fun acc v _ => do
    let u ← unquoteSliceS heap v
    .ok (acc ++ [u])

/-- A field of an output (parser.go:78-111). -/
def outputFieldS (heap : Heap Bytes) (prev : Str) (s : Str × SOutput) (v : Slice) (index : Nat) : Res (Str × SOutput) := do
  if index = 0 then do
    let n ← unquoteSliceS heap v
    if strLe (n.val heap) (prev.val heap) then .err (.msg "invalid output order") else .ok (n, s.2)
  else if index = 1 then do
    let x ← unquoteSliceS heap v
    .ok (s.1, { s.2 with path := x })
  else if index = 2 then do
    let x ← unquoteSliceS heap v
    .ok (s.1, { s.2 with hashAlgorithm := x })
  else if index = 3 then do
    let x ← unquoteSliceS heap v
    .ok (s.1, { s.2 with hash := x })
  else .err (.msg "unhandled output index")

/-- An output (parser.go:73-124); the state is the map and the previous name. -/
def outputItemS (heap : Heap Bytes) (s : List (Str × SOutput) × Str) (v : Slice) (_ : Nat) : Res (List (Str × SOutput) × Str) := do
  let o ← arrayEachS heap v (.own [], ⟨.own [], .own [], .own []⟩) (outputFieldS heap s.2)
  if o.1.val heap = [] then .err (.msg "output name may not be empty")
  else .ok (insertS heap s.1 o.1 o.2, o.1)

/-- A field of an input derivation (parser.go:134-168). -/
def inputDrvFieldS (heap : Heap Bytes) (prev : Str) (s : Str × List Str) (v : Slice) (index : Nat) : Res (Str × List Str) :=
  if index = 0 then do
    let n ← unquoteSliceS heap v
    if strLe (n.val heap) (prev.val heap) then .err (.msg "invalid input derivation order") else .ok (n, s.2)
  else if index = 1 then do
    let l ← stringListS heap v
    .ok (s.1, s.2 ++ l)
  else .err (.msg "unhandled input derivation index")

/-- An input derivation (parser.go:130-177). -/
def inputDrvItemS (heap : Heap Bytes) (s : List (Str × List Str) × Str) (v : Slice) (_ : Nat) : Res (List (Str × List Str) × Str) := do
  let i ← arrayEachS heap v (.own [], []) (inputDrvFieldS heap s.2)
  .ok (insertS heap s.1 i.1 i.2, i.1)

/-- A field of an environment variable (parser.go:217-240). -/
def envFieldS (heap : Heap Bytes) (prev : Str) (s : Str × Str) (v : Slice) (index : Nat) : Res (Str × Str) :=
  if index = 0 then do
    let k ← unquoteSliceS heap v
    if strLe (k.val heap) (prev.val heap) then .err (.msg "invalid env var order") else .ok (k, s.2)
  else if index = 1 then do
    let x ← unquoteS heap v
    .ok (s.1, x)
  else .err (.msg "unhandled env var index")

/-- An environment variable (parser.go:212-249). -/
def envItemS (heap : Heap Bytes) (s : List (Str × Str) × Str) (v : Slice) (_ : Nat) : Res (List (Str × Str) × Str) := do
  let e ← arrayEachS heap v (.own [], .own []) (envFieldS heap s.2)
  .ok (insertS heap s.1 e.1 e.2, e.1)

/-- A field of the derivation (parser.go:63-256). -/
def drvFieldS (heap : Heap Bytes) (d : SDrv) (v : Slice) (index : Nat) : Res SDrv :=
  if index = 0 then do
    let m ← arrayEachS heap v ([], .own []) (outputItemS heap)
    .ok { d with outputs := m.1 }
  else if index = 1 then do
    let m ← arrayEachS heap v ([], .own []) (inputDrvItemS heap)
    .ok { d with inputDerivations := m.1 }
  else if index = 2 then do
    let l ← stringListS heap v
    .ok { d with inputSources := d.inputSources ++ l }
  else if index = 3 then do
    let x ← unquoteSliceS heap v
    .ok { d with platform := x }
  else if index = 4 then do
    let x ← unquoteSliceS heap v
    .ok { d with builder := x }
  else if index = 5 then do
    let l ← stringListS heap v
    .ok { d with arguments := d.arguments ++ l }
  else if index = 6 then do
    let m ← arrayEachS heap v ([], .own []) (envItemS heap)
    .ok { d with env := m.1 }
  else .err (.msg "unhandled derivation index")

/-- `&Derivation{}` (parser.go:57-61). -/
def emptySDrv : SDrv := ⟨.own [], [], [], [], .own [], .own [], [], []⟩

/-- `parseDerivation` (parser.go:48-277); `json.Unmarshal` works on a copy and makes a new string. -/
def parseDerivationS (jsonName : Bytes → Res (Option Bytes)) (heap : Heap Bytes) (b : Slice) : Res SDrv :=
  if b.len < 8 then .err (.msg "input too short to be a valid derivation")
  else if (b.bytes heap).take 6 ≠ b!"Derive" then .err (.msg "missing derivation prefix")
  else do
    let d ← arrayEachS heap ⟨b.arr, b.off + 6, b.len - 6⟩ emptySDrv (drvFieldS heap)
    match getS heap d.env b!"__json" with
    | none => .ok d
    | some j => do
      let n ← attrsName (jsonName (j.val heap))
      .ok { d with name := .own n }

/-- The arrays of a program: those from `fresh` on do not exist yet. -/
structure Mem where
  heap : Heap Bytes
  fresh : Addr

/-- A new array. -/
def Mem.alloc (m : Mem) (b : Bytes) : Mem := ⟨m.heap.set m.fresh b, m.fresh + 1⟩

/-- `copy(b[at:], d)`. -/
def overwrite (b : Bytes) (at_ : Nat) (d : Bytes) : Bytes := b.take at_ ++ d ++ b.drop (at_ + d.length)

/-- The loop of `io.ReadAll` of the Go library, called in parser.go:28: `a` is the array behind `b`, `len` is `len(b)`. If `b` is full, `append` copies it into a
new array, of capacity `grow c`. Every `Read` is given the rest of the array; the slices it is given are recorded. The number bounds the iterations. -/
def readAllMem (grow : Nat → Nat) : Nat → FReader → Mem → Addr → Nat → List Slice → (Slice × Option Err) × Mem × List Slice
  | 0, _, m, a, len, given => ((⟨a, 0, len⟩, none), m, given)
  | fuel + 1, r, m, a, len, given =>
    let m1 := if len = (m.heap a).length then m.alloc ((m.heap a) ++ List.replicate (grow len - len) 0) else m
    let a1 := if len = (m.heap a).length then m.fresh else a
    let p : Slice := ⟨a1, len, (m1.heap a1).length - len⟩
    match r.read p.len with
    | ((d, e), r') =>
      let m2 : Mem := ⟨m1.heap.set a1 (overwrite (m1.heap a1) len d), m1.fresh⟩
      match e with
      | some e => ((⟨a1, 0, len + d.length⟩, if e = .eof then none else some e), m2, given ++ [p])
      | none => readAllMem grow fuel r' m2 a1 (len + d.length) (given ++ [p])

/-- `ReadDerivation` (parser.go:27-39): the derivation, the memory afterwards, and the slices that the reader was given. -/
def readDerivationMem (grow : Nat → Nat) (jsonName : Bytes → Res (Option Bytes)) (r : FReader) (m : Mem) : Res SDrv × Mem × List Slice :=
  match readAllMem grow (r.fuel + 1) r (m.alloc (List.replicate 512 0)) m.fresh 0 [] with
  | ((_, some e), m', given) => (.err e, m', given)
  | ((b, none), m', given) =>
    (do let d ← parseDerivationS jsonName m'.heap b
        (d.val m'.heap).validate
        .ok d, m', given)

/-- What a program does. -/
inductive MemOp where
  /-- `buf := []byte(...)` -/
  | alloc (b : Bytes)
  /-- `a[i] = v` -/
  | store (a : Addr) (i : Nat) (v : UInt8)
  /-- `ReadDerivation(r)`, with the capacities that `append` chooses -/
  | read (grow : Nat → Nat) (r : FReader)

/-- A program: its memory, the arrays that it can name, and the derivations it has read. -/
structure MemProg where
  mem : Mem
  known : List Addr
  drvs : List SDrv

/-- One step (parser.go:27-39). With `keeps`, the reader keeps the slices it was given, so that the program can name these arrays as well (which the
documentation of `io.Reader` forbids). A `ReadDerivation` that fails gives no derivation. -/
def MemProg.step (keeps : Bool) (jsonName : Bytes → Res (Option Bytes)) (p : MemProg) : MemOp → MemProg
  | .alloc b => ⟨p.mem.alloc b, p.mem.fresh :: p.known, p.drvs⟩
  | .store a i v => { p with mem := ⟨p.mem.heap.set a ((p.mem.heap a).set i v), p.mem.fresh⟩ }
  | .read grow r =>
    match readDerivationMem grow jsonName r p.mem with
    | (res, m', given) =>
      ⟨m', if keeps then given.map (·.arr) ++ p.known else p.known, match res with
        | .ok d => p.drvs ++ [d]
        | _ => p.drvs⟩

/-- The steps in turn. -/
def MemProg.run (keeps : Bool) (jsonName : Bytes → Res (Option Bytes)) (p : MemProg) (ops : List MemOp) : MemProg :=
  ops.foldl (MemProg.step keeps jsonName) p

end Verif.Derivation
