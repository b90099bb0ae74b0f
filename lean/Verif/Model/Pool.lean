import Verif.Model.Wire

/-!
# Model of the buffer pool of `pkg/wire` under concurrency

`bufPool` (write.go:12-16) is the only mutable state that the packages share between calls. `ReadUint64`,
`readPadding` and `WriteUint64` take an 8 byte buffer from it and put it back when they return. Here they are
modelled at the granularity of single accesses to such a buffer, with any number of goroutines, each with an
`io.Reader` and an `io.Writer` of its own, and every schedule.
-/

namespace Verif.Pool
open Verif.Wire

/-- What belongs to one goroutine: the reader and the writer it passes to the functions of the package. -/
structure Dev where
  r : FReader
  w : Sink
  deriving DecidableEq, Repr

/-- The calls that use the pool: `ReadUint64` (read.go:9-18), `readPadding` (read.go:36-59),
`WriteUint64` (write.go:20-28). -/
inductive Op where
  | readUint64
  | readPadding (contentLength : Nat)
  | writeUint64 (n : Nat)
  deriving DecidableEq, Repr

/-- What these calls return. -/
inductive Out where
  | num (r : Res Nat)
  | unit (r : Res Unit)
  deriving DecidableEq, Repr

/-- A goroutine: it returned, it makes one of the calls above and goes on with the result, or it does something
with its own reader and writer. -/
inductive Prog (α : Type) : Type where
  | done (a : α)
  | call (o : Op) (k : Out → Prog α)
  | own (f : Dev → Dev) (k : Dev → Prog α)

/-- A goroutine between two accesses. `off`: where in the buffer the slice starts that is passed to `io.ReadFull`
(`buf[:]` or `buf[n:]`); `got`: how many bytes `io.ReadFull` has received. -/
inductive PC (α : Type) : Type where
  /-- not inside one of the calls -/
  | at (p : Prog α)
  /-- has taken buffer `b` from the pool -/
  | holding (b : Nat) (o : Op) (k : Out → Prog α)
  /-- in the loop of `io.ReadFull(r, buf[off:])` -/
  | reading (b : Nat) (o : Op) (k : Out → Prog α) (got : Nat)
  /-- `io.ReadFull` returned, with this error of the reader if it was short -/
  | looking (b : Nat) (o : Op) (k : Out → Prog α) (got : Nat) (e : Option Err)
  /-- in `w.Write(buf[:])`, which has taken `sent` bytes so far -/
  | writing (b : Nat) (k : Out → Prog α) (sent : Nat)
  /-- about to run the deferred `bufPool.Put(buf)` and to return `x` -/
  | leaving (b : Nat) (x : Out) (k : Out → Prog α)

/-- A goroutine with its devices. -/
structure Thread (α : Type) where
  pc : PC α
  dev : Dev

/-- All goroutines, the memory of the 8 byte buffers, which of them are in the pool, and the first one that was
never allocated. -/
structure Conf (α : Type) where
  threads : Nat → Thread α
  heap : Nat → Bytes
  pool : List Nat
  fresh : Nat

/-- Replace a value of a function. -/
def set {β : Type} (f : Nat → β) (i : Nat) (x : β) : Nat → β := fun j => if j = i then x else f j

/-- Goroutine `i` goes on to `pc`, with devices `d`. -/
def Conf.goto {α : Type} (c : Conf α) (i : Nat) (pc : PC α) (d : Dev) : Conf α :=
  { c with threads := set c.threads i ⟨pc, d⟩ }

/-- Where the slice starts that is read into: `buf[:]` (read.go:13), `buf[n:]` (read.go:47). -/
def Op.off : Op → Nat
  | .readUint64 => 0
  | .readPadding n => n % 8
  | .writeUint64 _ => 0

/-- `readPadding` returns at once when there is no padding (read.go:38-41); everything else uses the pool. -/
def Op.direct : Op → Bool
  | .readPadding n => n % 8 = 0
  | _ => false

/-- What is returned after `io.ReadFull` (read.go:13-17, 47-58): `buf` is the buffer, of which the part from `off`
on was to be filled. -/
def Op.result (o : Op) (buf : Bytes) (got : Nat) (e : Option Err) : Out :=
  let err : Err := match e with
    | some e => shortErr got e
    | none => .io
  match o with
  | .readUint64 => if 8 - o.off ≤ got then .num (.ok (getUint64 buf)) else .num (.err err)
  | _ =>
    if 8 - o.off ≤ got then
      if (buf.drop o.off).all (· == 0) then .unit (.ok ()) else .unit (.err (.msg "invalid padding"))
    else .unit (.err err)

/-- One step of one goroutine, or of the garbage collector. -/
inductive Step {α : Type} (c : Conf α) : Conf α → Prop where
  /-- the goroutine does something with its own devices -/
  | own {i : Nat} {f : Dev → Dev} {k : Dev → Prog α} {d : Dev} (h : c.threads i = ⟨.at (.own f k), d⟩) :
      Step c (c.goto i (.at (k d)) (f d))
  /-- `readPadding` without padding (read.go:38-41) -/
  | skip {i : Nat} {o : Op} {k : Out → Prog α} {d : Dev} (h : c.threads i = ⟨.at (.call o k), d⟩)
      (hd : o.direct = true) : Step c (c.goto i (.at (k (.unit (.ok ())))) d)
  /-- `bufPool.Get()` delivers any buffer of the pool (read.go:10, 43; write.go:21) -/
  | get {i : Nat} {o : Op} {k : Out → Prog α} {d : Dev} {b : Nat} (h : c.threads i = ⟨.at (.call o k), d⟩)
      (hd : o.direct = false) (hb : b ∈ c.pool) :
      Step c { c.goto i (.holding b o k) d with pool := c.pool.erase b }
  /-- `bufPool.Get()` calls `New` (write.go:13-15): a zeroed buffer nobody knows -/
  | new {i : Nat} {o : Op} {k : Out → Prog α} {d : Dev} (h : c.threads i = ⟨.at (.call o k), d⟩)
      (hd : o.direct = false) :
      Step c { c.goto i (.holding c.fresh o k) d with
        heap := set c.heap c.fresh (List.replicate 8 0), fresh := c.fresh + 1 }
  /-- `io.ReadFull` starts (read.go:13, 47) -/
  | begin {i : Nat} {o : Op} {k : Out → Prog α} {d : Dev} {b : Nat} (h : c.threads i = ⟨.holding b o k, d⟩)
      (ho : ∀ n, o ≠ .writeUint64 n) : Step c (c.goto i (.reading b o k 0) d)
  /-- `byteOrder.PutUint64(buf[:], n)` (write.go:24) -/
  | put {i : Nat} {n : Nat} {k : Out → Prog α} {d : Dev} {b : Nat}
      (h : c.threads i = ⟨.holding b (.writeUint64 n) k, d⟩) :
      Step c { c.goto i (.writing b k 0) d with heap := set c.heap b (putUint64 n) }
  /-- one `Read` of the loop of `io.ReadFull`; a reader may use the rest of its buffer as it likes (`junk`) -/
  | read {i : Nat} {o : Op} {k : Out → Prog α} {d : Dev} {b got : Nat} {junk : Bytes}
      (h : c.threads i = ⟨.reading b o k got, d⟩) (hg : got < 8 - o.off)
      (hj : o.off + got + (d.r.read (8 - o.off - got)).1.1.length + junk.length = 8) :
      Step c { c.goto i
          (match (d.r.read (8 - o.off - got)).1.2 with
            | none => .reading b o k (got + (d.r.read (8 - o.off - got)).1.1.length)
            | some e => .looking b o k (got + (d.r.read (8 - o.off - got)).1.1.length) (some e))
          { d with r := (d.r.read (8 - o.off - got)).2 } with
        heap := set c.heap b ((c.heap b).take (o.off + got) ++ (d.r.read (8 - o.off - got)).1.1 ++ junk) }
  /-- the slice is full, the loop ends -/
  | full {i : Nat} {o : Op} {k : Out → Prog α} {d : Dev} {b got : Nat}
      (h : c.threads i = ⟨.reading b o k got, d⟩) (hg : 8 - o.off ≤ got) :
      Step c (c.goto i (.looking b o k got none) d)
  /-- the result is computed from the buffer (read.go:17, 51-55) -/
  | look {i : Nat} {o : Op} {k : Out → Prog α} {d : Dev} {b got : Nat} {e : Option Err}
      (h : c.threads i = ⟨.looking b o k got e, d⟩) :
      Step c (c.goto i (.leaving b (o.result (c.heap b) got e) k) d)
  /-- `w.Write` takes the next `j` bytes of the buffer (write.go:25); it stops when it fails -/
  | write {i : Nat} {k : Out → Prog α} {d : Dev} {b sent j : Nat}
      (h : c.threads i = ⟨.writing b k sent, d⟩) (hj : 0 < j ∧ sent + j ≤ 8) :
      Step c (c.goto i
        (match (d.w.write (((c.heap b).drop sent).take j)).1.2 with
          | none => .writing b k (sent + j)
          | some e => .leaving b (.unit (.err e)) k)
        { d with w := (d.w.write (((c.heap b).drop sent).take j)).2 })
  /-- `w.Write` has taken everything -/
  | written {i : Nat} {k : Out → Prog α} {d : Dev} {b : Nat} (h : c.threads i = ⟨.writing b k 8, d⟩) :
      Step c (c.goto i (.leaving b (.unit (.ok ())) k) d)
  /-- the deferred `bufPool.Put(buf)` and the return (read.go:11, 44; write.go:22) -/
  | leave {i : Nat} {x : Out} {k : Out → Prog α} {d : Dev} {b : Nat} (h : c.threads i = ⟨.leaving b x k, d⟩) :
      Step c { c.goto i (.at (k x)) d with pool := b :: c.pool }
  /-- a `sync.Pool` may forget what is in it -/
  | drop (b : Nat) : Step c { c with pool := c.pool.erase b }

/-- Some schedule leads from one configuration to the other. -/
inductive Reach {α : Type} (c : Conf α) : Conf α → Prop where
  | refl : Reach c c
  | step {c1 c2 : Conf α} : Reach c c1 → Step c1 c2 → Reach c c2

/-- The calls of `pkg/wire` as programs of a goroutine: `ReadBool` (read.go:21-32). -/
def readBool {α : Type} (k : Res Bool → Prog α) : Prog α :=
  .call .readUint64 fun
    | .num (.ok n) => if n ≠ 0 ∧ n ≠ 1 then k (.err (.msg "invalid value for boolean")) else k (.ok (n == 1))
    | .num (.err e) => k (.err e)
    | _ => k .panic

/-- `w.Write(p)`, `_, err :=` (write.go:47, 60, 72). -/
def writeOwn {α : Type} (p : Bytes) (k : Res Unit → Prog α) : Prog α :=
  .own (fun d => { d with w := (writeAll p d.w).2 }) fun d => k (writeAll p d.w).1

/-- `writePadding` (write.go:68-76). -/
def writePadding {α : Type} (n : Nat) (k : Res Unit → Prog α) : Prog α :=
  if n % 8 ≠ 0 then writeOwn (List.replicate (8 - n % 8) 0) k else k (.ok ())

/-- `WriteBytes` (write.go:40-51) and `WriteString` (write.go:54-65). -/
def writeBytes {α : Type} (buf : Bytes) (k : Res Unit → Prog α) : Prog α :=
  .call (.writeUint64 buf.length) fun
    | .unit (.ok ()) => writeOwn buf fun
      | .ok () => writePadding buf.length k
      | r => k r
    | .unit r => k r
    | _ => k .panic

/-- `BytesReader.Close` (bytes_reader.go:44-59) of the packet `br`, whose reader is the goroutine's. -/
def closeReader {α : Type} (br : FReader → BytesReader) (k : Res Unit → Prog α) : Prog α :=
  .own (fun d => { d with r := (BytesReader.drain (d.r.fuel + 1) (br d.r)).2.r }) fun d =>
    match (BytesReader.drain (d.r.fuel + 1) (br d.r)).1 with
    | some e => k (.err e)
    | none => .call (.readPadding (br d.r).contentLength) fun
      | .unit r => k r
      | _ => k .panic

/-- `ReadBytesFull` (read.go:78-99) and `ReadString` (read.go:99-103): the error of the deferred `Close` is dropped. -/
def readBytesFull {α : Type} (maxBytes : Nat) (k : Res Bytes → Prog α) : Prog α :=
  .call .readUint64 fun
    | .num (.ok n) =>
      if n > maxBytes then k (.err (.msg "content length exceeds maximum"))
      else if 2 ^ 63 ≤ n then k .panic
      else
        .own (fun d => { d with r := (BytesReader.readLoop (d.r.fuel + 1) (newBytesReader d.r n) n []).2.r }) fun d =>
          let x := BytesReader.readLoop (d.r.fuel + 1) (newBytesReader d.r n) n []
          closeReader (fun r => { x.2 with r := r }) fun _ =>
            if n ≤ x.1.1.length then k (.ok x.1.1)
            else match x.1.2 with
              | some e => k (.err (shortErr x.1.1.length e))
              | none => k (.err .io)
    | .num (.err e) => k (.err e)
    | _ => k .panic

end Verif.Pool
