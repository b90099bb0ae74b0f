import Verif.Model.Heap
import Verif.Model.Nixhash

/-!
# Hashes and the byte slices they refer to

A `Hash` holds a slice (hash.go:15-18). `NewHash` keeps the slice of the caller (hash.go:20-26), `Digest` hands it out (hash.go:41-43), and the
parsers put a new one there (parse.go:56-86). `Model/Nixhash.lean` treats the digest as a value. Here arrays of bytes live in a heap, the caller can
assign to their elements between the calls, and the code works on slices of them.
-/

namespace Verif.Nixhash
open Verif.GoLib

/-- A Go slice: a part of an array. -/
structure Slice where
  arr : Addr
  off : Nat
  len : Nat
  deriving DecidableEq, Repr

/-- The bytes of a slice. -/
def Slice.bytes (heap : Heap Bytes) (s : Slice) : Bytes := ((heap s.arr).drop s.off).take s.len

/-- The slice is one of an existing array (Go checks this when a slice is made). -/
def Slice.Ok (heap : Heap Bytes) (s : Slice) : Prop := s.off + s.len ≤ (heap s.arr).length

/-- `Hash` (hash.go:15-18) with its slice. -/
structure PtrHash where
  algo : Algorithm
  digest : Slice
  deriving DecidableEq, Repr

/-- What the hash is at the moment. -/
def PtrHash.value (heap : Heap Bytes) (h : PtrHash) : Hash := ⟨h.algo, h.digest.bytes heap⟩

/-- `Format` (hash.go:46-69): it reads the digest when it is called. -/
def PtrHash.format (heap : Heap Bytes) (h : PtrHash) (e : Encoding) (includeAlgo : Bool) : Res Bytes := (h.value heap).format e includeAlgo

/-- A program: its arrays (those from `fresh` on do not exist yet) and the hashes it has. -/
structure HashProg where
  heap : Heap Bytes
  fresh : Addr
  hashes : List PtrHash

/-- What a program does. -/
inductive HashOp where
  /-- `buf := []byte(...)` -/
  | alloc (b : Bytes)
  /-- `a[i] = v` -/
  | store (a : Addr) (i : Nat) (v : UInt8)
  /-- `NewHash(algo, s)` -/
  | new (algo : Algorithm) (s : Slice)
  /-- `ParseAny(text, algo)` -/
  | parse (text : Bytes) (algo : Option Algorithm)
  deriving DecidableEq, Repr

/-- One step. `NewHash` (hash.go:20-26) keeps the slice; `ParseAny` (parse.go:16-86) decodes into a new array. A call that fails gives no hash;
one that panics is skipped here. -/
def HashProg.step (p : HashProg) : HashOp → HashProg
  | .alloc b => { p with heap := p.heap.set p.fresh b, fresh := p.fresh + 1 }
  | .store a i v => { p with heap := p.heap.set a ((p.heap a).set i v) }
  | .new algo s =>
    match newHash algo (s.bytes p.heap) with
    | .ok h => { p with hashes := p.hashes ++ [⟨h.algo, s⟩] }
    | _ => p
  | .parse text algo =>
    match parseAny text algo with
    | .ok h => ⟨p.heap.set p.fresh h.hash.digest, p.fresh + 1, p.hashes ++ [⟨h.hash.algo, ⟨p.fresh, 0, h.hash.digest.length⟩⟩]⟩
    | _ => p

/-- The steps in turn. -/
def HashProg.run (p : HashProg) (ops : List HashOp) : HashProg := ops.foldl HashProg.step p

end Verif.Nixhash
