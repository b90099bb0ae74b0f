import Verif.Model.Narinfo

/-!
# `narinfo.Parse` on machines with another width of `int`

`strconv.ParseUint(v, 10, 0)` (parser.go:54, 64) reads an `uint`, which has 32 bits on some machines, although the
fields are of type `uint64`. The model in `Model/Narinfo.lean` is that of a machine with 64 bits.
-/

namespace Verif.NarinfoWidth
open Verif.GoLib Verif.Nixhash Verif.Signature Verif.Wire Verif.Narinfo

/-- `strconv.ParseUint(s, 10, 0)` where `int` has `w` bits, at most 64 (parser.go:54, 64). -/
def parseUintW (w : Nat) (s : Bytes) : Res Nat := do
  let x ← parseUint s
  if x ≥ 2 ^ w then .err (.msg "value out of range") else .ok x

/-- The `switch` on the key (parser.go:40-92); the other cases do not use numbers. -/
def setFieldW (w : Nat) (n : NarInfo) (k v : Bytes) : Res NarInfo :=
  if k = b!"FileSize" then do
    let x ← parseUintW w v
    .ok { n with fileSize := x }
  else if k = b!"NarSize" then do
    let x ← parseUintW w v
    .ok { n with narSize := x }
  else setField n k v

/-- One iteration of the loop (parser.go:27-93), see `Narinfo.parseLine`. -/
def parseLineW (w : Nat) (n : NarInfo) (line : Bytes) : Res NarInfo :=
  if line.length ≥ maxCapacity then .err (.msg "bufio.Scanner: token too long")
  else if dropCR line = [] then .ok n
  else do
    let kv ← splitOnce (dropCR line)
    setFieldW w n kv.1 kv.2

/-- The loop (parser.go:27-93). -/
def parseLinesW (w : Nat) (n : NarInfo) : List Bytes → Res NarInfo
  | [] => .ok n
  | l :: ls => do
    let n' ← parseLineW w n l
    parseLinesW w n' ls

/-- `Parse` (parser.go:16-105), see `Narinfo.parse`. -/
def parseW (w : Nat) (s : Stream) : Res NarInfo := do
  let n ← parseLinesW w empty (splitByte s.data 10)
  if s.term ≠ .eof then .err s.term
  else .ok (if n.compression = [] then { n with compression := b!"bzip2" } else n)

end Verif.NarinfoWidth
