import Verif.Model.Derivation
import Verif.Model.Narinfo

/-!
# `narinfo.Parse` and `derivation.ReadDerivation` on an `io.Reader` that delivers its data in pieces

`Parse` reads through a `bufio.Scanner` and `ReadDerivation` through `io.ReadAll`; both are modelled here
as they are written in the Go library, over `Verif.Wire.FReader`. Property C124 relates them to
`Verif.Narinfo.parse` and `Verif.Derivation.readDerivation`.
-/

namespace Verif.Scan
open Verif.GoLib Verif.Wire

/-- `bufio.ErrTooLong`. -/
def tooLong : Err := .msg "bufio.Scanner: token too long"

/-- `io.ErrNoProgress`. -/
def noProgress : Err := .msg "multiple Read calls return no data or error"

/-- `bufio.ScanLines(data, atEOF)` of the Go library: how far to advance, and the token. -/
def scanLines (data : Bytes) (atEOF : Bool) : Option (Nat × Bytes) :=
  if atEOF ∧ data = [] then none
  else if 10 ∈ data then
    some ((data.takeWhile (· != 10)).length + 1, dropCR (data.takeWhile (· != 10)))
  else if atEOF then some (data.length, dropCR data)
  else none

/-- `bufio.Scanner` with the split function `ScanLines`, a buffer of `cap` bytes and `maxTokenSize = cap`
(parser.go:18-25): the reader, `s.start`, `s.buf[s.start:s.end]`, `s.err`. -/
structure Scanner where
  r : FReader
  start : Nat
  data : Bytes
  err : Option Err

/-- The loop around `s.r.Read` in `Scan`: at most `maxConsecutiveEmptyReads = 100` empty reads, that is `left = 101`
reads. -/
def fill : Nat → FReader → Nat → (Bytes × Option Err) × FReader
  | 0, r, _ => (([], some noProgress), r)
  | left + 1, r, k =>
    match r.read k with
    | ((d, some e), r') => ((d, some e), r')
    | ((d, none), r') => if d.length > 0 then ((d, none), r') else fill left r' k

/-- The data are moved to the beginning of the buffer if there is a lot of room before them or no room
after them. -/
def shift (cap : Nat) (s : Scanner) : Scanner :=
  if s.start > 0 ∧ (s.start + s.data.length = cap ∨ s.start > cap / 2) then { s with start := 0 } else s

/-- The loop of `Scanner.Scan` of the Go library: `Text()` if it returns true. The number bounds the iterations; each
of them but the last reads something. -/
def scanLoop (cap : Nat) : Nat → Scanner → Option Bytes × Scanner
  | 0, s => (none, s)
  | fuel + 1, s =>
    match (if s.data.length > 0 ∨ s.err ≠ none then scanLines s.data s.err.isSome else none) with
    | some (adv, tok) => (some tok, { s with start := s.start + adv, data := s.data.drop adv })
    | none =>
      if s.err ≠ none then (none, { s with start := 0, data := [] })
      else
        let s := shift cap s
        if s.start + s.data.length = cap then (none, { s with err := some tooLong })
        else
          match fill 101 s.r (cap - (s.start + s.data.length)) with
          | ((d, e), r') => scanLoop cap fuel { s with r := r', data := s.data ++ d, err := e }

/-- `Scanner.Scan`. -/
def Scanner.scan (cap : Nat) (s : Scanner) : Option Bytes × Scanner := scanLoop cap (s.r.fuel + 2) s

/-- The body of the loop of `Parse` (parser.go:27-93) on a token. -/
def parseToken (n : Narinfo.NarInfo) (line : Bytes) : Res Narinfo.NarInfo :=
  if line = [] then .ok n
  else do
    let kv ← Narinfo.splitOnce line
    Narinfo.setField n kv.1 kv.2

/-- The loop of `Parse` and what follows it (parser.go:27-105); `Err` is nil at `io.EOF`. -/
def parseLoop (cap : Nat) : Nat → Scanner → Narinfo.NarInfo → Res Narinfo.NarInfo
  | 0, _, _ => .panic
  | fuel + 1, s, n =>
    match s.scan cap with
    | (some line, s') => do
      let n' ← parseToken n line
      parseLoop cap fuel s' n'
    | (none, s') =>
      match s'.err with
      | some e => if e ≠ .eof then .err e
        else .ok (if n.compression = [] then { n with compression := b!"bzip2" } else n)
      | none => .ok (if n.compression = [] then { n with compression := b!"bzip2" } else n)

/-- `narinfo.Parse` (parser.go:16-105). The bound is above the number of lines. -/
def parse (r : FReader) : Res Narinfo.NarInfo :=
  parseLoop Narinfo.maxCapacity (r.chunks.flatten.length + 2) ⟨r, 0, [], none⟩ Narinfo.empty

/-- The loop of `io.ReadAll` of the Go library; `grow n` is the capacity that `append` chooses for a full slice of
capacity `n`. The number bounds the iterations. -/
def readAllLoop (grow : Nat → Nat) : Nat → FReader → Bytes → Nat → (Bytes × Option Err) × FReader
  | 0, r, b, _ => ((b, none), r)
  | fuel + 1, r, b, c =>
    match r.read (c - b.length) with
    | ((d, some e), r') => ((b ++ d, if e = .eof then none else some e), r')
    | ((d, none), r') =>
      readAllLoop grow fuel r' (b ++ d) (if (b ++ d).length = c then grow c else c)

/-- `io.ReadAll`: a buffer of 512 bytes at first. -/
def readAll (grow : Nat → Nat) (r : FReader) : (Bytes × Option Err) × FReader :=
  readAllLoop grow (r.fuel + 1) r [] 512

/-- `ReadDerivation` (parser.go:27-39 of pkg/derivation). -/
def readDerivation (grow : Nat → Nat) (jsonName : Bytes → Res (Option Bytes)) (r : FReader) :
    Res Derivation.Derivation :=
  match (readAll grow r).1 with
  | (_, some e) => .err e
  | (b, none) => do
    let d ← Derivation.parseDerivation jsonName b
    d.validate
    .ok d

end Verif.Scan
