import Verif.Model.Nar

/-!
# Memory: `ReadBytesFull` and `nar.Reader` in a process with limited memory

The same functions as in `Wire.lean` and `Nar.lean`, for a process in which a block of more than `block` bytes cannot be allocated, and in which
the goroutine of the reader has room for `stack` nested calls of `parseNode`. Go ends the program when one of the two is exceeded
("out of memory", "stack overflow"); here the call panics. Only the buffers for strings (read.go:91) are blocks whose size the input determines;
contents are never held (bytes_reader.go). Simplification: the paths (`path.Join`, reader.go:271) belong to the calls of `parseNode`.
-/

namespace Verif.Memory
open Verif.GoLib Verif.Wire Verif.Nar

/-- What the process has. -/
structure Mem where
  block : Nat
  stack : Nat
  deriving DecidableEq, Repr

/-- `ReadBytesFull` (read.go:78-99): `make([]byte, contentLength)` (91) after the check of the length. -/
def readBytesFull (block maxBytes : Nat) : M Stream Bytes := do
  let contentLength ← readUint64
  if contentLength > maxBytes then M.fail (.msg "content length exceeds maximum")
  else if 2 ^ 63 ≤ contentLength then M.panic
  else if block < contentLength then M.panic
  else readContent contentLength

/-- `expectString` (reader.go:370-385). -/
def expectString (block : Nat) (e : Bytes) : M Stream Unit := fun s =>
  match readBytesFull block e.length s with
  | (.ok t, s') => if t ≠ e then (.err (.msg "expected other string"), s') else (.ok (), s')
  | (.err er, s') => (.err (if er = .eof then .unexpectedEOF else er), s')
  | (.panic, s') => (.panic, s')

/-- The placeholder after `executable` (reader.go:134-139). -/
def readPlaceholder (block : Nat) : M Stream Unit := fun s =>
  match readBytesFull block 0 s with
  | (.ok _, s') => (.ok (), s')
  | (.err _, s') => (.err (.msg "error reading placeholder"), s')
  | (.panic, s') => (.panic, s')

/-- The part of case "regular" from the `contents` token on (reader.go:147-187). -/
def parseContents (block : Nat) (p : Bytes) (executable : Bool) (tok : Bytes) : RCoro Unit :=
  if tok ≠ b!"contents" then Coro.fail (.msg "invalid token, expected contents")
  else do
    let n ← rd readUint64
    if n > 2 ^ 63 - 1 then Coro.fail (.msg "content length is larger than MaxInt64")
    else do
      setContent n
      let next ← Coro.yield ⟨p, typeRegular, [], n, executable⟩
      if !next then pure ()
      else do
        closeContent
        let tok ← rd (readBytesFull block tokenLenMax)
        expectClose tok

/-- Case "regular" (reader.go:122-187). -/
def parseRegular (block : Nat) (p : Bytes) : RCoro Unit := do
  let tok ← rd (readBytesFull block (b!"executable").length)
  if tok = b!"executable" then do
    rd (readPlaceholder block)
    let tok ← rd (readBytesFull block tokenLenMax)
    parseContents block p true tok
  else parseContents block p false tok

/-- Case "symlink" (reader.go:189-224). -/
def parseSymlink (block : Nat) (p : Bytes) : RCoro Unit := do
  rd (expectString block b!"target")
  let target ← rd (readBytesFull block pathLenMax)
  setContent 0
  let next ← Coro.yield ⟨p, typeSymlink, target, 0, false⟩
  if !next then pure ()
  else do
    let tok ← rd (readBytesFull block tokenLenMax)
    expectClose tok

mutual
/-- `parseNode` (reader.go:100-304), a call for which there may be no room. -/
def parseNode (block : Nat) : Nat → Nat → Bytes → RCoro Unit
  | 0, _, _ => Coro.fail outOfFuel
  | _ + 1, 0, _ => ⟨fun s => .done .panic s⟩
  | fuel + 1, stack + 1, p => do
    rd (expectString block b!"(")
    rd (expectString block b!"type")
    let tok ← rd (readBytesFull block tokenLenMax)
    if tok = b!"regular" then parseRegular block p
    else if tok = b!"symlink" then parseSymlink block p
    else if tok = b!"directory" then do
      setContent 0
      let next ← Coro.yield ⟨p, typeDirectory, [], 0, false⟩
      if !next then pure () else parseEntries block fuel stack p
    else expectClose tok
/-- The loop over the directory entries (reader.go:245-296); `stack` is the room for the calls it makes. -/
def parseEntries (block : Nat) : Nat → Nat → Bytes → RCoro Unit
  | 0, _, _ => Coro.fail outOfFuel
  | fuel + 1, stack, p => do
    let tok ← rd (readBytesFull block tokenLenMax)
    if tok = b!"entry" then do
      rd (expectString block b!"(")
      rd (expectString block b!"name")
      let name ← rd (readBytesFull block nameLenMax)
      if !isValidNodeName name then Coro.fail (.msg "name is invalid")
      else do
        rd (expectString block b!"node")
        parseNode block fuel stack (pathJoin p name)
        rd (expectString block b!")")
        if name = b!")" then pure () else parseEntries block fuel stack p
    else if tok = b!")" then pure ()
    else parseEntries block fuel stack p
end

/-- What the goroutine does with the first value from `next` (reader.go:78-91). -/
def goroutine (m : Mem) (next : Bool) (s : RState) : Step RState Header Bool Unit :=
  if next then (parseNode m.block (s.stream.data.length + 1) m.stack b!"/").run s else .done (.ok ()) s

/-- `NewReader` (reader.go:59-98). The methods are those of `Model/Nar.lean`; the goroutine waits for the first `next` like for all others. -/
def newReader (m : Mem) : M Stream Reader := fun s =>
  match expectString m.block narVersionMagic1 s with
  | (.ok (), s') => (.ok ⟨⟨s', 0, 0⟩, .waiting (goroutine m), none, [], false⟩, s')
  | (.err _, s') => (.err (.msg "invalid nar version magic"), s')
  | (.panic, s') => (.panic, s')

end Verif.Memory
