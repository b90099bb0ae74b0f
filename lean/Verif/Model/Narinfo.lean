import Verif.Model.Nixhash
import Verif.Model.Signature
import Verif.Model.Storepath
import Verif.Model.Wire

/-!
# Model of `pkg/narinfo`
-/

namespace Verif.Narinfo
open Verif.GoLib Verif.Nixhash Verif.Signature Verif.Storepath Verif.Wire

/-- `NarInfo` (types.go:12-42); `none` is a nil hash pointer, sizes are `uint64`. -/
structure NarInfo where
  storePath : Bytes
  url : Bytes
  compression : Bytes
  fileHash : Option HashWithEncoding
  fileSize : Nat
  narHash : Option HashWithEncoding
  narSize : Nat
  references : List Bytes
  deriver : Bytes
  system : Bytes
  signatures : List Named
  ca : Bytes
  deriving DecidableEq, Repr

/-- `&NarInfo{}` (parser.go:17). -/
def empty : NarInfo := ⟨[], [], [], none, 0, none, 0, [], [], [], [], []⟩

/-- `splitOnce(s, ": ")` (parser.go:108-119). -/
def splitOnce (s : Bytes) : Res (Bytes × Bytes) :=
  match index s b!": " with
  | none => .err (.msg "unable to find separator")
  | some i =>
    if contains (s.drop (i + 1)) b!": " then .err (.msg "found separator twice or more")
    else .ok (s.take i, s.drop (i + 2))

/-- The `switch` on the key (parser.go:40-92). -/
def setField (n : NarInfo) (k v : Bytes) : Res NarInfo :=
  if k = b!"StorePath" then .ok { n with storePath := v }
  else if k = b!"URL" then .ok { n with url := v }
  else if k = b!"Compression" then .ok { n with compression := v }
  else if k = b!"FileHash" then do
    let h ← parseAny v none
    .ok { n with fileHash := some h }
  else if k = b!"FileSize" then do
    let x ← parseUint v
    .ok { n with fileSize := x }
  else if k = b!"NarHash" then do
    let h ← parseAny v none
    .ok { n with narHash := some h }
  else if k = b!"NarSize" then do
    let x ← parseUint v
    .ok { n with narSize := x }
  else if k = b!"References" then
    .ok (if v = [] then n else { n with references := n.references ++ splitByte v 32 })
  else if k = b!"Deriver" then .ok (if v ≠ b!"unknown-deriver" then { n with deriver := v } else n)
  else if k = b!"System" then .ok { n with system := v }
  else if k = b!"Sig" then do
    let s ← parseSignature v
    .ok { n with signatures := n.signatures ++ [s] }
  else if k = b!"CA" then .ok { n with ca := v }
  else .err (.msg "unknown key")

/-- `maxCapacity` (parser.go:23). -/
def maxCapacity : Nat := 1048576

/-- One iteration of the loop (parser.go:27-93) on a line as found in the text (`bufio.ScanLines`
drops the carriage return). A line of `maxCapacity` bytes or more does not fit into the buffer of the
scanner together with its end. (Simplification: a last line of exactly `maxCapacity` bytes without
newline is always refused; Go accepts it when the reader delivers its last bytes together with
`io.EOF`.) -/
def parseLine (n : NarInfo) (line : Bytes) : Res NarInfo :=
  if line.length ≥ maxCapacity then .err (.msg "bufio.Scanner: token too long")
  else if dropCR line = [] then .ok n
  else do
    let kv ← splitOnce (dropCR line)
    setField n kv.1 kv.2

/-- The loop (parser.go:27-93). -/
def parseLines (n : NarInfo) : List Bytes → Res NarInfo
  | [] => .ok n
  | l :: ls => do
    let n' ← parseLine n l
    parseLines n' ls

/-- `Parse` (parser.go:16-105). The empty string after the last newline is not a line for the
scanner; it is skipped like an empty line. A read error of the underlying reader surfaces after the
lines before it have been handled. -/
def parse (s : Stream) : Res NarInfo := do
  let n ← parseLines empty (splitByte s.data 10)
  if s.term ≠ .eof then .err s.term
  else .ok (if n.compression = [] then { n with compression := b!"bzip2" } else n)

/-- `NarHash.String()` on a nil pointer panics. -/
def hashString : Option HashWithEncoding → Res Bytes
  | none => .panic
  | some h => h.string

/-- The lines for the file (types.go:51-54). -/
def fileLines (n : NarInfo) : Res Bytes :=
  match n.fileHash with
  | none => .ok []
  | some h =>
    if n.fileSize ≠ 0 then do
      let s ← h.string
      .ok (b!"FileHash: " ++ s ++ b!"\n" ++ b!"FileSize: " ++ formatUint n.fileSize ++ b!"\n")
    else .ok []

/-- The text of the references (types.go:62-71). -/
def refsText (refs : List Bytes) : Bytes :=
  if refs = [] then b!" " else refs.flatMap fun r => 32 :: r

/-- A line that is left out when the value is empty (types.go:75-81, 87-89). -/
def optLine (key v : Bytes) : Bytes := if v = [] then [] else key ++ v ++ b!"\n"

/-- `String` (types.go:44-92). -/
def NarInfo.string (n : NarInfo) : Res Bytes := do
  let file ← fileLines n
  let nh ← hashString n.narHash
  .ok (b!"StorePath: " ++ n.storePath ++ b!"\n" ++
    b!"URL: " ++ n.url ++ b!"\n" ++
    b!"Compression: " ++ n.compression ++ b!"\n" ++
    file ++
    b!"NarHash: " ++ nh ++ b!"\n" ++
    b!"NarSize: " ++ formatUint n.narSize ++ b!"\n" ++
    b!"References:" ++ refsText n.references ++ b!"\n" ++
    optLine b!"Deriver: " n.deriver ++
    optLine b!"System: " n.system ++
    (n.signatures.flatMap fun s => b!"Sig: " ++ encode s ++ b!"\n") ++
    optLine b!"CA: " n.ca)

/-- `Fingerprint` (fingerprint.go:12-27). -/
def NarInfo.fingerprint (n : NarInfo) : Res Bytes :=
  match n.narHash with
  | none => .panic
  | some h => do
    let hs ← h.hash.format NixBase32 true
    let f := b!"1;" ++ n.storePath ++ b!";" ++ hs ++ b!";" ++ formatUint n.narSize ++ b!";"
    if n.references = [] then .ok f
    else .ok ((f ++ n.references.flatMap fun r => storeDir ++ b!"/" ++ r ++ b!",").dropLast)

/-- The loop over the references (check.go:22-27). -/
def checkRefs : List Bytes → Res Unit
  | [] => .ok ()
  | r :: rs =>
    match fromString r with
    | .ok _ => checkRefs rs
    | .err _ => .err (.msg "invalid Reference")
    | .panic => .panic

/-- The comparison of the hashes (check.go:44-56); building the error message prints both
algorithms. -/
def checkHashes (f n : HashWithEncoding) : Res Unit :=
  if f.hash.algo ≠ n.hash.algo then do
    let _ ← algoString f.hash.algo
    let _ ← algoString n.hash.algo
    .err (.msg "FileHash/NarHash type differ")
  else if f.hash.digest ≠ n.hash.digest then .err (.msg "FileHash/NarHash differs")
  else .ok ()

/-- The deriver (check.go:29-34). -/
def checkDeriver (d : Bytes) : Res Unit :=
  if d = [] then .ok ()
  else match fromString d with
    | .ok _ => .ok ()
    | .err _ => .err (.msg "invalid Deriver")
    | .panic => .panic

/-- `Check` (check.go:16-57). -/
def NarInfo.check (n : NarInfo) : Res Unit :=
  match fromAbsolutePath n.storePath with
  | .err _ => .err (.msg "invalid StorePath")
  | .panic => .panic
  | .ok _ => do
    checkRefs n.references
    checkDeriver n.deriver
    if n.compression ≠ b!"none" then .ok ()
    else if n.fileSize > 0 ∧ n.fileSize ≠ n.narSize then .err (.msg "FileSize/NarSize differs")
    else match n.fileHash, n.narHash with
      | some f, some h => checkHashes f h
      | _, _ => .ok ()

end Verif.Narinfo
