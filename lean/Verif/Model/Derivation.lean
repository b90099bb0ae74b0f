import Verif.GoMap
import Verif.Model.Nixhash
import Verif.Model.Storepath
import Verif.Model.Wire

/-!
# Model of `pkg/derivation`

`sha256` is a parameter; so is the part of `encoding/json` that the parser uses (the field `Name` of
the object in the environment variable `__json`). A `range` over a map visits the list modelling the
map in its order; theorems quantify over the order. Nil and empty slices or maps are not
distinguished, and the `*Output` values of the map are not nil.
-/

namespace Verif.Derivation
open Verif.GoLib Verif.Nixhash Verif.Storepath Verif.Wire

/-- `Output` (output.go:7-11). -/
structure Output where
  path : Bytes
  hashAlgorithm : Bytes
  hash : Bytes
  deriving DecidableEq, Repr

/-- `Derivation` (derivation.go:16-40). -/
structure Derivation where
  name : Bytes
  outputs : GoMap Output
  inputSources : List Bytes
  inputDerivations : GoMap (List Bytes)
  platform : Bytes
  builder : Bytes
  arguments : List Bytes
  env : GoMap Bytes
  deriving DecidableEq, Repr

/-! ## derivation.go -/

/-- The loop over the outputs in `Validate` (derivation.go:49-76); `n` is the number of outputs. -/
def validateOutputs (n : Nat) : GoMap Output → Res Unit
  | [] => .ok ()
  | (outputName, output) :: rest =>
    if outputName = [] then .err (.msg "empty output name")
    else if output.hashAlgorithm ≠ [] then
      if n ≠ 1 then .err (.msg "encountered fixed-output, but there's more than 1 output in total")
      else if outputName ≠ b!"out" then .err (.msg "the fixed-output output name must be called 'out'")
      else .ok ()
    else match Storepath.validate output.path with
      | .err _ => .err (.msg "error validating output")
      | .panic => .panic
      | .ok () => validateOutputs n rest

/-- The loop over the names of the used outputs (derivation.go:89-97); `prev` is the one before. -/
def validateOutputNames (prev : Option Bytes) : List Bytes → Res Unit
  | [] => .ok ()
  | o :: rest =>
    if prev.any (strLt o) then .err (.msg "invalid input derivation output order")
    else if o = [] then .err (.msg "Output name entry empty")
    else validateOutputNames (some o) rest

/-- The loop over the input derivations (derivation.go:78-98). -/
def validateInputDerivations : GoMap (List Bytes) → Res Unit
  | [] => .ok ()
  | (path, outputNames) :: rest => do
    Storepath.validate path
    if outputNames = [] then .err (.msg "output names list empty")
    else do
      validateOutputNames none outputNames
      validateInputDerivations rest

/-- The loop over the input sources (derivation.go:100-109). -/
def validateInputSources (prev : Option Bytes) : List Bytes → Res Unit
  | [] => .ok ()
  | is :: rest =>
    match Storepath.validate is with
    | .err _ => .err (.msg "error validating input source")
    | .panic => .panic
    | .ok () =>
      if prev.any (strLt is) then .err (.msg "invalid input source order")
      else validateInputSources (some is) rest

/-- The loop over the environment (derivation.go:122-135). -/
def validateEnv (name : Bytes) (hasNameEnv : Bool) : List Bytes → Res Bool
  | [] => .ok hasNameEnv
  | k :: rest =>
    if k = [] then .err (.msg "empty environment variable key")
    else
      let h1 := if k = b!"name" then true else hasNameEnv
      let h2 := if k = b!"__json" then decide (name ≠ []) else h1
      validateEnv name h2 rest

/-- `Validate` (derivation.go:42-142). -/
def Derivation.validate (d : Derivation) : Res Unit :=
  if d.outputs = [] then .err (.msg "at least one output must be defined")
  else do
    validateOutputs d.outputs.length d.outputs
    validateInputDerivations d.inputDerivations
    validateInputSources none d.inputSources
    if d.platform = [] then .err (.msg "required attribute 'platform' missing")
    else if d.builder = [] then .err (.msg "required attribute 'builder' missing")
    else do
      let hasNameEnv ← validateEnv d.name false d.env.keys
      if !hasNameEnv then .err (.msg "env 'name' not found") else .ok ()

/-- `Name` (derivation.go:144-155). -/
def Derivation.getName (d : Derivation) : Bytes :=
  if (d.env.get? b!"__json").isSome then d.name
  else (d.env.get? b!"name").getD []

/-! ## encode.go -/

/-- `stringEscaper` (encode.go:11-17): each of the five bytes is replaced. -/
def escapeByte (c : UInt8) : Bytes :=
  if c = 92 then [92, 92]
  else if c = 10 then [92, 110]
  else if c = 13 then [92, 114]
  else if c = 9 then [92, 116]
  else if c = 34 then [92, 34]
  else [c]

/-- `escapeString`, `escapeStringB` (encode.go:30-39). -/
def escapeString (s : Bytes) : Bytes := b!"\"" ++ s.flatMap escapeByte ++ b!"\""

/-- The loop of `writeArrayElems` (encode.go:49-71); the result is the list of the arguments of the
calls of `writer.Write`. -/
def elemWrites (quote : Bool) (first : Bool) : List Bytes → List Bytes
  | [] => []
  | elem :: rest =>
    (if first then [] else [b!","]) ++ (if quote then [b!"\""] else []) ++ [elem] ++
      (if quote then [b!"\""] else []) ++ elemWrites quote false rest

/-- `writeArrayElems` (encode.go:42-78), as the list of the arguments of `writer.Write`. -/
def writeArrayElems (quote : Bool) (opening closing : Bytes) (elems : List Bytes) : List Bytes :=
  [opening] ++ elemWrites quote true elems ++ [closing]

/-- The loop over the outputs (encode.go:183-210). -/
def outputWrites (d : Derivation) (stripOutputs first : Bool) : List Bytes → List Bytes
  | [] => []
  | outputName :: rest =>
    let o := (d.outputs.get? outputName).getD ⟨[], [], []⟩
    let encPath := if stripOutputs then [] else o.path
    (if first then [] else [b!","]) ++
      writeArrayElems true b!"(" b!")" [outputName, encPath, o.hashAlgorithm, o.hash] ++
      outputWrites d stripOutputs false rest

/-- The loop over the input derivations (encode.go:228-268). -/
def inputDrvWrites (m : GoMap (List Bytes)) (first : Bool) : List Bytes → List Bytes
  | [] => []
  | path :: rest =>
    (if first then [] else [b!","]) ++ [b!"(", b!"\"", path, b!"\"", b!","] ++
      writeArrayElems true b!"[" b!"]" ((m.get? path).getD []) ++ [b!")"] ++
      inputDrvWrites m false rest

/-- The loop over the environment (encode.go:330-349). -/
def envWrites (d : Derivation) (stripOutputs first : Bool) : List Bytes → List Bytes
  | [] => []
  | key :: rest =>
    let value := if stripOutputs ∧ (d.outputs.get? key).isSome then [] else (d.env.get? key).getD []
    (if first then [] else [b!","]) ++
      writeArrayElems false b!"(" b!")" [b!"\"" ++ key ++ b!"\"", escapeString value] ++
      envWrites d stripOutputs false rest

/-- The replacement of the keys of the input derivations (encode.go:124-136). -/
def replaceInputs (repl : GoMap Bytes) (acc : GoMap (List Bytes)) :
    GoMap (List Bytes) → Res (GoMap (List Bytes))
  | [] => .ok acc
  | (drvPath, outputNames) :: rest =>
    match repl.get? drvPath with
    | none => .err (.msg "unable to find replacement")
    | some replacement => replaceInputs repl (acc.insert replacement outputNames) rest

/-- The map of input derivations that is written (encode.go:118-137). -/
def writtenInputs (d : Derivation) (repl : GoMap Bytes) : Res (GoMap (List Bytes)) :=
  if repl.length = 0 then .ok d.inputDerivations else replaceInputs repl [] d.inputDerivations

/-- `writeDerivation` (encode.go:99-362), as the list of the arguments of `writer.Write`. -/
def writeDerivation (d : Derivation) (stripOutputs : Bool) (repl : GoMap Bytes) : Res (List Bytes) := do
  let inputDerivations ← writtenInputs d repl
  .ok ([b!"Derive", b!"("] ++
    [b!"["] ++ outputWrites d stripOutputs true (sortStrings d.outputs.keys) ++ [b!"]"] ++
    [b!",", b!"["] ++ inputDrvWrites inputDerivations true (sortStrings inputDerivations.keys) ++ [b!"]"] ++
    [b!","] ++ writeArrayElems true b!"[" b!"]" d.inputSources ++
    [b!",", escapeString d.platform] ++
    [b!",", escapeString d.builder] ++
    [b!","] ++ writeArrayElems true b!"[" b!"]" d.arguments ++
    [b!",", b!"["] ++ envWrites d stripOutputs true (sortStrings d.env.keys) ++ [b!"]"] ++
    [b!")"])

/-- The calls of `writer.Write`, each followed by `if err != nil { return err }`. -/
def writeChunks : List Bytes → M Sink Unit
  | [] => pure ()
  | c :: cs => do
    writeAll c
    writeChunks cs

/-- `WriteDerivation` (encode.go:81-83). -/
def Derivation.write (d : Derivation) : M Sink Unit := fun w =>
  match writeDerivation d false [] with
  | .ok cs => writeChunks cs w
  | .err e => (.err e, w)
  | .panic => (.panic, w)

/-- The ATerm text: what `WriteDerivation` writes to a `bytes.Buffer` or a hash. -/
def aterm (d : Derivation) (stripOutputs : Bool) (repl : GoMap Bytes) : Res Bytes := do
  let cs ← writeDerivation d stripOutputs repl
  .ok cs.flatten

/-! ## parser.go -/

/-- `stringUnescaper` (parser.go:17-23): from left to right, without overlap. -/
def unescape : Bytes → Bytes
  | [] => []
  | [c] => [c]
  | c :: e :: rest =>
    if c = 92 ∧ e = 92 then 92 :: unescape rest
    else if c = 92 ∧ e = 110 then 10 :: unescape rest
    else if c = 92 ∧ e = 114 then 13 :: unescape rest
    else if c = 92 ∧ e = 116 then 9 :: unescape rest
    else if c = 92 ∧ e = 34 then 34 :: unescape rest
    else c :: unescape (e :: rest)

/-- `unquoteSlice` (parser.go:379-391). -/
def unquoteSlice (b : Bytes) : Res Bytes :=
  if b.length < 2 then .err (.msg "invalid quoted string length")
  else if b.head? ≠ some 34 ∨ b.getLast? ≠ some 34 then .err (.msg "string not quoted")
  else .ok ((b.drop 1).dropLast)

/-- `unquote` (parser.go:363-375). -/
def unquote (b : Bytes) : Res Bytes := do
  let s ← unquoteSlice b
  if !b.contains 92 then .ok s else .ok (unescape s)

/-- The change of the nesting depth (parser.go:339-356). -/
def depthAfter (count : Int) (c : UInt8) : Int :=
  if c = 91 then count + 1
  else if c = 93 then count - 1
  else if c = 40 then count + 1
  else if c = 41 then count - 1
  else count

/-- The loop of `arrayEach` (parser.go:302-357), as the list of the slices passed to the callback;
`cur` is `value[start:i]`. -/
def itemLoop (count : Int) (escaped inString : Bool) (cur : Bytes) : Bytes → List Bytes
  | [] => []
  | c :: cs =>
    if escaped then itemLoop count false inString (cur ++ [c]) cs
    else if c = 92 then itemLoop count true inString (cur ++ [c]) cs
    else if c = 34 then itemLoop count false (!inString) (cur ++ [c]) cs
    else if inString then itemLoop count false inString (cur ++ [c]) cs
    else if (count = 1 ∧ c = 44) ∨ cs = [] then cur :: itemLoop (depthAfter count c) false false [] cs
    else itemLoop (depthAfter count c) false false (cur ++ [c]) cs

/-- The slices that `arrayEach` passes to its callback (parser.go:280-360). The loop itself does not
fail, so that the slices can be computed before the callbacks run. The first iteration of the loop
only increments the depth: the first byte is an opening one and not the last. -/
def arrayItems (value : Bytes) : Res (List Bytes) :=
  if value.length < 2 then .err (.msg "array too short")
  else if value.length = 2 then .ok []
  else if value.head? = some 40 then
    if value.getLast? ≠ some 41 then .err (.msg "array not closed")
    else .ok (itemLoop 1 false false [] (value.drop 1))
  else if value.head? = some 91 then
    if value.getLast? ≠ some 93 then .err (.msg "array not closed")
    else .ok (itemLoop 1 false false [] (value.drop 1))
  else .err (.msg "invalid array opening character")

/-- The callbacks of `arrayEach` in order, on a state; the first error ends it. -/
def callEach {σ : Type} (f : σ → Bytes → Nat → Res σ) (s : σ) (idx : Nat) : List Bytes → Res σ
  | [] => .ok s
  | v :: vs => do
    let s' ← f s v idx
    callEach f s' (idx + 1) vs

/-- `arrayEach` (parser.go:280-360). -/
def arrayEach {σ : Type} (value : Bytes) (s : σ) (f : σ → Bytes → Nat → Res σ) : Res σ := do
  let items ← arrayItems value
  callEach f s 0 items

/-- A list of quoted strings (parser.go:149-158, 180-189, 198-207). -/
def stringList (value : Bytes) : Res (List Bytes) :=
  arrayEach value ([] : List Bytes) fun acc v _ => do
    let u ← unquoteSlice v
    .ok (acc ++ [u])

/-- A field of an output (parser.go:78-111). -/
def outputField (prev : Bytes) (s : Bytes × Output) (v : Bytes) (index : Nat) : Res (Bytes × Output) := do
  if index = 0 then do
    let n ← unquoteSlice v
    if strLe n prev then .err (.msg "invalid output order") else .ok (n, s.2)
  else if index = 1 then do
    let x ← unquoteSlice v
    .ok (s.1, { s.2 with path := x })
  else if index = 2 then do
    let x ← unquoteSlice v
    .ok (s.1, { s.2 with hashAlgorithm := x })
  else if index = 3 then do
    let x ← unquoteSlice v
    .ok (s.1, { s.2 with hash := x })
  else .err (.msg "unhandled output index")

/-- An output (parser.go:73-124); the state is the map and the previous name. -/
def outputItem (s : GoMap Output × Bytes) (v : Bytes) (_ : Nat) : Res (GoMap Output × Bytes) := do
  let o ← arrayEach v ([], ⟨[], [], []⟩) (outputField s.2)
  if o.1 = [] then .err (.msg "output name may not be empty")
  else .ok (s.1.insert o.1 o.2, o.1)

/-- A field of an input derivation (parser.go:134-168). -/
def inputDrvField (prev : Bytes) (s : Bytes × List Bytes) (v : Bytes) (index : Nat) : Res (Bytes × List Bytes) :=
  if index = 0 then do
    let n ← unquoteSlice v
    if strLe n prev then .err (.msg "invalid input derivation order") else .ok (n, s.2)
  else if index = 1 then do
    let l ← stringList v
    .ok (s.1, s.2 ++ l)
  else .err (.msg "unhandled input derivation index")

/-- An input derivation (parser.go:130-177). -/
def inputDrvItem (s : GoMap (List Bytes) × Bytes) (v : Bytes) (_ : Nat) : Res (GoMap (List Bytes) × Bytes) := do
  let i ← arrayEach v ([], []) (inputDrvField s.2)
  .ok (s.1.insert i.1 i.2, i.1)

/-- A field of an environment variable (parser.go:217-240). -/
def envField (prev : Bytes) (s : Bytes × Bytes) (v : Bytes) (index : Nat) : Res (Bytes × Bytes) :=
  if index = 0 then do
    let k ← unquoteSlice v
    if strLe k prev then .err (.msg "invalid env var order") else .ok (k, s.2)
  else if index = 1 then do
    let x ← unquote v
    .ok (s.1, x)
  else .err (.msg "unhandled env var index")

/-- An environment variable (parser.go:212-249). -/
def envItem (s : GoMap Bytes × Bytes) (v : Bytes) (_ : Nat) : Res (GoMap Bytes × Bytes) := do
  let e ← arrayEach v ([], []) (envField s.2)
  .ok (s.1.insert e.1 e.2, e.1)

/-- A field of the derivation (parser.go:63-256). -/
def drvField (d : Derivation) (v : Bytes) (index : Nat) : Res Derivation :=
  if index = 0 then do
    let m ← arrayEach v ([], []) outputItem
    .ok { d with outputs := m.1 }
  else if index = 1 then do
    let m ← arrayEach v ([], []) inputDrvItem
    .ok { d with inputDerivations := m.1 }
  else if index = 2 then do
    let l ← stringList v
    .ok { d with inputSources := d.inputSources ++ l }
  else if index = 3 then do
    let x ← unquoteSlice v
    .ok { d with platform := x }
  else if index = 4 then do
    let x ← unquoteSlice v
    .ok { d with builder := x }
  else if index = 5 then do
    let l ← stringList v
    .ok { d with arguments := d.arguments ++ l }
  else if index = 6 then do
    let m ← arrayEach v ([], []) envItem
    .ok { d with env := m.1 }
  else .err (.msg "unhandled derivation index")

/-- `&Derivation{}` (parser.go:57-61). -/
def emptyDrv : Derivation := ⟨[], [], [], [], [], [], [], []⟩

/-- `attrs.Name` after `json.Unmarshal` into `&attrs` (parser.go:264-273): `attrs` is itself a pointer, which
the JSON value `null` sets to nil, and then reading the field panics. -/
def attrsName : Res (Option Bytes) → Res Bytes
  | .ok (some n) => .ok n
  | .ok none => .panic
  | .err e => .err e
  | .panic => .panic

/-- `parseDerivation` (parser.go:48-277); `jsonName` is the outcome of `json.Unmarshal` of the value
of `__json` into a pointer to a struct with the field `Name`: an error, the pointer set to nil, or the field. -/
def parseDerivation (jsonName : Bytes → Res (Option Bytes)) (b : Bytes) : Res Derivation :=
  if b.length < 8 then .err (.msg "input too short to be a valid derivation")
  else if b.take 6 ≠ b!"Derive" then .err (.msg "missing derivation prefix")
  else do
    let d ← arrayEach (b.drop 6) emptyDrv drvField
    match d.env.get? b!"__json" with
    | none => .ok d
    | some j => do
      let n ← attrsName (jsonName j)
      .ok { d with name := n }

/-- `ReadDerivation` (parser.go:27-39); the derivation returned next to an error of `Validate` is not
modelled. -/
def readDerivation (jsonName : Bytes → Res (Option Bytes)) (s : Stream) : Res Derivation :=
  if s.term ≠ .eof then .err s.term
  else do
    let d ← parseDerivation jsonName s.data
    d.validate
    .ok d

/-! ## hashes.go -/

/-- `getMaskedATermHash` (hashes.go:28-37). -/
def maskedATermHash (sha256 : Bytes → Bytes) (d : Derivation) (repl : GoMap Bytes) : Res Bytes :=
  match aterm d true repl with
  | .err _ => .err (.msg "error writing masked ATerm")
  | .panic => .panic
  | .ok t => .ok (hexEncode (sha256 t))

/-- `hashStrings` (hashes.go:39-48). -/
def hashStrings (sha256 : Bytes → Bytes) (strings : List Bytes) : Bytes := sha256 (join strings b!":")

/-- The store hash of an output (hashes.go:73-117). -/
def storeHash (sha256 : Bytes → Bytes) (d : Derivation) (repl : GoMap Bytes) (derivationName outputName : Bytes)
    (o : Output) (outputPathName : Bytes) : Res Bytes :=
  if o.hashAlgorithm ≠ [] then
    if o.hashAlgorithm = b!"r:sha256" then
      .ok (hashStrings sha256 [b!"source", b!"sha256", o.hash, storeDir, derivationName])
    else
      .ok (hashStrings sha256 [b!"output", b!"out", b!"sha256",
        hexEncode (hashStrings sha256 [b!"fixed", b!"out", o.hashAlgorithm, o.hash, []]), storeDir, derivationName])
  else match maskedATermHash sha256 d repl with
    | .err _ => .err (.msg "failed to calculate masked ATerm hash")
    | .panic => .panic
    | .ok h => .ok (hashStrings sha256 [b!"output", outputName, b!"sha256", h, storeDir, outputPathName])

/-- The part of an output path that comes after the hash (hashes.go:65-71). -/
def outputPathName (derivationName outputName : Bytes) : Bytes :=
  if outputName = b!"out" then derivationName else derivationName ++ b!"-" ++ outputName

/-- The path of one output (hashes.go:65-124). -/
def outputPath (sha256 : Bytes → Bytes) (d : Derivation) (repl : GoMap Bytes) (derivationName outputName : Bytes)
    (o : Output) : Res Bytes := do
  let h ← storeHash sha256 d repl derivationName outputName o (outputPathName derivationName outputName)
  let digest ← compressHash h 20
  .ok (StorePath.absolute ⟨outputPathName derivationName outputName, digest⟩)

/-- The loop of `CalculateOutputPaths` (hashes.go:64-127). -/
def outputPathsLoop (sha256 : Bytes → Bytes) (d : Derivation) (repl : GoMap Bytes) (derivationName : Bytes)
    (acc : GoMap Bytes) : GoMap Output → Res (GoMap Bytes)
  | [] => .ok acc
  | (outputName, o) :: rest => do
    let p ← outputPath sha256 d repl derivationName outputName o
    outputPathsLoop sha256 d repl derivationName (acc.insert outputName p) rest

/-- `CalculateOutputPaths` (hashes.go:52-130). -/
def calculateOutputPaths (sha256 : Bytes → Bytes) (d : Derivation) (repl : GoMap Bytes) : Res (GoMap Bytes) :=
  if d.getName = [] then .panic
  else outputPathsLoop sha256 d repl d.getName [] d.outputs

/-- The fixed output of a fixed-output derivation (hashes.go:145-147). -/
def fixedOutput (d : Derivation) : Option Output :=
  if d.outputs.length = 1 then
    match d.outputs.get? b!"out" with
    | some o => if o.hashAlgorithm ≠ [] then some o else none
    | none => none
  else none

/-- `CalculateDrvReplacement` (hashes.go:143-167). -/
def calculateDrvReplacement (sha256 : Bytes → Bytes) (d : Derivation) (repl : GoMap Bytes) : Res Bytes :=
  match fixedOutput d with
  | some o => .ok (hexEncode (hashStrings sha256 [b!"fixed", b!"out", o.hashAlgorithm, o.hash, o.path]))
  | none =>
    match aterm d false repl with
    | .err _ => .err (.msg "error hashing ATerm")
    | .panic => .panic
    | .ok t => .ok (hexEncode (sha256 t))

/-! ## drv_path.go -/

/-- The text that is hashed for the path (drv_path.go:49-93). -/
def drvPathText (sha256 : Bytes → Bytes) (d : Derivation) (t : Bytes) : Bytes :=
  b!"text:" ++ ((sortStrings (d.inputDerivations.keys ++ d.inputSources)).flatMap fun r => r ++ b!":") ++
    b!"sha256:" ++ hexEncode (sha256 t) ++ b!":" ++ storeDir ++ b!":" ++ d.getName ++ b!".drv"

/-- `DrvPath` (drv_path.go:35-103). -/
def drvPath (sha256 : Bytes → Bytes) (d : Derivation) : Res Bytes := do
  let t ← aterm d false []
  if d.getName = [] then .panic
  else do
    let digest ← compressHash (sha256 (drvPathText sha256 d t)) 20
    .ok (StorePath.absolute ⟨d.getName ++ b!".drv", digest⟩)

end Verif.Derivation
