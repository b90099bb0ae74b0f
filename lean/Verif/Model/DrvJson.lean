import Verif.Model.Show

/-!
# Model of `json.Unmarshal` into a `Derivation`

No function of `/repo` does this, but the fields of `Derivation` and `Output` have JSON tags (derivation.go:23-39,
output.go:8-10), so that users can read what `gonix drv show` prints. What `encoding/json` does with these types is
written down here (decode.go of the standard library: `array`, `object`, `literalStore`). Nil and empty slices or maps
are not distinguished. After an error of a type Go goes on and returns the first such error at the end.
-/

namespace Verif.Derivation
open Verif.GoLib Verif.GoJson

/-- `Derivation` (derivation.go:16-40), where the pointers to the outputs may be nil (`none`). -/
structure RawDrv where
  name : Bytes
  outputs : GoMap (Option Output)
  inputSources : List Bytes
  inputDerivations : GoMap (List Bytes)
  platform : Bytes
  builder : Bytes
  arguments : List Bytes
  env : GoMap Bytes
  deriving DecidableEq, Repr

/-- A derivation without nil pointers (derivation.go:16-40). -/
def Derivation.raw (d : Derivation) : RawDrv :=
  ⟨d.name, d.outputs.map fun o => (o.1, some o.2), d.inputSources, d.inputDerivations, d.platform, d.builder, d.arguments, d.env⟩

/-- A slice of strings (derivation.go:26, 36): its elements, and those of its array behind them. -/
structure Strs where
  elems : List Bytes
  spare : List Bytes
  deriving DecidableEq, Repr

/-- A value decoded into a `string` that holds `old` (output.go:8-10): `null` changes nothing. -/
def stringValue (old : Bytes) : Json → Res Bytes
  | .null => .ok old
  | .str s => .ok s
  | _ => .err (.msg "json: cannot unmarshal into Go value of type string")

/-- The elements of an array decoded into a `[]string` (derivation.go:26, 36), over the old elements of its array `old`;
behind them there are empty strings. The result is the new elements, and those of the array that remain. -/
def stringItems (old : List Bytes) : Jsons → Res (List Bytes × List Bytes)
  | .nil => .ok ([], old)
  | .cons v l => do
    let s ← stringValue (old.headD []) v
    let (ss, r) ← stringItems old.tail l
    .ok (s :: ss, r)

/-- A value decoded into a `[]string` (derivation.go:26, 36): `null` makes it nil, an empty array a new slice. -/
def stringsValue (old : Strs) : Json → Res Strs
  | .null => .ok ⟨[], []⟩
  | .arr .nil => .ok ⟨[], []⟩
  | .arr l => do
    let (ss, r) ← stringItems (old.elems ++ old.spare) l
    .ok ⟨ss, r⟩
  | _ => .err (.msg "json: cannot unmarshal into Go value of type []string")

/-- The members of an object decoded into a map (derivation.go:23, 30, 39): every value into a new zero value. -/
def mapMembers {α : Type} (dec : Json → Res α) (old : GoMap α) : Members → Res (GoMap α)
  | .nil => .ok old
  | .cons k v l => do
    let a ← dec v
    mapMembers dec (old.insert k a) l

/-- A value decoded into a map (derivation.go:23, 30, 39): `null` makes it nil, objects add to it. -/
def mapValue {α : Type} (dec : Json → Res α) (old : GoMap α) : Json → Res (GoMap α)
  | .null => .ok []
  | .obj l => mapMembers dec old l
  | _ => .err (.msg "json: cannot unmarshal into Go value of type map")

/-- The members of an object decoded into an `Output` (output.go:7-11). -/
def outputMembers (o : Output) : Members → Res Output
  | .nil => .ok o
  | .cons k v l =>
    if sameField b!"path" k then do
      let s ← stringValue o.path v
      outputMembers { o with path := s } l
    else if sameField b!"hashAlgo" k then do
      let s ← stringValue o.hashAlgorithm v
      outputMembers { o with hashAlgorithm := s } l
    else if sameField b!"hash" k then do
      let s ← stringValue o.hash v
      outputMembers { o with hash := s } l
    else outputMembers o l

/-- A value decoded into a nil `*Output` (derivation.go:23): `null` leaves it nil. -/
def outputValue : Json → Res (Option Output)
  | .null => .ok none
  | .obj l => do
    let o ← outputMembers ⟨[], [], []⟩ l
    .ok (some o)
  | _ => .err (.msg "json: cannot unmarshal into Go value of type derivation.Output")

/-- A value decoded into a nil `[]string` (derivation.go:30). -/
def namesValue (v : Json) : Res (List Bytes) := do
  let s ← stringsValue ⟨[], []⟩ v
  .ok s.elems

/-- The members of an object decoded into a `Derivation` (derivation.go:16-40) that holds `r`; `srcs` and `args` are the
arrays behind its two slices. The name is not exported: no key is taken for it. -/
def drvMembers (r : RawDrv) (srcs args : List Bytes) : Members → Res RawDrv
  | .nil => .ok r
  | .cons k v l =>
    if sameField b!"outputs" k then do
      let m ← mapValue outputValue r.outputs v
      drvMembers { r with outputs := m } srcs args l
    else if sameField b!"inputSrcs" k then do
      let s ← stringsValue ⟨r.inputSources, srcs⟩ v
      drvMembers { r with inputSources := s.elems } s.spare args l
    else if sameField b!"inputDrvs" k then do
      let m ← mapValue namesValue r.inputDerivations v
      drvMembers { r with inputDerivations := m } srcs args l
    else if sameField b!"system" k then do
      let s ← stringValue r.platform v
      drvMembers { r with platform := s } srcs args l
    else if sameField b!"builder" k then do
      let s ← stringValue r.builder v
      drvMembers { r with builder := s } srcs args l
    else if sameField b!"args" k then do
      let s ← stringsValue ⟨r.arguments, args⟩ v
      drvMembers { r with arguments := s.elems } srcs s.spare l
    else if sameField b!"env" k then do
      let m ← mapValue (stringValue []) r.env v
      drvMembers { r with env := m } srcs args l
    else drvMembers r srcs args l

/-- `var d Derivation` (derivation.go:16-40). -/
def zeroDrv : RawDrv := ⟨[], [], [], [], [], [], [], []⟩

/-- `json.Unmarshal(s, &d)` for a new `Derivation` (derivation.go:16-40). -/
def unmarshalDrv (s : Bytes) : Res RawDrv :=
  match unmarshal s with
  | none => .err (.msg "invalid character")
  | some .null => .ok zeroDrv
  | some (.obj l) => drvMembers zeroDrv [] [] l
  | some _ => .err (.msg "json: cannot unmarshal into Go value of type derivation.Derivation")

/-- The loop over the outputs in `Validate` (derivation.go:49-76), where `output.HashAlgorithm` of a nil output panics. -/
def validateRawOutputs (n : Nat) : GoMap (Option Output) → Res Unit
  | [] => .ok ()
  | (outputName, output) :: rest =>
    if outputName = [] then .err (.msg "empty output name")
    else match output with
      | none => .panic
      | some output =>
        if output.hashAlgorithm ≠ [] then
          if n ≠ 1 then .err (.msg "encountered fixed-output, but there's more than 1 output in total")
          else if outputName ≠ b!"out" then .err (.msg "the fixed-output output name must be called 'out'")
          else .ok ()
        else match Storepath.validate output.path with
          | .err _ => .err (.msg "error validating output")
          | .panic => .panic
          | .ok () => validateRawOutputs n rest

/-- `Validate` (derivation.go:42-142) of a derivation that may have nil outputs. -/
def RawDrv.validate (r : RawDrv) : Res Unit :=
  if r.outputs = [] then .err (.msg "at least one output must be defined")
  else do
    validateRawOutputs r.outputs.length r.outputs
    validateInputDerivations r.inputDerivations
    validateInputSources none r.inputSources
    if r.platform = [] then .err (.msg "required attribute 'platform' missing")
    else if r.builder = [] then .err (.msg "required attribute 'builder' missing")
    else do
      let hasNameEnv ← validateEnv r.name false r.env.keys
      if !hasNameEnv then .err (.msg "env 'name' not found") else .ok ()

end Verif.Derivation
