import Verif.Model.Derivation

/-!
# What the derivation theorems are about

The layout of a `.drv` file, independently of how `/repo` writes and reads it.
-/

namespace Verif.Derivation
open Verif.GoLib

/-- A quoted string. -/
def quoted (s : Bytes) : Bytes := b!"\"" ++ s ++ b!"\""

/-- A list in square brackets. -/
def bracketed (l : List Bytes) : Bytes := b!"[" ++ join l b!"," ++ b!"]"

/-- A tuple in parentheses. -/
def tuple (l : List Bytes) : Bytes := b!"(" ++ join l b!"," ++ b!")"

/-- What is written between the quotes in a `.drv` file. -/
structure DrvText where
  /-- name, path, hash algorithm, hash -/
  outputs : List (Bytes × Bytes × Bytes × Bytes)
  /-- path, names of the outputs used -/
  inputDrvs : List (Bytes × List Bytes)
  inputSrcs : List Bytes
  platform : Bytes
  builder : Bytes
  args : List Bytes
  /-- key, value -/
  env : List (Bytes × Bytes)
  deriving DecidableEq, Repr

/-- The contents of the file. -/
def DrvText.text (t : DrvText) : Bytes :=
  b!"Derive" ++ tuple [
    bracketed (t.outputs.map fun o => tuple [quoted o.1, quoted o.2.1, quoted o.2.2.1, quoted o.2.2.2]),
    bracketed (t.inputDrvs.map fun i => tuple [quoted i.1, bracketed (i.2.map quoted)]),
    bracketed (t.inputSrcs.map quoted),
    quoted t.platform,
    quoted t.builder,
    bracketed (t.args.map quoted),
    bracketed (t.env.map fun e => tuple [quoted e.1, quoted e.2])]

/-- A string that can stand between quotes: quotes and backslashes occur in escape sequences only. -/
inductive Closed : Bytes → Prop
  | nil : Closed []
  | plain (c : UInt8) (s : Bytes) : c ≠ 34 → c ≠ 92 → Closed s → Closed (c :: s)
  | esc (c : UInt8) (s : Bytes) : Closed s → Closed (92 :: c :: s)

/-- All strings of the file can stand between quotes. -/
structure DrvText.Closed (t : DrvText) : Prop where
  outputs : ∀ o ∈ t.outputs, Derivation.Closed o.1 ∧ Derivation.Closed o.2.1 ∧ Derivation.Closed o.2.2.1 ∧
    Derivation.Closed o.2.2.2
  inputDrvs : ∀ i ∈ t.inputDrvs, Derivation.Closed i.1 ∧ ∀ s ∈ i.2, Derivation.Closed s
  inputSrcs : ∀ s ∈ t.inputSrcs, Derivation.Closed s
  platform : Derivation.Closed t.platform
  builder : Derivation.Closed t.builder
  args : ∀ s ∈ t.args, Derivation.Closed s
  env : ∀ e ∈ t.env, Derivation.Closed e.1 ∧ Derivation.Closed e.2

/-- Names and keys are not empty and strictly increasing. -/
def Increasing (keys : List Bytes) : Prop := (([] : Bytes) :: keys).Pairwise (· < ·)

instance (keys : List Bytes) : Decidable (Increasing keys) := inferInstanceAs (Decidable (List.Pairwise _ _))

/-- The order that the format prescribes. -/
def DrvText.Ordered (t : DrvText) : Prop :=
  Increasing (t.outputs.map (·.1)) ∧ Increasing (t.inputDrvs.map (·.1)) ∧ Increasing (t.env.map (·.1))

/-- The escape sequences: character and its code after the backslash. -/
def escapes : List (UInt8 × UInt8) := [(92, 92), (10, 110), (13, 114), (9, 116), (34, 34)]

/-- A character of a string, as it is written. -/
def escapedChar (c : UInt8) : Bytes :=
  match escapes.find? (fun e => e.1 = c) with
  | some e => [92, e.2]
  | none => [c]

/-- A string with escape sequences for backslash, newline, carriage return, tab and quote. -/
def escaped (s : Bytes) : Bytes := s.flatMap escapedChar

/-- Two derivations that differ in the order in which Go visits their maps at most. -/
structure Same (d d' : Derivation) : Prop where
  name : d.name = d'.name
  outputs : d.outputs.Perm d'.outputs
  inputSources : d.inputSources = d'.inputSources
  inputDerivations : d.inputDerivations.Perm d'.inputDerivations
  platform : d.platform = d'.platform
  builder : d.builder = d'.builder
  arguments : d.arguments = d'.arguments
  env : d.env.Perm d'.env

/-- The maps are maps: no key twice. -/
structure Maps (d : Derivation) : Prop where
  outputs : d.outputs.keys.Nodup
  inputDerivations : d.inputDerivations.keys.Nodup
  env : d.env.keys.Nodup

/-- `t` has the contents of `d`, with the maps in strictly increasing order of their keys. -/
structure Prints (d : Derivation) (t : DrvText) : Prop where
  outputs : (t.outputs.map fun o => (o.1, (⟨o.2.1, o.2.2.1, o.2.2.2⟩ : Output))).Perm d.outputs
  outputs_order : (t.outputs.map (·.1)).Pairwise (· < ·)
  inputDrvs : t.inputDrvs.Perm d.inputDerivations
  inputDrvs_order : (t.inputDrvs.map (·.1)).Pairwise (· < ·)
  inputSrcs : t.inputSrcs = d.inputSources
  platform : t.platform = escaped d.platform
  builder : t.builder = escaped d.builder
  args : t.args = d.arguments
  env : t.env.Perm (d.env.map fun e => (e.1, escaped e.2))
  env_order : (t.env.map (·.1)).Pairwise (· < ·)

/-- The strings that `WriteDerivation` writes as they are need no escape sequences for their meaning
(they would not be undone by `ReadDerivation`), and those that only `WriteDerivation` treats have none
at all. -/
structure RawClosed (d : Derivation) : Prop where
  outputs : ∀ o ∈ d.outputs, Closed o.1 ∧ Closed o.2.path ∧ Closed o.2.hashAlgorithm ∧ Closed o.2.hash
  inputDrvs : ∀ i ∈ d.inputDerivations, Closed i.1 ∧ ∀ s ∈ i.2, Closed s
  inputSrcs : ∀ s ∈ d.inputSources, Closed s
  platform : ∀ e ∈ escapes, e.1 ∉ d.platform
  builder : ∀ e ∈ escapes, e.1 ∉ d.builder
  args : ∀ s ∈ d.arguments, Closed s
  env : ∀ e ∈ d.env, Closed e.1

/-- The strings that `WriteDerivation` writes as they are can stand between quotes. Platform, builder and the values of the
environment, which it escapes, are arbitrary. -/
structure Quotable (d : Derivation) : Prop where
  outputs : ∀ o ∈ d.outputs, Closed o.1 ∧ Closed o.2.path ∧ Closed o.2.hashAlgorithm ∧ Closed o.2.hash
  inputDrvs : ∀ i ∈ d.inputDerivations, Closed i.1 ∧ ∀ s ∈ i.2, Closed s
  inputSrcs : ∀ s ∈ d.inputSources, Closed s
  args : ∀ s ∈ d.arguments, Closed s
  env : ∀ e ∈ d.env, Closed e.1

theorem RawClosed.quotable {d : Derivation} (h : RawClosed d) : Quotable d := ⟨h.outputs, h.inputDrvs, h.inputSrcs, h.args, h.env⟩

end Verif.Derivation

namespace Verif.Derivation
open Verif.GoLib

/-- The rules for a derivation apart from its name. -/
structure WellFormed (d : Derivation) : Prop where
  /-- there is an output -/
  has_output : d.outputs ≠ []
  /-- a fixed output is the only one and called `out`; other outputs have store paths -/
  outputs : ∀ o ∈ d.outputs, o.1 ≠ [] ∧
    (o.2.hashAlgorithm ≠ [] → d.outputs.length = 1 ∧ o.1 = b!"out") ∧
    (o.2.hashAlgorithm = [] → Storepath.validate o.2.path = .ok ())
  /-- input derivations are store paths with a sorted, non-empty list of non-empty output names -/
  inputDerivations : ∀ i ∈ d.inputDerivations, Storepath.validate i.1 = .ok () ∧ i.2 ≠ [] ∧
    i.2.Pairwise (· ≤ ·) ∧ ∀ o ∈ i.2, o ≠ []
  /-- input sources are store paths, sorted -/
  inputSources : (∀ s ∈ d.inputSources, Storepath.validate s = .ok ()) ∧ d.inputSources.Pairwise (· ≤ ·)
  platform : d.platform ≠ []
  builder : d.builder ≠ []
  env : ∀ e ∈ d.env, e.1 ≠ []

end Verif.Derivation
