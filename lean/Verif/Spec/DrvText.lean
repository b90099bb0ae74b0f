import Verif.Spec.DrvJson
import Verif.Spec.LsText

/-!
# Specification: what a JSON text says about a derivation

Keys are taken in any case (`KeyFor`), other keys are ignored. Of several values for a string field the last one counts,
except that null says nothing; maps given in several places are taken together, null drops what came before.
-/

namespace Verif.Spec
open Verif.GoLib Verif.GoJson Verif.Derivation Verif.NarLs

/-- The elements of an array. -/
def itemList : Jsons → List Json
  | .nil => []
  | .cons v l => v :: itemList l

/-- The members of all objects that are values of the field, in order; null drops those before it. -/
inductive MapOf (field : Bytes) : List (Bytes × Json) → List (Bytes × Json) → Prop
  | nil : MapOf field [] []
  | other {ms l k v} : MapOf field ms l → ¬ KeyFor field k → MapOf field (ms ++ [(k, v)]) l
  | null {ms l k} : MapOf field ms l → KeyFor field k → MapOf field (ms ++ [(k, .null)]) []
  | obj {ms l k m} : MapOf field ms l → KeyFor field k → MapOf field (ms ++ [(k, .obj m)]) (l ++ memberList m)

/-- The map has for every key of the members the value of the last one. -/
structure MapSays {α : Type} (V : Json → α → Prop) (l : List (Bytes × Json)) (m : GoMap α) : Prop where
  once : m.keys.Nodup
  entries : ∀ k a, (k, a) ∈ m ↔ ∃ before v after, l = before ++ (k, v) :: after ∧ (∀ v', (k, v') ∉ after) ∧ V v a

/-- The strings in an array: null stands for the string that was at this place of the list before, without one for "". -/
def ItemsSay (old : List Bytes) (js : List Json) (new : List Bytes) : Prop :=
  new.length = js.length ∧
  ∀ i v, js[i]? = some v → v = .str (new.getD i []) ∨ (v = .null ∧ new.getD i [] = old.getD i [])

/-- The list after all values of the field, and the strings that its memory still has behind it: those of longer lists
that were there before, since the last null or empty array. -/
inductive ListOf (field : Bytes) : List (Bytes × Json) → List Bytes → List Bytes → Prop
  | nil : ListOf field [] [] []
  | other {ms l r k v} : ListOf field ms l r → ¬ KeyFor field k → ListOf field (ms ++ [(k, v)]) l r
  | null {ms l r k} : ListOf field ms l r → KeyFor field k → ListOf field (ms ++ [(k, .null)]) [] []
  | empty {ms l r k} : ListOf field ms l r → KeyFor field k → ListOf field (ms ++ [(k, .arr .nil)]) [] []
  | arr {ms l r k js new} : ListOf field ms l r → KeyFor field k → js ≠ .nil → ItemsSay (l ++ r) (itemList js) new →
      ListOf field (ms ++ [(k, .arr js)]) new ((l ++ r).drop new.length)

/-- The value of an environment variable. -/
def EnvSays (v : Json) (a : Bytes) : Prop := v = .str a ∨ (v = .null ∧ a = [])

/-- The output names of an input derivation. -/
def NamesSay (v : Json) (a : List Bytes) : Prop := (v = .null ∧ a = []) ∨ ∃ js, v = .arr js ∧ ItemsSay [] (itemList js) a

/-- Null or a string. -/
def StrOrNull (v : Json) : Prop := v = .null ∨ ∃ a, v = .str a

/-- Null or an array of strings and nulls. -/
def StrsOrNull (v : Json) : Prop := v = .null ∨ ∃ js, v = .arr js ∧ ∀ x ∈ itemList js, StrOrNull x

/-- Null or an object whose members all have a value of the kind. -/
def MapOrNull {α : Type} (V : Json → α → Prop) (v : Json) : Prop := v = .null ∨ ∃ m, v = .obj m ∧ ∀ x ∈ memberList m, ∃ a, V x.2 a

/-- An output: null is a nil pointer. -/
def OutputSays (v : Json) (o : Option Output) : Prop :=
  (v = .null ∧ o = none) ∨
  ∃ m p a h, v = .obj m ∧ o = some ⟨p, a, h⟩ ∧
    (∀ x ∈ memberList m, KeyFor b!"path" x.1 ∨ KeyFor b!"hashAlgo" x.1 ∨ KeyFor b!"hash" x.1 → StrOrNull x.2) ∧
    FieldIs b!"path" IsStr [] (memberList m) p ∧ FieldIs b!"hashAlgo" IsStr [] (memberList m) a ∧
    FieldIs b!"hash" IsStr [] (memberList m) h

/-- A member whose value is of the kind that its key asks for. -/
structure KindOk (k : Bytes) (v : Json) : Prop where
  outputs : KeyFor b!"outputs" k → MapOrNull OutputSays v
  inputSources : KeyFor b!"inputSrcs" k → StrsOrNull v
  inputDerivations : KeyFor b!"inputDrvs" k → MapOrNull NamesSay v
  platform : KeyFor b!"system" k → StrOrNull v
  builder : KeyFor b!"builder" k → StrOrNull v
  arguments : KeyFor b!"args" k → StrsOrNull v
  env : KeyFor b!"env" k → MapOrNull EnvSays v

/-- What an object with these members says. -/
structure DrvFields (ms : List (Bytes × Json)) (r : RawDrv) : Prop where
  name : r.name = []
  outputs : ∃ l, MapOf b!"outputs" ms l ∧ MapSays OutputSays l r.outputs
  inputSources : ∃ rest, ListOf b!"inputSrcs" ms r.inputSources rest
  inputDerivations : ∃ l, MapOf b!"inputDrvs" ms l ∧ MapSays NamesSay l r.inputDerivations
  platform : FieldIs b!"system" IsStr [] ms r.platform
  builder : FieldIs b!"builder" IsStr [] ms r.builder
  arguments : ∃ rest, ListOf b!"args" ms r.arguments rest
  env : ∃ l, MapOf b!"env" ms l ∧ MapSays EnvSays l r.env

/-- The whole text is JSON, with white space around it, and says that there is this derivation. -/
def DrvSays (s : Bytes) (r : RawDrv) : Prop :=
  ∃ w t w' v, s = w ++ t ++ w' ∧ Ws w ∧ Ws w' ∧ JText false t v ∧ jdepth v ≤ 10000 ∧
    ((v = .null ∧ r = ⟨[], [], [], [], [], [], [], []⟩) ∨
      ∃ l, v = .obj l ∧ (∀ x ∈ memberList l, KindOk x.1 x.2) ∧ DrvFields (memberList l) r)

end Verif.Spec
