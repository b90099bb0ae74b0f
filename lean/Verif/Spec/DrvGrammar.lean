import Verif.Spec.Derivation

/-!
# Specification: the language that `ReadDerivation` accepts

`Spec/Derivation.lean` has the layout of a `.drv` file as it should be (`DrvText.text`). This file describes the larger language that the parser of `/repo`
accepts, as a grammar. Everything beyond `DrvText.text` in it is a laxity of the parser; the comments name them.
-/

namespace Verif.Derivation
open Verif.GoLib

/-- A piece of text without a comma that separates items. `n` and `m` are the numbers of brackets that are open before and after it
(the two kinds are not distinguished, and there may be more closing than opening ones); a comma separates items where this number is 1.
Brackets and commas in a quoted string, and any character after a backslash, do not count. -/
inductive Piece : Int → Int → Bytes → Prop
  | nil (n : Int) : Piece n n []
  | str {n m : Int} {s x : Bytes} : Closed s → Piece n m x → Piece n m (quoted s ++ x)
  | esc {n m : Int} {x : Bytes} (c : UInt8) : Piece n m x → Piece n m (92 :: c :: x)
  | opening {n m : Int} {x : Bytes} (c : UInt8) : c = 91 ∨ c = 40 → Piece (n + 1) m x → Piece n m (c :: x)
  | closing {n m : Int} {x : Bytes} (c : UInt8) : c = 93 ∨ c = 41 → Piece (n - 1) m x → Piece n m (c :: x)
  | plain {n m : Int} {x : Bytes} (c : UInt8) : c ∉ ([34, 92, 91, 40, 93, 41] : Bytes) → (c = 44 → n ≠ 1) → Piece n m x → Piece n m (c :: x)

/-- The beginning of a string that is not closed, or a backslash that escapes what follows. -/
inductive Unclosed : Bytes → Prop
  | str {s : Bytes} : Closed s → Unclosed (34 :: s)
  | strEsc {s : Bytes} : Closed s → Unclosed (34 :: s ++ [92])
  | esc : Unclosed [92]

/-- Brackets that belong together. -/
def Brackets (o c : UInt8) : Prop := (o = 91 ∧ c = 93) ∨ (o = 40 ∧ c = 41)

/-- The text of an array, and its items. -/
inductive Listing : List Bytes → Bytes → Prop
  /-- laxity: any two bytes are an empty array -/
  | two (a b : UInt8) : Listing [] [a, b]
  /-- items between brackets (of any kind), separated by commas -/
  | all {o c : UInt8} {init : List Bytes} {last : Bytes} {n : Int} : Brackets o c → (∀ x ∈ init, Piece 1 1 x) → Piece 1 n last → init ++ [last] ≠ [[]] →
      Listing (init ++ [last]) ([o] ++ join (init ++ [last]) b!"," ++ [c])
  /-- laxity: if the text ends inside a string, then what comes after the last comma is ignored -/
  | dropped {o c : UInt8} {items : List Bytes} {p tail : Bytes} {n : Int} : Brackets o c → (∀ x ∈ items, Piece 1 1 x) → Piece 1 n p → Unclosed tail →
      Listing items ([o] ++ items.flatMap (fun x => x ++ b!",") ++ p ++ tail ++ [c])

/-- An array of strings. -/
def Strings (l : List Bytes) (v : Bytes) : Prop := Listing (l.map quoted) v

/-- An array with an item for every entry of a map, in strictly increasing order of the keys. -/
def Table {α : Type} (item : Bytes → Bytes × α → Prop) (m : GoMap α) (v : Bytes) : Prop :=
  Increasing m.keys ∧ ∃ l : List (Bytes × (Bytes × α)), Listing (l.map (·.1)) v ∧ l.map (·.2) = m ∧ ∀ x ∈ l, item x.1 x.2

/-- Name, path, hash algorithm and hash. Laxity: all but the name may be missing, and are then empty. -/
def OutputText (v : Bytes) (o : Bytes × Output) : Prop :=
  Strings [o.1, o.2.path, o.2.hashAlgorithm, o.2.hash] v ∨
  Strings [o.1, o.2.path, o.2.hashAlgorithm] v ∧ o.2.hash = [] ∨
  Strings [o.1, o.2.path] v ∧ o.2.hashAlgorithm = [] ∧ o.2.hash = [] ∨
  Strings [o.1] v ∧ o.2 = ⟨[], [], []⟩

/-- Path and names of the outputs. -/
def InputText (v : Bytes) (i : Bytes × List Bytes) : Prop := ∃ l, Listing [quoted i.1, l] v ∧ Strings i.2 l

/-- Key and value, which is unescaped. Laxity: without a value, it is empty. -/
def EnvText (v : Bytes) (e : Bytes × Bytes) : Prop :=
  (∃ raw, Strings [e.1, raw] v ∧ e.2 = unescape raw) ∨ Strings [e.1] v ∧ e.2 = []

/-- `b` is a text that is read as `d`. -/
structure Reads (jsonName : Bytes → Res (Option Bytes)) (b : Bytes) (d : Derivation) : Prop where
  text : ∃ o i s a e v, b = b!"Derive" ++ v ∧ Listing [o, i, s, quoted d.platform, quoted d.builder, a, e] v ∧
    Table OutputText d.outputs o ∧ Table InputText d.inputDerivations i ∧ Strings d.inputSources s ∧ Strings d.arguments a ∧ Table EnvText d.env e
  /-- the name is that in `__json`, if there is one -/
  name : (∀ j, d.env.get? b!"__json" = some j → jsonName j = .ok (some d.name)) ∧ (d.env.get? b!"__json" = none → d.name = [])
  valid : d.validate = .ok ()

end Verif.Derivation
