import Verif.Spec.NarLs
import Verif.Spec.Json

/-!
# Specification: what the JSON text of a `.ls` listing says

Keys are taken in any case (`KeyFor`). Of several values for a field the last one counts, except that null says
nothing; entries given in several places are taken together.
-/

namespace Verif.NarLs
open Verif.GoJson Verif.Spec

/-- The number that decimal digits stand for. -/
def decValue (d : Bytes) : Nat := beValue 10 (d.map fun c => c.toNat - 48)

/-- `lit` is a 64-bit integer in decimal. -/
def IntText (lit : Bytes) (a : Int) : Prop :=
  ∃ d, Digits d ∧ ((lit = d ∧ a = decValue d) ∨ (lit = b!"-" ++ d ∧ a = - (decValue d : Int))) ∧ -2 ^ 63 ≤ a ∧ a < 2 ^ 63

/-- The JSON values of the Go types. -/
def IsStr (v : Json) (a : Bytes) : Prop := v = .str a
/-- see `IsStr` -/
def IsBool (v : Json) (a : Bool) : Prop := v = .bool a
/-- see `IsStr` -/
def IsInt (v : Json) (a : Int) : Prop := ∃ lit, v = .num lit ∧ IntText lit a

mutual
/-- All members are fields of a node, with null or a value of the right kind. -/
def NodeMembersOk : Members → Prop
  | .nil => True
  | .cons k v l =>
    ((KeyFor b!"type" k ∧ (v = .null ∨ ∃ a, IsStr v a)) ∨ (KeyFor b!"target" k ∧ (v = .null ∨ ∃ a, IsStr v a)) ∨
      (KeyFor b!"size" k ∧ (v = .null ∨ ∃ a, IsInt v a)) ∨ (KeyFor b!"narOffset" k ∧ (v = .null ∨ ∃ a, IsInt v a)) ∨
      (KeyFor b!"executable" k ∧ (v = .null ∨ ∃ a, IsBool v a)) ∨ (KeyFor b!"entries" k ∧ EntriesOk v)) ∧
    NodeMembersOk l
/-- Null or an object of nodes. -/
def EntriesOk : Json → Prop
  | .null => True
  | .obj l => NodesOk l
  | _ => False
/-- The value of every member is a node. -/
def NodesOk : Members → Prop
  | .nil => True
  | .cons _ v l => NodeOk v ∧ NodesOk l
/-- Null or an object with the fields of a node. -/
def NodeOk : Json → Prop
  | .null => True
  | .obj l => NodeMembersOk l
  | _ => False
end

/-- All members are the version or the root, with a value of the right kind. -/
def RootMembersOk : Members → Prop
  | .nil => True
  | .cons k v l => ((KeyFor b!"version" k ∧ (v = .null ∨ ∃ a, IsInt v a)) ∨ (KeyFor b!"Root" k ∧ NodeOk v)) ∧ RootMembersOk l

/-- The last value of a field that is not null is `a`; without any, `a` is the default. -/
def FieldIs (field : Bytes) (V : Json → α → Prop) (default : α) (ms : List (Bytes × Json)) (a : α) : Prop :=
  (a = default ∧ ∀ m ∈ ms, KeyFor field m.1 → m.2 = .null) ∨
  ∃ before k v after, ms = before ++ (k, v) :: after ∧ KeyFor field k ∧ V v a ∧ ∀ m ∈ after, KeyFor field m.1 → m.2 = .null

/-- The members of all values of the field `entries`, in order; null drops those before it. -/
inductive EntriesOf : List (Bytes × Json) → List (Bytes × Json) → Prop
  | nil : EntriesOf [] []
  | other {ms l k v} : EntriesOf ms l → ¬ KeyFor b!"entries" k → EntriesOf (ms ++ [(k, v)]) l
  | null {ms l k} : EntriesOf ms l → KeyFor b!"entries" k → EntriesOf (ms ++ [(k, .null)]) []
  | obj {ms l k m} : EntriesOf ms l → KeyFor b!"entries" k → EntriesOf (ms ++ [(k, .obj m)]) (l ++ memberList m)

/-- The members of all values of the field `Root`, in order. -/
inductive RootOf : List (Bytes × Json) → List (Bytes × Json) → Prop
  | nil : RootOf [] []
  | other {ms l k v} : RootOf ms l → ¬ KeyFor b!"Root" k → RootOf (ms ++ [(k, v)]) l
  | null {ms l k} : RootOf ms l → KeyFor b!"Root" k → RootOf (ms ++ [(k, .null)]) l
  | obj {ms l k m} : RootOf ms l → KeyFor b!"Root" k → RootOf (ms ++ [(k, .obj m)]) (l ++ memberList m)

mutual
/-- An object with the members `ms` says that there is this node. -/
inductive Says : List (Bytes × Json) → Node → Prop
  | mk {ms l typ es size lt x o} : FieldIs b!"type" IsStr [] ms typ → FieldIs b!"size" IsInt 0 ms size →
      FieldIs b!"target" IsStr [] ms lt → FieldIs b!"executable" IsBool false ms x →
      FieldIs b!"narOffset" IsInt 0 ms o → EntriesOf ms l → SaysMap l es → Says ms (.mk typ es size lt x o)
/-- An object with the members `l` says that there are these entries: one for every name, by its last member. -/
inductive SaysMap : List (Bytes × Json) → Entries → Prop
  | nil : SaysMap [] .nil
  | again {k v v' l es} : (k, v') ∈ l → SaysMap l es → SaysMap ((k, v) :: l) es
  | null {k l es} : (∀ v', (k, v') ∉ l) → SaysMap l es → SaysMap ((k, .null) :: l) (.null k es)
  | node {k m t l es} : (∀ v', (k, v') ∉ l) → Says (memberList m) t → SaysMap l es →
      SaysMap ((k, .obj m) :: l) (.cons k t es)
end

/-- The data begins with a JSON text that says that there is a listing with this version and root. -/
def LsSays (data : Bytes) (version : Int) (root : Node) : Prop :=
  ∃ w t rest l ms, data = w ++ t ++ rest ∧ Ws w ∧ JText false t (.obj l) ∧ jdepth (.obj l) ≤ 10000 ∧ RootMembersOk l ∧
    FieldIs b!"version" IsInt 0 (memberList l) version ∧ RootOf (memberList l) ms ∧ Says ms root

mutual
/-- The same node with the entries in another order, at any depth. -/
inductive Reorder : Node → Node → Prop
  | mk {typ es es' size lt x o} : ReorderE es es' → Reorder (.mk typ es size lt x o) (.mk typ es' size lt x o)
/-- see `Reorder` -/
inductive ReorderE : Entries → Entries → Prop
  | nil : ReorderE .nil .nil
  | cons {n t t' es es'} : Reorder t t' → ReorderE es es' → ReorderE (.cons n t es) (.cons n t' es')
  | null {n es es'} : ReorderE es es' → ReorderE (.null n es) (.null n es')
  | swap {n t n' t' es} : ReorderE (.cons n t (.cons n' t' es)) (.cons n' t' (.cons n t es))
  | swapNull {n t n' es} : ReorderE (.cons n t (.null n' es)) (.null n' (.cons n t es))
  | swapNull' {n t n' es} : ReorderE (.null n' (.cons n t es)) (.cons n t (.null n' es))
  | swapNulls {n n' es} : ReorderE (.null n (.null n' es)) (.null n' (.null n es))
  | trans {a b c} : ReorderE a b → ReorderE b c → ReorderE a c
end

/-- An order of visiting maps. -/
def Visits (visit : Node → Node) : Prop := ∀ t, Reorder t (visit t)

/-! ## Listings as text -/

/-- A number in decimal. -/
def intLit (a : Int) : Bytes := if a < 0 then b!"-" ++ Verif.GoLib.formatUint a.natAbs else Verif.GoLib.formatUint a.natAbs

mutual
/-- `json.Marshal` of a node. -/
def nodeJson : Node → Json
  | .mk typ es size lt x o => .obj (.cons b!"type" (.str typ) (.cons b!"entries" (.obj (entriesJson es))
      (.cons b!"size" (.num (intLit size)) (.cons b!"target" (.str lt) (.cons b!"executable" (.bool x)
      (.cons b!"narOffset" (.num (intLit o)) .nil))))))
/-- see `nodeJson` -/
def entriesJson : Entries → Members
  | .nil => .nil
  | .cons n t es => .cons n (nodeJson t) (entriesJson es)
  | .null n es => .cons n .null (entriesJson es)
end

/-- `json.Marshal` of a listing. -/
def lsJson (version : Int) (root : Node) : Json :=
  .obj (.cons b!"version" (.num (intLit version)) (.cons b!"Root" (nodeJson root) .nil))

/-- The names of the entries. -/
def Entries.names : Entries → List Bytes
  | .nil => []
  | .cons n _ es => n :: es.names
  | .null n es => n :: es.names

mutual
/-- The node can exist in Go and be written as JSON: names occur once, numbers have 64 bits, texts are UTF-8. -/
def Node.Writable : Node → Prop
  | .mk typ es size lt _ o => IsUtf8 typ ∧ IsUtf8 lt ∧ -2 ^ 63 ≤ size ∧ size < 2 ^ 63 ∧ -2 ^ 63 ≤ o ∧ o < 2 ^ 63 ∧
      es.names.Nodup ∧ es.Writable
/-- see `Node.Writable` -/
def Entries.Writable : Entries → Prop
  | .nil => True
  | .cons n t es => IsUtf8 n ∧ t.Writable ∧ es.Writable
  | .null n es => IsUtf8 n ∧ es.Writable
end

end Verif.NarLs
