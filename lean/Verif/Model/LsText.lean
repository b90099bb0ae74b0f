import Verif.Model.NarLs
import Verif.GoJson

/-!
# Model of `ParseLS` on bytes: `json.Decoder` with `DisallowUnknownFields` into `ls.Root`

Go goes on after a value of a wrong kind or an unknown field and returns the first such error at the end; here
the error is returned at once.
-/

namespace Verif.NarLs
open Verif.GoLib Verif.GoJson

deriving instance DecidableEq for Node, Entries

/-- `strconv.ParseInt(s, 10, 64)` on a JSON number (which has no plus sign). -/
def parseInt64 (s : Bytes) : Res Int :=
  if s.head? = some 45 then do
    let n ← parseUint s.tail
    if n > 2 ^ 63 then .err (.msg "value out of range") else .ok (-(n : Int))
  else do
    let n ← parseUint s
    if n ≥ 2 ^ 63 then .err (.msg "value out of range") else .ok (n : Int)

/-- A value decoded into a `string` field that holds `old` (list.go:19, 22): null changes nothing. -/
def strValue (old : Bytes) : Json → Res Bytes
  | .null => .ok old
  | .str s => .ok s
  | _ => .err (.msg "json: cannot unmarshal into Go value of type string")

/-- The same for `int` (64 bits) and `int64` (list.go:13, 21, 24). -/
def intValue (old : Int) : Json → Res Int
  | .null => .ok old
  | .num l => parseInt64 l
  | _ => .err (.msg "json: cannot unmarshal into Go value of type int64")

/-- The same for `bool` (list.go:23). -/
def boolValue (old : Bool) : Json → Res Bool
  | .null => .ok old
  | .bool b => .ok b
  | _ => .err (.msg "json: cannot unmarshal into Go value of type bool")

/-- A map without a key. -/
def Entries.remove (k : Bytes) : Entries → Entries
  | .nil => .nil
  | .cons n t es => if n = k then es.remove k else .cons n t (es.remove k)
  | .null n es => if n = k then es.remove k else .null n (es.remove k)

/-- One more entry; `none` is a nil pointer. -/
def Entries.snoc (k : Bytes) (v : Option Node) : Entries → Entries
  | .nil => match v with
    | some t => .cons k t .nil
    | none => .null k .nil
  | .cons n t es => .cons n t (es.snoc k v)
  | .null n es => .null n (es.snoc k v)

/-- Assignment to a key of the map. (The order has no meaning, see `parseLSText`.) -/
def Entries.put (es : Entries) (k : Bytes) (v : Option Node) : Entries := (es.remove k).snoc k v

/-- `Node{}`. -/
def zeroNode : Node := .mk [] .nil 0 [] false 0

/-- A member decoded into a `Node` (list.go:18-25), but for an object as the value of `entries`. -/
def decodeField : Node → Bytes → Json → Res Node
  | .mk typ es size lt x o, k, v =>
    if sameField b!"type" k then do
      let s ← strValue typ v
      .ok (.mk s es size lt x o)
    else if sameField b!"entries" k then
      if v = .null then .ok (.mk typ .nil size lt x o)
      else .err (.msg "json: cannot unmarshal into Go struct field Node.entries of type map[string]*ls.Node")
    else if sameField b!"size" k then do
      let n ← intValue size v
      .ok (.mk typ es n lt x o)
    else if sameField b!"target" k then do
      let s ← strValue lt v
      .ok (.mk typ es size s x o)
    else if sameField b!"executable" k then do
      let b ← boolValue x v
      .ok (.mk typ es size lt b o)
    else if sameField b!"narOffset" k then do
      let n ← intValue o v
      .ok (.mk typ es size lt x n)
    else .err (.msg "json: unknown field")

/-- The entries of a node. -/
def Node.entries : Node → Entries
  | .mk _ es _ _ _ _ => es

/-- The node with other entries. -/
def Node.setEntries : Node → Entries → Node
  | .mk typ _ size lt x o, es => .mk typ es size lt x o

mutual
/-- The members of an object decoded into a `Node` that holds `t` so far (list.go:18-25, 79); entries are added to
those that are there. -/
def decodeMembers : Node → Members → Res Node
  | t, .nil => .ok t
  | t, .cons k (.obj m) l =>
    if sameField b!"entries" k then do
      let es ← decodeMap t.entries m
      decodeMembers (t.setEntries es) l
    else do
      let t' ← decodeField t k (.obj m)
      decodeMembers t' l
  | t, .cons k v l => do
    let t' ← decodeField t k v
    decodeMembers t' l
/-- The members of an object decoded into a `map[string]*Node` (list.go:20, 79): every value into a new pointer, which
replaces the one under the same key. -/
def decodeMap : Entries → Members → Res Entries
  | es, .nil => .ok es
  | es, .cons k .null l => decodeMap (es.put k none) l
  | es, .cons k (.obj m) l => do
    let t ← decodeMembers zeroNode m
    decodeMap (es.put k (some t)) l
  | _, .cons _ _ _ => .err (.msg "json: cannot unmarshal into Go struct field Node.entries of type ls.Node")
end

/-- A value decoded into the field `Root`, a struct that holds `t` (list.go:14). -/
def rootValue (t : Node) : Json → Res Node
  | .null => .ok t
  | .obj m => decodeMembers t m
  | _ => .err (.msg "json: cannot unmarshal into Go struct field Root.Root of type ls.Node")

/-- The members of the whole object, decoded into a `Root` (list.go:12-15, 79). -/
def decodeRoot : Int → Node → Members → Res (Int × Node)
  | n, t, .nil => .ok (n, t)
  | n, t, .cons k v l =>
    if sameField b!"version" k then do
      let n' ← intValue n v
      decodeRoot n' t l
    else if sameField b!"Root" k then do
      let t' ← rootValue t v
      decodeRoot n t' l
    else .err (.msg "json: unknown field")

/-- `dec.Decode(&root)` (list.go:74-82): the decoder reads one value, whatever comes after it. (If the reader fails
before the value ends, that is an error as well, so only the bytes matter.) -/
def decodeLS (data : Bytes) : Res (Int × Node) :=
  match parseJson data with
  | none => .err (.msg "invalid character, or unexpected end")
  | some (.null, _) => .ok (0, zeroNode)
  | some (.obj l, _) => decodeRoot 0 zeroNode l
  | some _ => .err (.msg "json: cannot unmarshal into Go value of type ls.Root")

/-- `ParseLS` (list.go:73-95) on bytes. `visit` is the order in which the maps are ranged over by `validateNode`. -/
def parseLSText (visit : Node → Node) (data : Bytes) : Res (Int × Node) := do
  let root ← decodeLS data
  let _ ← parseLS (.ok (root.1, visit root.2))
  .ok root

end Verif.NarLs
