import Verif.GoJson
import Verif.Spec.HashText

/-!
# Specification: JSON texts (RFC 8259)

`JText true t v`: the text `t`, without white space around it, stands for the value `v`. With `false`
instead, strings may also contain bytes that are no UTF-8 and escapes that are half of a surrogate pair,
which stand for U+FFFD.
-/

namespace Verif.Spec
open Verif.GoJson

/-- A Unicode scalar value. -/
def IsScalar (c : Nat) : Prop := c < 0xD800 ∨ (0xE000 ≤ c ∧ c < 0x110000)

/-- The UTF-8 encoding (RFC 3629). -/
def utf8 (c : Nat) : Bytes :=
  (if c < 0x80 then [c]
   else if c < 0x800 then [0xC0 + c / 2 ^ 6, 0x80 + c % 2 ^ 6]
   else if c < 0x10000 then [0xE0 + c / 2 ^ 12, 0x80 + c / 2 ^ 6 % 2 ^ 6, 0x80 + c % 2 ^ 6]
   else [0xF0 + c / 2 ^ 18, 0x80 + c / 2 ^ 12 % 2 ^ 6, 0x80 + c / 2 ^ 6 % 2 ^ 6, 0x80 + c % 2 ^ 6]).map UInt8.ofNat

/-- UTF-8 text. -/
def IsUtf8 (s : Bytes) : Prop := ∃ cs : List Nat, (∀ c ∈ cs, IsScalar c) ∧ s = cs.flatMap utf8

/-- No character is encoded at the start of `s`. -/
def NoRune (s : Bytes) : Prop := ∀ c, IsScalar c → ¬ utf8 c <+: s

/-- `Repaired s v`: `v` is `s` with U+FFFD in place of every byte that belongs to no character. -/
inductive Repaired : Bytes → Bytes → Prop
  | nil : Repaired [] []
  | char {c : Nat} {s v : Bytes} : IsScalar c → Repaired s v → Repaired (utf8 c ++ s) (utf8 c ++ v)
  | bad {b : UInt8} {s v : Bytes} : NoRune (b :: s) → Repaired s v → Repaired (b :: s) (utf8 0xFFFD ++ v)

/-- `h` are four hexadecimal digits (of either case) with the value `n`. -/
def Hex4 (h : Bytes) (n : Nat) : Prop :=
  ∃ (a b c d : UInt8) (w x y z : Nat), h = [a, b, c, d] ∧ HexDigit a w ∧ HexDigit b x ∧ HexDigit c y ∧ HexDigit d z ∧
    n = w * 16 ^ 3 + x * 16 ^ 2 + y * 16 + z

/-- The escapes of one character. -/
def escapeTable : List (UInt8 × UInt8) :=
  [(34, 34), (92, 92), (47, 47), (98, 8), (102, 12), (110, 10), (114, 13), (116, 9)]

/-- `s` begins with the second half of a surrogate pair. -/
def StartsLow (s : Bytes) : Prop := ∃ h n s', s = b!"\\u" ++ h ++ s' ∧ Hex4 h n ∧ 0xDC00 ≤ n ∧ n < 0xE000

/-- `JChars strict t v`: the text `t` between two quotes stands for the string `v`. -/
inductive JChars (strict : Bool) : Bytes → Bytes → Prop
  | nil : JChars strict [] []
  | char {c : Nat} {t v : Bytes} : IsScalar c → 0x20 ≤ c → c ≠ 34 → c ≠ 92 → JChars strict t v →
      JChars strict (utf8 c ++ t) (utf8 c ++ v)
  | escape {e x : UInt8} {t v : Bytes} : (e, x) ∈ escapeTable → JChars strict t v →
      JChars strict (92 :: e :: t) (x :: v)
  | unicode {h : Bytes} {n : Nat} {t v : Bytes} : Hex4 h n → IsScalar n → JChars strict t v →
      JChars strict (b!"\\u" ++ h ++ t) (utf8 n ++ v)
  | pair {h h' : Bytes} {n m : Nat} {t v : Bytes} : Hex4 h n → Hex4 h' m → 0xD800 ≤ n → n < 0xDC00 →
      0xDC00 ≤ m → m < 0xE000 → JChars strict t v →
      JChars strict (b!"\\u" ++ h ++ (b!"\\u" ++ h' ++ t)) (utf8 (0x10000 + (n - 0xD800) * 0x400 + (m - 0xDC00)) ++ v)
  | badByte {b : UInt8} {t v : Bytes} : strict = false → 0x80 ≤ b → NoRune (b :: t) → JChars strict t v →
      JChars strict (b :: t) (utf8 0xFFFD ++ v)
  | badPair {h : Bytes} {n : Nat} {t v : Bytes} : strict = false → Hex4 h n → 0xD800 ≤ n → n < 0xE000 →
      (n < 0xDC00 → ¬ StartsLow t) → JChars strict t v →
      JChars strict (b!"\\u" ++ h ++ t) (utf8 0xFFFD ++ v)

/-- White space. -/
def Ws (w : Bytes) : Prop := ∀ c ∈ w, c ∈ b!" \t\n\r"

/-- One or more digits. -/
def Digits (s : Bytes) : Prop := s ≠ [] ∧ ∀ c ∈ s, c ∈ b!"0123456789"

/-- A number: minus sign, integer without leading zeros, fraction, exponent. -/
def JNum (s : Bytes) : Prop :=
  ∃ m i f e : Bytes, s = m ++ i ++ f ++ e ∧ (m = [] ∨ m = b!"-") ∧
    (i = b!"0" ∨ (Digits i ∧ i.head? ≠ some 48)) ∧
    (f = [] ∨ ∃ d, f = b!"." ++ d ∧ Digits d) ∧
    (e = [] ∨ ∃ x sg d, e = x ++ sg ++ d ∧ (x = b!"e" ∨ x = b!"E") ∧ (sg = [] ∨ sg = b!"+" ∨ sg = b!"-") ∧ Digits d)

mutual
/-- The text of a value. -/
inductive JText (strict : Bool) : Bytes → Json → Prop
  | null : JText strict b!"null" .null
  | true : JText strict b!"true" (.bool true)
  | false : JText strict b!"false" (.bool false)
  | num {s : Bytes} : JNum s → JText strict s (.num s)
  | str {t v : Bytes} : JChars strict t v → JText strict (b!"\"" ++ t ++ b!"\"") (.str v)
  | emptyArr {w : Bytes} : Ws w → JText strict (b!"[" ++ w ++ b!"]") (.arr .nil)
  | arr {t : Bytes} {l : Jsons} : JItems strict t l → JText strict (b!"[" ++ t ++ b!"]") (.arr l)
  | emptyObj {w : Bytes} : Ws w → JText strict (b!"{" ++ w ++ b!"}") (.obj .nil)
  | obj {t : Bytes} {l : Members} : JMembers strict t l → JText strict (b!"{" ++ t ++ b!"}") (.obj l)
/-- The text of one or more elements, with commas and white space. -/
inductive JItems (strict : Bool) : Bytes → Jsons → Prop
  | one {w t w' : Bytes} {v : Json} : Ws w → JText strict t v → Ws w' → JItems strict (w ++ t ++ w') (.cons v .nil)
  | cons {w t w' ts : Bytes} {v : Json} {l : Jsons} : Ws w → JText strict t v → Ws w' → JItems strict ts l →
      JItems strict (w ++ t ++ w' ++ b!"," ++ ts) (.cons v l)
/-- The text of one or more members. -/
inductive JMembers (strict : Bool) : Bytes → Members → Prop
  | one {w k w1 w2 t w3 key : Bytes} {v : Json} : Ws w → JChars strict k key → Ws w1 → Ws w2 → JText strict t v →
      Ws w3 → JMembers strict (w ++ (b!"\"" ++ k ++ b!"\"") ++ w1 ++ b!":" ++ w2 ++ t ++ w3) (.cons key v .nil)
  | cons {w k w1 w2 t w3 key ts : Bytes} {v : Json} {l : Members} : Ws w → JChars strict k key → Ws w1 → Ws w2 →
      JText strict t v → Ws w3 → JMembers strict ts l →
      JMembers strict (w ++ (b!"\"" ++ k ++ b!"\"") ++ w1 ++ b!":" ++ w2 ++ t ++ w3 ++ b!"," ++ ts) (.cons key v l)
end

mutual
/-- How deep arrays and objects are nested. -/
def jdepth : Json → Nat
  | .arr l => jdepths l + 1
  | .obj l => jdepthm l + 1
  | _ => 0
/-- see `jdepth` -/
def jdepths : Jsons → Nat
  | .nil => 0
  | .cons v l => max (jdepth v) (jdepths l)
/-- see `jdepth` -/
def jdepthm : Members → Nat
  | .nil => 0
  | .cons _ v l => max (jdepth v) (jdepthm l)
end

mutual
/-- The value with every string (keys as well) changed by `g`. -/
def mapStr (g : Bytes → Bytes) : Json → Json
  | .null => .null
  | .bool b => .bool b
  | .num l => .num l
  | .str s => .str (g s)
  | .arr l => .arr (mapStrs g l)
  | .obj l => .obj (mapStrm g l)
/-- see `mapStr` -/
def mapStrs (g : Bytes → Bytes) : Jsons → Jsons
  | .nil => .nil
  | .cons v l => .cons (mapStr g v) (mapStrs g l)
/-- see `mapStr` -/
def mapStrm (g : Bytes → Bytes) : Members → Members
  | .nil => .nil
  | .cons k v l => .cons (g k) (mapStr g v) (mapStrm g l)
end

mutual
/-- Every string (keys as well) is UTF-8, every number is written as a number. -/
def JValid : Json → Prop
  | .num l => JNum l
  | .str s => IsUtf8 s
  | .arr l => JValids l
  | .obj l => JValidm l
  | _ => True
/-- see `JValid` -/
def JValids : Jsons → Prop
  | .nil => True
  | .cons v l => JValid v ∧ JValids l
/-- see `JValid` -/
def JValidm : Members → Prop
  | .nil => True
  | .cons k v l => IsUtf8 k ∧ JValid v ∧ JValidm l
end

mutual
/-- Every number is written as a number. -/
def JNums : Json → Prop
  | .num l => JNum l
  | .arr l => JNumss l
  | .obj l => JNumsm l
  | _ => True
/-- see `JNums` -/
def JNumss : Jsons → Prop
  | .nil => True
  | .cons v l => JNums v ∧ JNumss l
/-- see `JNums` -/
def JNumsm : Members → Prop
  | .nil => True
  | .cons _ v l => JNums v ∧ JNumsm l
end

/-- The members of an object as a list. -/
def memberList : Members → List (Bytes × Json)
  | .nil => []
  | .cons k v l => (k, v) :: memberList l

/-- The texts that Go takes for the ASCII letter `c`: the letter in both cases, and U+017F for S, U+212A for K. -/
def LetterText (c : UInt8) (t : Bytes) : Prop :=
  t = [c] ∨ (65 ≤ c.toNat ∧ c.toNat ≤ 90 ∧ t = [c + 32]) ∨ (97 ≤ c.toNat ∧ c.toNat ≤ 122 ∧ t = [c - 32]) ∨
    ((c = 83 ∨ c = 115) ∧ t = utf8 0x17F) ∨ ((c = 75 ∨ c = 107) ∧ t = utf8 0x212A)

/-- `KeyFor field key`: the key is the name of the field, in any case. -/
inductive KeyFor : Bytes → Bytes → Prop
  | nil : KeyFor [] []
  | cons {c : UInt8} {t field key : Bytes} : LetterText c t → KeyFor field key → KeyFor (c :: field) (t ++ key)

end Verif.Spec
