import Verif.Spec.Nixhash
import Verif.Spec.Numeral

/-!
# Specification: the texts of a hash
-/

namespace Verif.Spec

/-- `c` is a hexadecimal digit (of either case) of value `v`. -/
def HexDigit (c : UInt8) (v : Nat) : Prop :=
  b!"0123456789abcdef"[v]? = some c ∨ b!"0123456789ABCDEF"[v]? = some c

/-- `s` is the hexadecimal text of the bytes `d`, in any mix of cases. -/
inductive HexText : Bytes → Bytes → Prop
  | nil : HexText [] []
  | cons {c c' : UInt8} {v v' : Nat} {s d : Bytes} :
      HexDigit c v → HexDigit c' v' → HexText s d →
      HexText (c :: c' :: s) (UInt8.ofNat (16 * v + v') :: d)

/-- `s` is the nixbase32 text of the bytes `d`: the numeral of the number `d` stands for, with as many
digits as are needed for the bits of `d`. -/
def Nix32Text (s d : Bytes) : Prop :=
  IsNumeral32 s (leValue d) ∧ s.length = (8 * d.length + 4) / 5

/-- The number with the given digits in base `b`, most significant first. -/
def beValue (b : Nat) (ds : List Nat) : Nat := ds.foldl (fun acc v => acc * b + v) 0

/-- The 64 digits of base64, in order of their value. -/
def base64Digits : Bytes :=
  b!"ABCDEFGHIJKLMNOPQRSTUVWXYZabcdefghijklmnopqrstuvwxyz0123456789+/"

/-- `s` is a base64 text of the bytes `d` as `encoding/base64` reads it: carriage returns and line feeds
anywhere in it are ignored; without them it consists of digits and at most two `=` at the end, together a
multiple of four characters; the bits of the digits are the bits of `d`, followed by two bits of any
value for each `=`. -/
def Base64Text (s d : Bytes) : Prop :=
  ∃ (vs : List Nat) (p : Nat), p ≤ 2 ∧ (vs.length + p) % 4 = 0 ∧
    s.filter (fun c => c != 13 && c != 10) =
      vs.map (fun v => base64Digits.getD v 0) ++ List.replicate p 61 ∧
    (∀ v ∈ vs, v < 64) ∧
    8 * d.length + 2 * p = 6 * vs.length ∧
    beValue 256 (d.map UInt8.toNat) = beValue 64 vs / 2 ^ (2 * p)

/-- `s` is a text of the digest `d` in encoding `e` (1 hexadecimal, 2 base64, 3 nixbase32), and as long as
the texts of digests of `n` bytes are. -/
inductive BodyText (n : Nat) : UInt8 → Bytes → Bytes → Prop
  | hex {s d} : HexText s d → s.length = 2 * n → BodyText n 1 s d
  | nix32 {s d} : Nix32Text s d → d.length = n → BodyText n 3 s d
  | base64 {s d} : Base64Text s d → s.length = 4 * ((n + 2) / 3) → BodyText n 2 s d

/-- `s` is a text of the digest `d` of algorithm `a` in encoding `e`: with the name of the algorithm and a
colon (`named` is true), or with the name and a dash (encoding 4, the rest is base64), or, if the
algorithm is known otherwise, without a name. -/
inductive HashText (known : Option UInt8) : Bytes → UInt8 → Bytes → UInt8 → Bool → Prop
  | colon {a : UInt8} {name : Bytes} {n : Nat} {e : UInt8} {s d : Bytes} :
      (a, name, n) ∈ hashAlgos → (known = none ∨ known = some a) → BodyText n e s d →
      HashText known (name ++ b!":" ++ s) a d e true
  | sri {a : UInt8} {name : Bytes} {n : Nat} {s d : Bytes} :
      (a, name, n) ∈ hashAlgos → (known = none ∨ known = some a) → BodyText n 2 s d →
      HashText known (name ++ b!"-" ++ s) a d 4 true
  | bare {a : UInt8} {name : Bytes} {n : Nat} {e : UInt8} {s d : Bytes} :
      (a, name, n) ∈ hashAlgos → known = some a → BodyText n e s d →
      HashText known s a d e false

end Verif.Spec
