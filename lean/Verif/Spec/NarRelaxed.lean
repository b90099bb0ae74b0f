import Verif.Spec.Nar
import Verif.GoPath

/-!
# Specification: the language the NAR reader accepts

A superset of the NAR format (see properties C29, C30): padding of strings is not looked at and may
be cut off by the end of the data; inside a directory unknown tokens are skipped; an entry called
`)` ends the directory; a node of type `)` is accepted and stands for nothing; names may be empty,
`.` or `..`. Unknown tokens have at most 32 bytes, names at most 255, targets at most 4095 and
contents less than 2^63. `d` is the data before, `d'` the data after.

`CutNode` describes the archives cut off at a place where the reader answers `io.EOF` as if the archive
were complete (property C29).
-/

namespace Verif.Spec
open Verif.GoLib

/-- A string with any padding; the padding may be cut off by the end of the data. -/
def Tok (t : Bytes) (d d' : Bytes) : Prop :=
  ∃ len p : Bytes, d = len ++ t ++ p ++ d' ∧
    len = (List.range 8).map (fun i => UInt8.ofNat (t.length / 256 ^ i)) ∧
    (p.length = (8 - t.length % 8) % 8 ∨ (p.length ≤ (8 - t.length % 8) % 8 ∧ d' = []))

/-- A sequence of strings. -/
def Toks : List Bytes → Bytes → Bytes → Prop
  | [], d, d' => d = d'
  | t :: ts, d, d' => ∃ m, Tok t d m ∧ Toks ts m d'

mutual
/-- `RelNode p d es d'`: the data `d` starts with a node with the entries `es` at path `p`, in the
relaxed format, followed by `d'`. -/
inductive RelNode : Bytes → Bytes → List Entry → Bytes → Prop where
  | regular {p d d' m m' c} :
      Toks [b!"(", b!"type", b!"regular", b!"contents"] d m → m = str c ++ m' →
      c.length < 2 ^ 63 → Tok b!")" m' d' → RelNode p d [⟨p, b!"regular", false, [], c⟩] d'
  | executable {p d d' m m' c} :
      Toks [b!"(", b!"type", b!"regular", b!"executable", [], b!"contents"] d m → m = str c ++ m' →
      c.length < 2 ^ 63 → Tok b!")" m' d' → RelNode p d [⟨p, b!"regular", true, [], c⟩] d'
  | symlink {p d d' t} :
      Toks [b!"(", b!"type", b!"symlink", b!"target", t, b!")"] d d' → t.length ≤ 4095 →
      RelNode p d [⟨p, b!"symlink", false, t, []⟩] d'
  | directory {p d d' m es} :
      Toks [b!"(", b!"type", b!"directory"] d m → RelEntries p m es d' →
      RelNode p d (⟨p, b!"directory", false, [], []⟩ :: es) d'
  | nothing {p d d'} : Toks [b!"(", b!"type", b!")"] d d' → RelNode p d [] d'
/-- The entries of a directory up to and including the end of the directory. -/
inductive RelEntries : Bytes → Bytes → List Entry → Bytes → Prop where
  | close {p d d'} : Tok b!")" d d' → RelEntries p d [] d'
  | unknown {p d m es d' t} :
      Tok t d m → t ≠ b!"entry" → t ≠ b!")" → t.length ≤ 32 → RelEntries p m es d' → RelEntries p d es d'
  | entry {p d m1 m2 m3 es1 es2 d' n} :
      Toks [b!"entry", b!"(", b!"name", n, b!"node"] d m1 → (47 : UInt8) ∉ n → (0 : UInt8) ∉ n → n.length ≤ 255 →
      RelNode (pathJoin p n) m1 es1 m2 → Tok b!")" m2 m3 → n ≠ b!")" → RelEntries p m3 es2 d' →
      RelEntries p d (es1 ++ es2) d'
  | lastEntry {p d m1 m2 es d'} :
      Toks [b!"entry", b!"(", b!"name", b!")", b!"node"] d m1 →
      RelNode (pathJoin p b!")") m1 es m2 → Tok b!")" m2 d' → RelEntries p d es d'
end

/-- The data ends where a string of at most `max` bytes should start, or between its length and its
first byte. -/
def CutTok (max : Nat) (d : Bytes) : Prop :=
  d = [] ∨ ∃ n, 0 < n ∧ n ≤ max ∧ d = (List.range 8).map (fun i => UInt8.ofNat (n / 256 ^ i))

/-- An entry met before the data ended, and the size announced for it: its contents may be cut off. -/
abbrev Seen := Entry × Nat

mutual
/-- `CutNode p d xs`: the data `d` is the beginning of a node at path `p`, with the entries `xs`, cut
off at a place where the reader does not notice it. -/
inductive CutNode : Bytes → Bytes → List Seen → Prop where
  | type {p d m} : Toks [b!"(", b!"type"] d m → CutTok 32 m → CutNode p d []
  | regular {p d m} : Toks [b!"(", b!"type", b!"regular"] d m → CutTok 10 m → CutNode p d []
  | executable {p d m} :
      Toks [b!"(", b!"type", b!"regular", b!"executable", []] d m → CutTok 32 m → CutNode p d []
  | length {p d x} : (x = [] ∨ x = [b!"executable", []]) →
      Toks ([b!"(", b!"type", b!"regular"] ++ x ++ [b!"contents"]) d [] → CutNode p d []
  | contents {p d m c n x} : (x = [] ∨ x = [b!"executable", []]) →
      Toks ([b!"(", b!"type", b!"regular"] ++ x ++ [b!"contents"]) d m →
      m = (List.range 8).map (fun i => UInt8.ofNat (n / 256 ^ i)) ++ c → n < 2 ^ 63 →
      c.length < n ∨ (c.length = n ∧ n % 8 ≠ 0) →
      CutNode p d [(⟨p, b!"regular", x != [], [], c⟩, n)]
  | close {p d m c m' x} : (x = [] ∨ x = [b!"executable", []]) →
      Toks ([b!"(", b!"type", b!"regular"] ++ x ++ [b!"contents"]) d m → m = str c ++ m' →
      c.length < 2 ^ 63 → CutTok 32 m' → CutNode p d [(⟨p, b!"regular", x != [], [], c⟩, c.length)]
  | target {p d m} :
      Toks [b!"(", b!"type", b!"symlink", b!"target"] d m → CutTok 4095 m → CutNode p d []
  | symlink {p d m t} :
      Toks [b!"(", b!"type", b!"symlink", b!"target", t] d m → t.length ≤ 4095 → CutTok 32 m →
      CutNode p d [(⟨p, b!"symlink", false, t, []⟩, 0)]
  | directory {p d m xs} :
      Toks [b!"(", b!"type", b!"directory"] d m → CutEntries p m xs →
      CutNode p d ((⟨p, b!"directory", false, [], []⟩, 0) :: xs)
/-- The same for the entries of a directory. -/
inductive CutEntries : Bytes → Bytes → List Seen → Prop where
  | token {p d} : CutTok 32 d → CutEntries p d []
  | unknown {p d m xs t} :
      Tok t d m → t ≠ b!"entry" → t ≠ b!")" → t.length ≤ 32 → CutEntries p m xs → CutEntries p d xs
  | name {p d m} : Toks [b!"entry", b!"(", b!"name"] d m → CutTok 255 m → CutEntries p d []
  | node {p d m xs n} :
      Toks [b!"entry", b!"(", b!"name", n, b!"node"] d m → (47 : UInt8) ∉ n → (0 : UInt8) ∉ n →
      n.length ≤ 255 → CutNode (pathJoin p n) m xs → CutEntries p d xs
  | entry {p d m1 m2 m3 es xs n} :
      Toks [b!"entry", b!"(", b!"name", n, b!"node"] d m1 → (47 : UInt8) ∉ n → (0 : UInt8) ∉ n →
      n.length ≤ 255 → RelNode (pathJoin p n) m1 es m2 → Tok b!")" m2 m3 → n ≠ b!")" →
      CutEntries p m3 xs → CutEntries p d (es.map (fun e => (e, e.contents.length)) ++ xs)
end

/-- The paths are in the order the reader asks for: each is, bytewise or component by component, not
below the one before it. -/
def InOrder : List Bytes → Prop
  | a :: b :: ps => (a ≤ b ∨ splitByte a 47 ≤ splitByte b 47) ∧ InOrder (b :: ps)
  | _ => True

end Verif.Spec
