import Verif.Basic

/-!
# Regular expressions (the fragment of Go's `regexp` used in `/repo`), trusted semantics

The characters of all classes used are ASCII, so that it does not matter that `regexp` works on runes.
-/

namespace Verif.GoLib

/-- Expressions without anchors: a character class, a literal text, concatenation, `r*`, `r{n}`. -/
inductive Re where
  | cls (cs : Bytes)
  | lit (s : Bytes)
  | cat (r t : Re)
  | star (r : Re)
  | rep (r : Re) (n : Nat)

/-- The texts an expression matches as a whole. -/
inductive Re.Match : Re → Bytes → Prop
  | cls {cs : Bytes} {c : UInt8} : c ∈ cs → Match (.cls cs) [c]
  | lit {s : Bytes} : Match (.lit s) s
  | cat {r t : Re} {s u : Bytes} : Match r s → Match t u → Match (.cat r t) (s ++ u)
  | star_nil {r : Re} : Match (.star r) []
  | star_cons {r : Re} {s u : Bytes} : Match r s → Match (.star r) u → Match (.star r) (s ++ u)
  | rep_zero {r : Re} : Match (.rep r 0) []
  | rep_succ {r : Re} {n : Nat} {s u : Bytes} : Match r s → Match (.rep r n) u → Match (.rep r (n + 1)) (s ++ u)

/-- A compiled expression: `^r$` or `r`. -/
structure Regexp where
  anchored : Bool
  re : Re

/-- `Regexp.MatchString`: with the anchors `^` and `$` (no flags) the whole text, otherwise some part of
it. -/
def Regexp.MatchString (r : Regexp) (s : Bytes) : Prop :=
  if r.anchored then r.re.Match s else ∃ a b c, s = a ++ b ++ c ∧ r.re.Match b

end Verif.GoLib
