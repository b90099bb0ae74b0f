import Verif.Spec.Nar

/-!
# Specification: entries called `)`

The reader takes an entry called `)` for the end of its directory (property C23).
-/

namespace Verif.Spec

mutual
/-- No entry, at any depth, is called `)`. -/
def Tree.NoParen : Tree → Prop
  | .regular _ _ => True
  | .symlink _ => True
  | .directory es => es.NoParen
/-- see `Tree.NoParen` -/
def Entries.NoParen : Entries → Prop
  | .nil => True
  | .cons n t es => n ≠ b!")" ∧ t.NoParen ∧ es.NoParen
end

mutual
/-- Every entry called `)`, and every directory that has one somewhere below it, is the last entry of
its directory. -/
def Tree.ParenLast : Tree → Prop
  | .regular _ _ => True
  | .symlink _ => True
  | .directory es => es.ParenLast
/-- see `Tree.ParenLast` -/
def Entries.ParenLast : Entries → Prop
  | .nil => True
  | .cons n t es => (es = .nil ∧ t.ParenLast) ∨ (n ≠ b!")" ∧ t.NoParen ∧ es.ParenLast)
end

/-- A name as file systems have them, and short enough for the reader. -/
def NameShort (n : Bytes) : Prop := NameOk n ∧ n.length ≤ 255

/-- A name whose length fits the eight bytes the format has for it. -/
def NameFits (n : Bytes) : Prop := NameOk n ∧ n.length < 2 ^ 64

/-- Contents and link targets fit the eight bytes the format has for their length. -/
def NodeFits : Tree → Prop
  | .regular _ c => c.length < 2 ^ 64
  | .symlink t => t.length < 2 ^ 64
  | .directory _ => True

end Verif.Spec
