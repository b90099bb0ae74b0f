import Verif.Model.NarLs

/-!
# Specification: `.ls` listings
-/

namespace Verif.NarLs

/-- The fields fit the type: only symlinks have a target (and a non-empty one), only regular files a
size and the executable flag. -/
def FieldsOk (typ : Bytes) (size : Int) (target : Bytes) (executable : Bool) : Prop :=
  (typ = b!"regular" ∨ typ = b!"directory" → target = []) ∧
  (typ = b!"directory" ∨ typ = b!"symlink" → size = 0 ∧ executable = false) ∧
  (typ = b!"symlink" → target ≠ [])

mutual
/-- Every entry name at any depth satisfies `P`, every node (with its entries) `Q`, and there is no
null entry. -/
def Node.All (P : Bytes → Prop) (Q : Node → Prop) : Node → Prop
  | .mk typ es size lt x o => Q (.mk typ es size lt x o) ∧ es.All P Q
/-- see `Node.All` -/
def Entries.All (P : Bytes → Prop) (Q : Node → Prop) : Entries → Prop
  | .nil => True
  | .null _ _ => False
  | .cons n t es => P n ∧ t.All P Q ∧ es.All P Q
end

mutual
/-- There is no null entry. -/
def Node.NoNull : Node → Prop
  | .mk _ es _ _ _ _ => es.NoNull
/-- see `Node.NoNull` -/
def Entries.NoNull : Entries → Prop
  | .nil => True
  | .null _ _ => False
  | .cons _ t es => t.NoNull ∧ es.NoNull
end

/-- A name without slash and NUL. -/
def NameLs (n : Bytes) : Prop := (47 : UInt8) ∉ n ∧ (0 : UInt8) ∉ n

/-- The node is type-consistent. -/
def Consistent : Node → Prop
  | .mk typ _ size lt x _ => FieldsOk typ size lt x

/-- The node has no entries, or it is type-consistent. -/
def ConsistentIfParent : Node → Prop
  | .mk typ es size lt x _ => es = .nil ∨ FieldsOk typ size lt x

end Verif.NarLs
