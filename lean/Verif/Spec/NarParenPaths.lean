import Verif.Spec.Nar

/-!
# Specification: entries after one called `)`
-/

namespace Verif.Spec

/-- Whatever comes after an entry called `)` is inside it. -/
def NothingAfterParen (ps : List Bytes) : Prop :=
  ps.Pairwise fun a b => b!"/)" <:+ a → a ++ b!"/" <+: b

end Verif.Spec
