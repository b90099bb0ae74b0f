import Verif.Model.Wire

/-!
# Specification: fragmented readers
-/

namespace Verif.Wire

/-- The stream a fragmented reader stands for. -/
def FReader.abs (r : FReader) : Stream := ⟨r.chunks.flatten, r.term⟩

/-- Data is never delivered together with a non-EOF error. -/
def FReader.Fair (r : FReader) : Prop := r.eager = true → r.term = .eof

end Verif.Wire
