import Verif.Model.Span
/-! # Paths (specification) -/
namespace Necessist

/-- Path components as they occur in a relative path on disk. -/
def SourceFile.WellFormed (f : SourceFile) : Prop :=
  f.path ≠ [] ∧ ∀ x ∈ f.path, x ≠ [] ∧ x ≠ ['.'] ∧ '/' ∉ x

end Necessist
