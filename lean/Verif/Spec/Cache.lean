import Verif.Model.Cache
/-!
# Caches (specification)
-/
namespace Necessist.Cache

/-- The earliest success for `k` among `rs`. -/
def IsFirst {κ ν ε} (rs : List (κ × Except ε ν)) (k : κ) (v : ν) : Prop :=
  ∃ before after, rs = before ++ (k, .ok v) :: after ∧ ∀ v', (k, .ok v') ∉ before

end Necessist.Cache
