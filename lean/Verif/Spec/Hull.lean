import Verif.Spec.Exact
/-!
# Specification vocabulary: linear constraints on label vectors
-/

namespace Verif

variable {K : Type} [Field K]

/-- the weighted sum of the first `t` entries of a vector -/
def weighted (t : Nat) (w : Nat → K) (v : List K) : K := ((List.range t).map (fun j => w j * v.getD j 0)).sum

end Verif
