import Verif.Spec.NearPerm
import Verif.Spec.NearTrend
import Verif.Spec.NearMean
import Verif.Spec.PowerScale
/-!
# Specification vocabulary: fixed-point labels
-/

namespace Verif

/-- All labels are multiples `z * 2^k` of the same power of two, with integers `z` of at most `b` in absolute value: steps of a half are `k = -1`. -/
def FixedLabels (k : ℤ) (b : ℕ) (labels : List (List B64)) : Prop :=
  ∀ l ∈ labels, ∃ v : List ℤ, l.map B64.val = v.map (fun z => .fin ((2 : ℚ) ^ k * z)) ∧ ∀ z ∈ v, |z| ≤ b

end Verif
