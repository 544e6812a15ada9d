import Verif.Spec.Poison
/-!
# Specification vocabulary: the variance of no labels
-/

namespace Verif

/-- How IEEE arithmetic evaluates the variance of no labels, `(0 - 0·(0·0)) / 0`: the result is NaN. -/
class LawfulEmpty (F : Type) [F64 F] : Prop extends LawfulPoison F where
  empty_variance : isNaN ((F64.zero -. F64.zero *. (F64.zero *. F64.zero) : F) /. F64.zero) = true

end Verif
