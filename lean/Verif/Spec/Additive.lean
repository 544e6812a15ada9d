import Verif.Num.Real
import Verif.Spec.Exact
/-!
# Specification vocabulary: additive predictions
-/

namespace Verif

/-- Predictions that are, for each of the `t` targets, a sum of arbitrary functions of the single features: `φ p x j` is what the value `x` of
feature `p` contributes to target `j`. -/
noncomputable def additive (c t : Nat) (φ : Nat → Ext ℝ → Nat → ℝ) (row : List (Ext ℝ)) : List ℝ :=
  (List.range t).map (fun j => ((List.range c).map (fun p => φ p (row.getD p F64.zero) j)).sum)

end Verif
