import Verif.Spec.Exact
import Verif.Num.Real
import Mathlib.Analysis.SpecialFunctions.Log.Basic
/-! # Vocabulary: the log loss of scores -/

namespace Verif

/-- The log loss (cross-entropy) of a score vector for a label: `- Σ_j y_j log p_j` with the soft-max probabilities `p`. -/
noncomputable def rowLoss (l v : List ℝ) : ℝ := -(List.zipWith (fun y p => y * Real.log p) l (softmax v)).sum

/-- The total log loss of the score vectors of all rows. -/
noncomputable def logLoss (ls scores : List (List ℝ)) : ℝ := (List.zipWith rowLoss ls scores).sum

/-- The learning rate is at most every probability the scores give to a class, and at most every complementary probability. -/
def RateBelow (lr : ℝ) (scores : List (List ℝ)) : Prop := ∀ v ∈ scores, ∀ p ∈ softmax v, lr ≤ p ∧ lr ≤ 1 - p

end Verif
