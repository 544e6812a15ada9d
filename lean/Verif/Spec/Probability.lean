import Verif.Num.B64
import Verif.Model.Boost
/-!
# Specification vocabulary: class probabilities in binary64
-/

namespace Verif

/-- The exponentials of the scores are not negative, and their total, as the program adds them up, is from `2^-1022` to `2^1022`.  With a
faithful exponential this is so for scores from -708 to 708 (and up to 2^24 classes from -708 to 691). -/
def ScoresInRange [B64Env] (v : List B64) : Prop :=
  (∀ x ∈ v, (F64.zero <=. F64.exp x) = true) ∧
    ∃ s : ℚ, (fsum (v.map F64.exp)).val = .fin s ∧ 1 / 2 ^ 1022 ≤ s ∧ s ≤ 2 ^ 1022

/-- The scores of all training rows are in range while the trees are trained: before each tree. -/
def TrainedInRange [B64Env] (d : DataSet B64) (m : BoostModel B64 (GradBoostLeaf B64)) : Prop :=
  ∀ k < m.trees.length, ∀ row ∈ d.featureRows, ∀ raw,
    predictInstance row (m.trees.take k) m.initialGuess m.learningRate = .ok raw → ScoresInRange raw

/-- how far one of `n` probabilities can be off, if its exact value is `p`: `2^-52 * (n + 2) * p`, and `2^-1075` for the smallest numbers -/
def probTolerance (n : ℕ) (p : ℚ) : ℚ := (n + 2) * p / 2 ^ 52 + 1 / 2 ^ 1075

end Verif
