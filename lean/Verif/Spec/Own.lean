import Verif.Model.Own
import Verif.Spec.Exact
import Verif.Spec.Tree
/-!
# Specification vocabulary: a leaf output function of the caller
-/

namespace Verif

variable {K : Type} [Field K] [LinearOrder K] [IsStrictOrderedRing K] [FloorSemiring K] [HasExp K]

/-- On data of `c` features and `t` targets with finite labels, `own` returns a finite vector with one number for each target, and the labels
are, in the mean square, not further from this vector than from the zero vector. -/
def LeafOutputCalculator.Helps (own : LeafOutputCalculator (Ext K)) (c t : Nat) : Prop :=
  ∀ (dd : DataSet (Ext K)) (rs : List (List K)), dd.WF c t → dd.labels = lift rs →
    ∃ o : List K, own.calculate dd = .ok (liftV o) ∧ o.length = t ∧
      (rs.map (fun r => sqErr r o)).sum ≤ (rs.map (fun r => sqErr r (List.replicate t 0))).sum

/-- What remains of the labels `ls` after the predictions `ps`. -/
def remaining (ls ps : List (List K)) : List (List K) := List.zipWith (List.zipWith (fun l p => l - p)) ls ps

/-- A boosting loop a caller could write from the public functions: regression boosting with the caller's split finder and leaf output
function. -/
def ownLoop {F : Type} [F64 F] (find : SplitFinder F) (own : LeafOutputCalculator F) (t : TrainingData F) (numberOfIterations : Nat) (cfg : TreeConfig)
    (learningRate : F) : R (TrainingData F × List (TreeNode F (GradBoostLeaf F))) :=
  forRange numberOfIterations (fun _ s => do
    let (t, trees) := s
    let residuals ← regressionResiduals t
    let tree ← gradBoostTreeNewOwn { t.data with labels := residuals } { cfg with splitFinder := find } own
    let t ← updateDatasetLabels t tree learningRate
    pure (t, trees ++ [tree])) (t, [])

end Verif
