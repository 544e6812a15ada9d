import Verif.Spec.Greedy
import Verif.Spec.Relabel
/-!
# Specification vocabulary: another order for the features
-/

namespace Verif

variable {F : Type} [F64 F]

/-- The row with its first `c` features in another order: feature `j` of the new row is feature `σ j` of the old one. -/
def reorderRow (c : Nat) (σ : Nat → Nat) (row : List F) : List F := (List.range c).map (fun j => row.getD (σ j) F64.zero)

/-- The data set with its features in another order. -/
def DataSet.reorderFeatures (d : DataSet F) (c : Nat) (σ : Nat → Nat) : DataSet F :=
  { featureRows := d.featureRows.map (reorderRow c σ), labels := d.labels
    featureColumns := (List.range c).map (fun j => d.featureColumns.getD (σ j) []) }

/-- A question about the reordered features, asked about the original ones. -/
def Question.inOldOrder (σ : Nat → Nat) (q : Question F) : Question F := { column := σ q.column, value := q.value }

/-- The data set reduced to feature `j`. -/
def DataSet.onlyFeature (d : DataSet F) (j : Nat) : DataSet F :=
  { featureRows := d.featureRows.map (fun row => [row.getD j F64.zero]), labels := d.labels, featureColumns := [d.featureColumns.getD j []] }

/-- No other feature is as good as feature `k`: searching each feature alone, every other one finds a strictly smaller gain. -/
def ClearWinner (d : DataSet F) (c t k : Nat) : Prop :=
  ∀ j < c, j ≠ k → ∃ s s', findBestSplit (d.onlyFeature j) t = .ok s ∧ findBestSplit (d.onlyFeature k) t = .ok s' ∧ (s.gain <. s'.gain) = true

/-- At every node of the tree, the feature asked about is the clear winner for the examples that pass there. -/
def NoTiedFeatures {L : Type} (d : DataSet F) (c t : Nat) (tree : TreeNode F L) : Prop :=
  ∀ p q, tree.questionAt p = some q → ∀ dd : DataSet F, dd.WF c t → dd.examples = reaching d tree p → ClearWinner dd c t q.column

end Verif
