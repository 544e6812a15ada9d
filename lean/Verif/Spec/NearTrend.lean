import Verif.Spec.Trend
import Verif.Model.Tree
/-!
# Specification vocabulary: trends of one target, compared as the machine compares
-/

namespace Verif

variable {F : Type} [F64 F]

/-- Of two examples, the one with the smaller feature `f` does not have the larger target `j`. -/
def RisesWith (examples : List (List F × List F)) (f j : ℕ) : Prop :=
  ∀ e ∈ examples, ∀ e' ∈ examples, ∀ a b, e.1[f]? = some a → e'.1[f]? = some b → (a <. b) = true →
    (e.2.getD j F64.zero <=. e'.2.getD j F64.zero) = true

/-- Of two examples, the one with the smaller feature `f` does not have the smaller target `j`. -/
def FallsWith (examples : List (List F × List F)) (f j : ℕ) : Prop :=
  ∀ e ∈ examples, ∀ e' ∈ examples, ∀ a b, e.1[f]? = some a → e'.1[f]? = some b → (a <. b) = true →
    (e'.2.getD j F64.zero <=. e.2.getD j F64.zero) = true

/-- what a regression tree predicts for a row: the average label of the leaf -/
def treePredicts (tree : TreeNode F (RegressionLeaf F)) (row a : List F) : Prop :=
  ∃ dd, findLeafNodeForData row tree = .ok { data := some dd } ∧ calculateAverageLabelVector dd.labels = .ok a

end Verif
