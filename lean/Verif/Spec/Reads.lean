import Verif.Spec.Tree
/-!
# What a prediction reads

The questions a row is asked on its way through a tree.
-/

namespace Verif

variable {F : Type} [F64 F] {L : Type}

/-- The questions that a row is asked on its way from the root to a leaf, in this order. -/
def TreeNode.questionsFor (row : List F) : TreeNode F L → List (Question F)
  | .mk q (some t) (some f) _ => q :: (if satisfies q row then t.questionsFor row else f.questionsFor row)
  | .mk _ _ _ _ => []

/-- The row has all features that the tree asks it about. -/
def HasAskedFeatures (tree : TreeNode F L) (row : List F) : Prop := ∀ q ∈ tree.questionsFor row, q.column < row.length

/-- `row'` has the same entries as `row` in all columns that the tree asks `row` about (a column missing in one is missing in the other). -/
def SameWhereAsked (tree : TreeNode F L) (row row' : List F) : Prop := ∀ q ∈ tree.questionsFor row, row[q.column]? = row'[q.column]?

end Verif
