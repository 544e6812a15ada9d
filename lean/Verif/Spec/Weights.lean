import Verif.Spec.Exact
/-!
# Specification vocabulary: the weights of the training examples in a prediction
-/

namespace Verif

variable {F : Type} [F64 F] {L : Type} {K : Type} [Field K]

/-- the numbers of the rows that take the same way through the tree as `row` -/
def inLeaf (rows : List (List F)) (tree : TreeNode F L) (row : List F) : List Nat :=
  (List.range rows.length).filter (fun k => decide (tree.route (rows.getD k []) = tree.route row))

/-- The weight of the `i`-th of the training rows `rows` in the prediction for `row` of an ensemble with these trees, the latest first.  Without
trees all rows count the same.  A tree moves the weights by `lr` times the average, over the training rows `k` in the leaf of `row`, of what
the weights of `k` still lack to the row `k` alone. -/
def weight (rows : List (List F)) (lr : K) : List (TreeNode F L) → List F → Nat → K
  | [], _, _ => 1 / rows.length
  | tree :: earlier, row, i =>
    weight rows lr earlier row i +
      lr * meanOf ((inLeaf rows tree row).map (fun k => (if k = i then 1 else 0) - weight rows lr earlier (rows.getD k []) i))

omit [F64 F] in
/-- the sum of the label vectors, of `t` entries each, with the weights `w` -/
def weightedLabels (t : Nat) (w : Nat → K) (ls : List (List K)) : List K :=
  (List.range t).map (fun j => ((List.range ls.length).map (fun i => w i * (ls.getD i []).getD j 0)).sum)

omit [Field K] in
/-- two lists of trees that ask the same questions -/
def AlikeTrees {L' : Type} (trees : List (TreeNode F L)) (trees' : List (TreeNode F L')) : Prop :=
  List.Forall₂ (fun tree tree' => ∀ p, tree'.questionAt p = tree.questionAt p) trees trees'

end Verif
