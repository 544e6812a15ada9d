import Verif.Spec.Gini
import Verif.Spec.NearBest
/-!
# Specification vocabulary: the Gini impurity in binary64
-/

namespace Verif

/-- the classes `cs` of those examples that pass position `p` of the tree -/
def classesAt [B64Env] {L : Type} (d : DataSet B64) (cs : List ℕ) (tree : TreeNode B64 L) (p : List Bool) : List ℕ :=
  ((d.featureRows.zip cs).filter (fun e => p.isPrefixOf (tree.route e.1))).map Prod.snd

/-- the exact values of the features of these examples -/
def featuresAt [B64Env] {L : Type} (d : DataSet B64) (tree : TreeNode B64 L) (p : List Bool) : List (List (Ext ℚ)) :=
  (d.featureRows.filter (fun row => p.isPrefixOf (tree.route row))).map (List.map B64.val)

/-- At every position of the tree, consider the examples that pass there.  If there is a leaf although fewer than `m` questions were asked, no
question lowers the impurity of their classes.  If there is a question whose threshold occurs only once among them, no question lowers the impurity
by more. -/
def GiniGreedy [B64Env] {L : Type} (d : DataSet B64) (cs : List ℕ) (c m : ℕ) (tree : TreeNode B64 L) : Prop :=
  ∀ p, (tree.subtreeAt p).isSome →
    (tree.questionAt p = none → p.length < m → ∀ q : Question (Ext ℚ), q.column < c →
      giniDecrease (featuresAt d tree p) (classesAt d cs tree p) q ≤ (0 : ℚ)) ∧
    (∀ q, tree.questionAt p = some q → ((column (featuresAt d tree p) q.column).filter (fun x => x ==. q.value.val)).length = 1 →
      ∀ q' : Question (Ext ℚ), q'.column < c →
        giniDecrease (featuresAt d tree p) (classesAt d cs tree p) q' ≤ (giniDecrease (featuresAt d tree p) (classesAt d cs tree p) q.exact : ℚ))

end Verif
