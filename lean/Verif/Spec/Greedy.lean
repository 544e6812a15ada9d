import Verif.Spec.Tree
/-!
# Specification vocabulary: greedy growth

What "the tree was grown greedily to `m` levels from these examples" means, position by position.
-/

namespace Verif

variable {F : Type} [F64 F] {L : Type}

/-- The examples whose way through the tree passes position `p`, in their original order. -/
def reaching (d : DataSet F) (tree : TreeNode F L) (p : List Bool) : List (List F × List F) :=
  d.examples.filter (fun e => p.isPrefixOf (tree.route e.1))

/-- `tree` is grown greedily from `d` (with `c` features and `t` targets) to `m` levels.  At every position of the tree there is a
well-formed data set consisting of exactly the examples that pass there, the split search succeeds on it, and the node there asks
precisely the question found, except that it is a leaf if `m` questions were already asked or the gain found is zero. -/
def GrownGreedily (d : DataSet F) (c t m : Nat) (tree : TreeNode F L) : Prop :=
  ∀ p, (tree.subtreeAt p).isSome →
    ∃ (dd : DataSet F) (s : BestSplitResult F), dd.WF c t ∧ dd.examples = reaching d tree p ∧ findBestSplit dd t = .ok s ∧
      tree.questionAt p = if p.length < m ∧ (s.gain ==. F64.zero) = false then some s.question else none

end Verif
