import Verif.Spec.Tree
/-!
# Specification vocabulary: size of a tree
-/

namespace Verif

variable {F : Type} [F64 F] {L : Type}

/-- The number of nodes of a tree, leaves included. -/
def TreeNode.nodeCount : TreeNode F L → Nat
  | .mk _ (some t) (some f) _ => t.nodeCount + f.nodeCount + 1
  | .mk _ (some t) none _ => t.nodeCount + 1
  | .mk _ none (some f) _ => f.nodeCount + 1
  | .mk _ none none _ => 1

/-- The size of a tree learned from `n` examples with at most `m` levels: one leaf more than questions, no other nodes, at most one leaf
per example, and at most `2 ^ m` leaves. -/
structure SizeBounds (n m : Nat) (tree : TreeNode F L) : Prop where
  leaves_eq : tree.leaves.length = tree.questionCount + 1
  nodes_eq : tree.nodeCount = 2 * tree.questionCount + 1
  leaves_le : tree.leaves.length ≤ n
  leaves_le_pow : tree.leaves.length ≤ 2 ^ m

end Verif
