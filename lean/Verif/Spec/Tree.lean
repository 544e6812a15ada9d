import Verif.Spec.Data
import Verif.Model.Tree
/-!
# Specification vocabulary: trees

Read-only views of a tree: where a row goes, what is found at a position, which leaves there are.  A *position* is the list of
answers (true / false) given on the way down.
-/

namespace Verif

variable {F : Type} [F64 F] {L : Type}

namespace TreeNode

/-- A node as the library builds them: either a leaf (no branches, leaf data present) or an internal node (both branches
present, no leaf data). -/
inductive Proper : TreeNode F L → Prop where
  | leaf (q : Question F) (l : L) : Proper (.mk q none none (some l))
  | node (q : Question F) (t f : TreeNode F L) : Proper t → Proper f → Proper (.mk q (some t) (some f) none)

/-- The largest number of questions on a path from the root to a leaf. -/
def depth : TreeNode F L → Nat
  | .mk _ (some t) (some f) _ => max t.depth f.depth + 1
  | .mk _ (some t) none _ => t.depth + 1
  | .mk _ none (some f) _ => f.depth + 1
  | .mk _ none none _ => 0

/-- All leaves, true branch first. -/
def leaves : TreeNode F L → List L
  | .mk _ (some t) (some f) _ => t.leaves ++ f.leaves
  | .mk _ _ _ l => l.toList

/-- The number of internal nodes (questions). -/
def questionCount : TreeNode F L → Nat
  | .mk _ (some t) (some f) _ => t.questionCount + f.questionCount + 1
  | .mk _ _ _ _ => 0

/-- Apply a function to the data of every leaf; questions and shape stay. -/
def mapLeaves {L' : Type} (g : L → L') : TreeNode F L → TreeNode F L'
  | .mk q t f l => .mk q (match t with | some t => some (t.mapLeaves g) | none => none)
      (match f with | some f => some (f.mapLeaves g) | none => none) (l.map g)

/-- The answers given on the way of a row from the root to a leaf. -/
def route (row : List F) : TreeNode F L → List Bool
  | .mk q (some t) (some f) _ => if satisfies q row then true :: t.route row else false :: f.route row
  | .mk _ _ _ _ => []

/-- The leaf at a position, if the position is that of a leaf. -/
def leafAt : TreeNode F L → List Bool → Option L
  | .mk _ (some t) (some _) _, true :: p => t.leafAt p
  | .mk _ (some _) (some f) _, false :: p => f.leafAt p
  | .mk _ none none l, [] => l
  | _, _ => none

/-- The question asked at a position, if the position is that of an internal node. -/
def questionAt : TreeNode F L → List Bool → Option (Question F)
  | .mk q (some _) (some _) _, [] => some q
  | .mk _ (some t) (some _) _, true :: p => t.questionAt p
  | .mk _ (some _) (some f) _, false :: p => f.questionAt p
  | _, _ => none

/-- The subtree at a position. -/
def subtreeAt : TreeNode F L → List Bool → Option (TreeNode F L)
  | tree, [] => some tree
  | .mk _ (some t) (some _) _, true :: p => t.subtreeAt p
  | .mk _ (some _) (some f) _, false :: p => f.subtreeAt p
  | _, _ => none

/-- All positions of a tree: a node before its branches, the true branch before the false branch. -/
def preorder : TreeNode F L → List (List Bool)
  | .mk _ (some t) (some f) _ => [] :: (t.preorder.map (true :: ·) ++ f.preorder.map (false :: ·))
  | .mk _ _ _ _ => [[]]

end TreeNode

/-- The labels of the training examples that take the same path through the tree as `row`. -/
def companions {L : Type} (d : DataSet F) (tree : TreeNode F L) (row : List F) : List (List F) :=
  (d.examples.filter (fun e => decide (tree.route e.1 = tree.route row))).map Prod.snd

end Verif
