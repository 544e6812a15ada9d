import Verif.Spec.Exact
/-!
# Specification vocabulary: how much the questions of a tree contribute
-/

namespace Verif

variable {K : Type} [Field K] [LinearOrder K] [FloorSemiring K] [HasExp K] {L : Type}

/-- the examples whose way through the tree passes position `p` -/
def passing (tree : TreeNode (Ext K) L) (es : List (List (Ext K) × List K)) (p : List Bool) : List (List (Ext K) × List K) :=
  es.filter (fun e => p.isPrefixOf (tree.route e.1))

/-- what the question at position `p` contributes: the number of examples that are asked it, times its reduction of the variance of their
labels; nothing at a leaf -/
def credit (t : Nat) (tree : TreeNode (Ext K) L) (es : List (List (Ext K) × List K)) (p : List Bool) : K :=
  match tree.questionAt p with
  | none => 0
  | some q => (passing tree es p).length *
      varianceReduction t ((passing tree es p).map Prod.fst) ((passing tree es p).map Prod.snd) q

/-- the sum of the contributions of all questions of a tree -/
def creditSum (t : Nat) (tree : TreeNode (Ext K) L) (es : List (List (Ext K) × List K)) : K :=
  (tree.preorder.map (credit t tree es)).sum

/-- the sum of the contributions of the questions about feature `j` -/
def creditOf (t : Nat) (tree : TreeNode (Ext K) L) (es : List (List (Ext K) × List K)) (j : Nat) : K :=
  ((tree.preorder.filter (fun p => (tree.questionAt p).any (fun q => q.column == j))).map (credit t tree es)).sum

end Verif
