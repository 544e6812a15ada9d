import Verif.Spec.Exact
/-!
# Specification vocabulary: the Gini impurity
-/

namespace Verif

variable {K : Type} [Field K]

/-- the Gini impurity of a list of classes: the share of pairs of examples, drawn with replacement, that have different classes -/
def gini (cs : List Nat) : K := ((cs.map (fun a => cs.countP (fun b => decide (b ≠ a)))).sum : Nat) / (cs.length : K) ^ 2

variable [LinearOrder K] [FloorSemiring K] [HasExp K]

/-- the classes of the rows that answer a question with `answer` -/
def classesWith (rows : List (List (Ext K))) (cs : List Nat) (q : Question (Ext K)) (answer : Bool) : List Nat :=
  ((rows.zip cs).filter (fun e => satisfies q e.1 == answer)).map Prod.snd

/-- how much asking a question lowers the impurity: the impurity of all classes minus the average, weighted with the number of rows, of the
impurities of the two groups -/
def giniDecrease (rows : List (List (Ext K))) (cs : List Nat) (q : Question (Ext K)) : K :=
  gini cs - ((classesWith rows cs q true).length * gini (classesWith rows cs q true) +
    (classesWith rows cs q false).length * gini (classesWith rows cs q false)) / cs.length

/-- the classes of the examples whose rows take the same way through a tree as `row` -/
def leafClasses {L : Type} (tree : TreeNode (Ext K) L) (rows : List (List (Ext K))) (cs : List Nat) (row : List (Ext K)) : List Nat :=
  ((rows.zip cs).filter (fun e => decide (tree.route e.1 = tree.route row))).map Prod.snd

end Verif
