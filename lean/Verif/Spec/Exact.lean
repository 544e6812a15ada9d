import Verif.Num.Ext
import Verif.Spec.Data
import Verif.Spec.Tree
import Mathlib.Algebra.BigOperators.Group.List.Basic
/-!
# Specification vocabulary: exact arithmetic

Ordinary mathematics on lists over a field: means, variances, squared errors.  `lift` embeds finite numbers into `Ext`.
-/

namespace Verif

variable {K : Type}

/-- a vector of finite numbers -/
def liftV (v : List K) : List (Ext K) := v.map .fin

/-- a list of vectors of finite numbers -/
def lift (vs : List (List K)) : List (List (Ext K)) := vs.map liftV

variable [Field K]

/-- the arithmetic mean -/
def meanOf (xs : List K) : K := xs.sum / xs.length

/-- the sum of squared deviations from a number -/
def sqDev (a : K) (xs : List K) : K := (xs.map (fun x => (x - a) ^ 2)).sum

/-- the (population) variance: the mean squared deviation from the mean -/
def varOf (xs : List K) : K := sqDev (meanOf xs) xs / xs.length

/-- entry `j` of every vector -/
def target (vs : List (List K)) (j : Nat) : List K := vs.map (fun v => v.getD j 0)

/-- the mean vector of vectors with `t` entries -/
def meanVec (t : Nat) (vs : List (List K)) : List K := (List.range t).map (fun j => meanOf (target vs j))

/-- the sum over the `t` targets of their variances -/
def totalVar (t : Nat) (vs : List (List K)) : K := ((List.range t).map (fun j => varOf (target vs j))).sum

/-- the mean over the entries of the squared difference of two vectors -/
def sqErr (p a : List K) : K := (List.zipWith (fun x y => (x - y) ^ 2) p a).sum / p.length

/-- the mean over the rows of `sqErr` -/
def mseOf (ps as : List (List K)) : K := (List.zipWith sqErr ps as).sum / ps.length

section classification
variable [LinearOrder K]

/-- the soft-max of a score vector (with the exponential function of `HasExp`) -/
def softmax [HasExp K] (v : List K) : List K := v.map (fun x => HasExp.exp x / (v.map HasExp.exp).sum)

/-- the residual vectors of a classification ensemble: label minus soft-max of the score vector, row by row -/
def probResid [HasExp K] (ls scores : List (List K)) : List (List K) :=
  List.zipWith (fun l v => List.zipWith (· - ·) l (softmax v)) ls scores

/-- the value a multi-class leaf should hold for its residual vectors: per class `(t-1)/t * Σ r / Σ |r| (1 - |r|)` -/
def classLeaf (t : Nat) (rs : List (List K)) : List K :=
  (List.range t).map (fun j => ((t : K) - 1) / t * ((target rs j).sum / ((target rs j).map (fun x => |x| * (1 - |x|))).sum))

end classification

section question
variable [LinearOrder K] [FloorSemiring K] [HasExp K]

/-- of the examples (row, vector), the vectors of those whose rows take the same way through the tree as `row` -/
def mates {L : Type} (tree : TreeNode (Ext K) L) (es : List (List (Ext K) × List K)) (row : List (Ext K)) : List (List K) :=
  (es.filter (fun e => decide (tree.route e.1 = tree.route row))).map Prod.snd

/-- the labels of the rows that answer a question with yes -/
def yesLabels (rows : List (List (Ext K))) (ls : List (List K)) (q : Question (Ext K)) : List (List K) :=
  ((rows.zip ls).filter (fun e => satisfies q e.1)).map Prod.snd

/-- the labels of the rows that answer a question with no -/
def noLabels (rows : List (List (Ext K))) (ls : List (List K)) (q : Question (Ext K)) : List (List K) :=
  ((rows.zip ls).filter (fun e => !satisfies q e.1)).map Prod.snd

/-- how much asking a question lowers the total variance: the variance of all labels minus the average, weighted with the number
of rows, of the variances of the two groups -/
def varianceReduction (t : Nat) (rows : List (List (Ext K))) (ls : List (List K)) (q : Question (Ext K)) : K :=
  totalVar t ls -
    ((noLabels rows ls q).length * totalVar t (noLabels rows ls q) + (yesLabels rows ls q).length * totalVar t (yesLabels rows ls q))
      / ((noLabels rows ls q).length + (yesLabels rows ls q).length)

/-- every value of the column except the smallest occurs only once -/
def TiesOnlyAtMinimum (col : List (Ext K)) : Prop :=
  ∀ v ∈ col, (∃ w ∈ col, (w <. v) = true) → (col.filter (fun x => x ==. v)).length = 1

end question

end Verif
