import Verif.Num.B64
import Verif.Spec.Exact
import Verif.Spec.Greedy
/-!
# Specification vocabulary: binary64 against exact arithmetic

Binary64 numbers have exact rational values; what the program should compute from them is ordinary mathematics on those values.
-/

namespace Verif

/-- the data set, each number replaced by its exact value -/
def DataSet.exact (d : DataSet B64) : DataSet (Ext ℚ) :=
  { featureRows := d.featureRows.map (List.map B64.val)
    labels := d.labels.map (List.map B64.val)
    featureColumns := d.featureColumns.map (List.map B64.val) }

/-- the question, with the exact value of its threshold -/
def Question.exact (q : Question B64) : Question (Ext ℚ) := { column := q.column, value := q.value.val }

/-- all entries are at most `B` in absolute value -/
def AtMost (B : ℚ) (vs : List (List ℚ)) : Prop := ∀ v ∈ vs, ∀ x ∈ v, |x| ≤ B

/-- at most `2^24` rows, and a bound `B` for the labels that is far from the ends of the range of binary64 -/
structure Scale (n : ℕ) (B : ℚ) : Prop where
  rows : n ≤ 2 ^ 24
  lower : 1 / 2 ^ 400 ≤ B
  upper : B ≤ 2 ^ 400

/-- how far the gain of a split can be off because of rounding: `2^-44 * t * (n + t) * B^2` for `n` rows and `t` targets with
labels up to `B` -/
def splitTolerance (n t : ℕ) (B : ℚ) : ℚ := t * (n + t) * B ^ 2 / 2 ^ 44

/-- how far the average of `n` labels can be off because of rounding: `2^-50 * n * B` -/
def averageTolerance (n : ℕ) (B : ℚ) : ℚ := n * B / 2 ^ 50

/-- the exact values of a vector with integer entries -/
def ofInts (v : List ℤ) : List (Ext ℚ) := liftV (List.map (fun x : ℤ => (x : ℚ)) v)

/-- up to `n` labels `x` have sums, and sums of squares, that binary64 represents exactly -/
structure SmallInt (n : ℕ) (x : ℤ) : Prop where
  count : n ≤ 2 ^ 53
  square : n * x ^ 2 ≤ 2 ^ 53

/-- how far the mean squared error of `n` predictions with `t` targets can be off, relative to its exact value `mse`, if predictions
and labels are at most `B`: `2^-52 * (n + t + 4) * mse`, and `2^-1065 * (B + 1)` for the smallest numbers -/
def scoreTolerance (n t : ℕ) (B mse : ℚ) : ℚ := (n + t + 4) * mse / 2 ^ 52 + (B + 1) / 2 ^ 1065

/-- how far the mean squared error of a tree can be off, with `n` training rows, `m` test rows, `t` targets and labels up to `B`:
`2^-46 * (n + m + t + 4) * B^2` -/
def treeScoreTolerance (n m t : ℕ) (B : ℚ) : ℚ := (n + m + t + 4) * B ^ 2 / 2 ^ 46

/-- the exact raw scores of an ensemble: the initial guess plus the learning rate times the sum of the outputs of the trees -/
def exactScores (guess : List ℚ) (lr : ℚ) (outs : List (List ℚ)) : List ℚ :=
  guess.mapIdx (fun j x => x + lr * (target outs j).sum)

/-- how far the raw scores of `k` trees can be off, if the initial guess and the weighted outputs are at most `B`:
`2^-53 * k * (k + 4) * B` -/
def rawTolerance (k : ℕ) (B : ℚ) : ℚ := k * (k + 4) * B / 2 ^ 53

/-- at most `2^24` rows and targets, labels up to `B` far from the ends of the range of binary64, and not too many iterations for these
rows -/
structure BoostScale (n t k : ℕ) (B : ℚ) : Prop where
  rows : n ≤ 2 ^ 24
  target : 1 ≤ t
  targets : t ≤ 2 ^ 24
  iterations : n ^ 2 * t * k ≤ 2 ^ 41
  lower : 1 / 2 ^ 400 ≤ B
  upper : B ≤ 2 ^ 370

/-- how much the mean squared error of the predictions for `n` training rows with `t` targets and labels up to `B` can grow in one
iteration because of rounding: `2^-39 * n^2 * t * B^2` -/
def boostTolerance (n t : ℕ) (B : ℚ) : ℚ := n ^ 2 * t * B ^ 2 / 2 ^ 39

/-- how far the averages of the predictions for `n` training rows can be from the averages of their labels after `k` iterations, with
`t` targets and labels up to `B`: `2^-45 * (k + 1) * n^2 * t * B` -/
def meanTolerance (n t k : ℕ) (B : ℚ) : ℚ := (k + 1) * n ^ 2 * t * B / 2 ^ 45

/-- how far a prediction can be from satisfying a linear equation that all labels satisfy, after `k` iterations on `n` rows with labels
up to `B`, if the absolute values of the `t` coefficients add up to `W`: `2^-43 * (k + 1)^2 * n^2 * t * W * B` -/
def equationTolerance (n t k : ℕ) (W B : ℚ) : ℚ := (k + 1) ^ 2 * n ^ 2 * t * W * B / 2 ^ 43

/-- how far the raw scores of `k` AMG trees for `t` classes can be from adding up to the total of the initial guess, if the guess and
the weighted outputs are at most `B`: `2^-53 * t * k * (k + 6) * B` -/
def totalTolerance (t k : ℕ) (B : ℚ) : ℚ := t * (k * (k + 6)) * B / 2 ^ 53

/-- how much the computed score can grow: `2^-38 * n * t * (n + t) * B^2` -/
def boostScoreTolerance (n t : ℕ) (B : ℚ) : ℚ := n * t * (n + t) * B ^ 2 / 2 ^ 38

/-- At every position of the tree, consider the exact values of the examples that pass there.  If there is a leaf although fewer than
`m` questions were asked, no question reduces the variance of the labels by more than the tolerance.  If there is a question whose
threshold occurs only once, no question reduces the variance by more than twice the tolerance more. -/
def NearGreedy [B64Env] {L : Type} (d : DataSet B64) (c t m : ℕ) (B : ℚ) (tree : TreeNode B64 L) : Prop :=
  ∀ p, (tree.subtreeAt p).isSome →
    ∃ ls, (reaching d tree p).map (fun e => e.2.map B64.val) = lift ls ∧ ls ≠ [] ∧
      (tree.questionAt p = none → p.length < m → ∀ q : Question (Ext ℚ), q.column < c →
        varianceReduction t ((reaching d tree p).map (fun e => e.1.map B64.val)) ls q ≤ splitTolerance ls.length t B) ∧
      (∀ q, tree.questionAt p = some q →
        ((column ((reaching d tree p).map Prod.fst) q.column).filter (fun x => x ==. q.value)).length = 1 →
        ∀ q' : Question (Ext ℚ), q'.column < c →
          varianceReduction t ((reaching d tree p).map (fun e => e.1.map B64.val)) ls q' ≤
            varianceReduction t ((reaching d tree p).map (fun e => e.1.map B64.val)) ls q.exact + 2 * splitTolerance ls.length t B)

/-- Wherever the tree asks a question, two of the examples that arrive have labels of different value. -/
def AsksForMixedLabels [B64Env] {L : Type} (d : DataSet B64) (tree : TreeNode B64 L) : Prop :=
  ∀ p q, tree.questionAt p = some q →
    ∃ e ∈ reaching d tree p, ∃ e' ∈ reaching d tree p, e.2.map B64.val ≠ e'.2.map B64.val

end Verif
