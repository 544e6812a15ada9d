import Verif.Num.B64
import Verif.Spec.Data
/-!
# Specification vocabulary: one more target, with the same value in all labels
-/

namespace Verif

/-- `l'` is the vector `l` with one more entry at position `i`, of the value `x`. -/
def WithEntry (i : ℕ) (x : ℤ) (l l' : List B64) : Prop :=
  i ≤ l.length ∧ ∃ y : B64, y.val = .fin (x : ℚ) ∧ l' = l.take i ++ y :: l.drop i

/-- The same rows; all labels have one more entry at position `i`, of the value `x`. -/
structure WithTarget (i : ℕ) (x : ℤ) (d d' : DataSet B64) : Prop where
  rows : d'.featureRows = d.featureRows
  columns : d'.featureColumns = d.featureColumns
  labels : List.Forall₂ (WithEntry i x) d.labels d'.labels

/-- The sum of `n` squares of `x` is at most `2^53`.  For example, ten million rows and a value of 30000; or any number of rows up to `2^53` and the
value zero. -/
structure ExactConst (n : ℕ) (x : ℤ) : Prop where
  rows : n ≤ 2 ^ 53
  square : n * x ^ 2 ≤ 2 ^ 53

/-- The number of class `k` after a further class has been given the number `i`. -/
def renumber (i k : ℕ) : ℕ := if k < i then k else k + 1

end Verif
