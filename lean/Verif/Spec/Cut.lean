import Verif.Spec.Exact
/-!
# Specification vocabulary: cuts of the ordered rows

The split search orders the rows by a feature (rows with equal values by their position) and cuts this order at some row.  Where
feature values are repeated, a cut is not the same as a question.
-/

namespace Verif

variable {K : Type} [Field K] [LinearOrder K] [FloorSemiring K] [HasExp K]

/-- Row `a` comes before row `b` when the rows are ordered by feature `j`, rows with equal values by position. -/
def comesBefore (rows : List (List (Ext K))) (j a b : Nat) : Bool :=
  ((column rows j).getD a F64.zero <. (column rows j).getD b F64.zero) ||
    (((column rows j).getD a F64.zero ==. (column rows j).getD b F64.zero) && decide (a < b))

/-- the labels of the rows that come before row `r` -/
def labelsBefore (rows : List (List (Ext K))) (ls : List (List K)) (j r : Nat) : List (List K) :=
  ((List.range rows.length).filter (fun a => comesBefore rows j a r)).map (fun a => ls.getD a [])

/-- the labels of row `r` and of the rows after it -/
def labelsFrom (rows : List (List (Ext K))) (ls : List (List K)) (j r : Nat) : List (List K) :=
  ((List.range rows.length).filter (fun a => !comesBefore rows j a r)).map (fun a => ls.getD a [])

/-- how much cutting the ordered rows just before row `r` lowers the total variance -/
def cutReduction (t : Nat) (rows : List (List (Ext K))) (ls : List (List K)) (j r : Nat) : K :=
  totalVar t ls -
    ((labelsBefore rows ls j r).length * totalVar t (labelsBefore rows ls j r) +
      (labelsFrom rows ls j r).length * totalVar t (labelsFrom rows ls j r))
      / ((labelsBefore rows ls j r).length + (labelsFrom rows ls j r).length)

/-- the cuts that are considered: before every row whose value is not the smallest of the column -/
def IsCut (rows : List (List (Ext K))) (j r : Nat) : Prop :=
  r < rows.length ∧ ∃ a < rows.length, ((column rows j).getD a F64.zero <. (column rows j).getD r F64.zero) = true

/-- A search result that reports the best cut: its gain is the largest variance reduction of any cut; if that is not positive, the
result is the gain zero with the question "feature 0 at least 0"; otherwise the question is about the value at which the first
best cut happens (lowest feature number, then first in the order of the rows). -/
def ReportsBestCut (c t : Nat) (rows : List (List (Ext K))) (ls : List (List K)) (s : BestSplitResult (Ext K)) : Prop :=
  ∃ g : K, s.gain = .fin g ∧
    (∀ j r, j < c → IsCut rows j r → cutReduction t rows ls j r ≤ g) ∧
    ((g = 0 ∧ s.question = { column := 0, value := F64.zero }) ∨
     (0 < g ∧ s.question.column < c ∧
      ∃ r, IsCut rows s.question.column r ∧ s.question.value = (column rows s.question.column).getD r F64.zero ∧
        g = cutReduction t rows ls s.question.column r ∧
        (∀ j r', j < s.question.column → IsCut rows j r' → cutReduction t rows ls j r' < g) ∧
        (∀ r', IsCut rows s.question.column r' → comesBefore rows s.question.column r' r = true →
          cutReduction t rows ls s.question.column r' < g)))

end Verif
