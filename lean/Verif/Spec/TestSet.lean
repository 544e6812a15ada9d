import Verif.Spec.Data
/-!
# Specification vocabulary: test sets
-/

namespace Verif

variable {F : Type} [F64 F]

/-- Two test sets with as many labels as rows that hold the same examples, in any order. -/
structure SameExamples (test test' : DataSet F) : Prop where
  count : test.labels.length = test.featureRows.length
  count' : test'.labels.length = test'.featureRows.length
  perm : (test.featureRows.zip test.labels).Perm (test'.featureRows.zip test'.labels)

/-- the examples of one test set and then those of another -/
def DataSet.followedBy (a b : DataSet F) : DataSet F :=
  { featureRows := a.featureRows ++ b.featureRows, labels := a.labels ++ b.labels,
    featureColumns := List.zipWith (· ++ ·) a.featureColumns b.featureColumns }

end Verif
