import Verif.Spec.Data
/-!
# Specification vocabulary: which data can be trained on
-/

namespace Verif

variable {F : Type} [F64 F]

/-- Two tables side by side: all rows have `c` entries (no more than a `u32` can index), all labels have `t` entries, and the columns
are the transposed rows.  The number of rows and the number of labels may differ, and both may be zero. -/
structure DataSet.Tables (d : DataSet F) (c t : Nat) : Prop where
  row_len : ∀ row ∈ d.featureRows, row.length = c
  label_len : ∀ l ∈ d.labels, l.length = t
  cols : d.featureColumns = columnsOf d.featureRows c
  cols_u32 : c ≤ 2 ^ 32

/-- No feature is NaN. -/
def DataSet.NoNaN (d : DataSet F) : Prop := ∀ row ∈ d.featureRows, ∀ x ∈ row, isNaN x = false

end Verif
