import Verif.Spec.Data
/-!
# Specification vocabulary: rows composed of training values
-/

namespace Verif

variable {F : Type} [F64 F]

/-- `v` is the value of feature `j` in some training row. -/
def TrainingValue (rows : List (List F)) (j : Nat) (v : F) : Prop :=
  ∃ r ∈ rows, r[j]? = some v

/-- A row of `c` features, each with a value that occurs in the training rows (not all in the same row, perhaps). -/
def OnGrid (rows : List (List F)) (c : Nat) (row : List F) : Prop :=
  row.length = c ∧ ∀ j < c, ∃ v, row[j]? = some v ∧ TrainingValue rows j v

end Verif
