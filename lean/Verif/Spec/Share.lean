import Verif.Spec.Data
/-!
# Specification vocabulary: one target of a data set
-/

namespace Verif

variable {F : Type} [F64 F]

/-- The same training rows with target `j` as their only label. -/
def DataSet.only (d : DataSet F) (j : Nat) : DataSet F :=
  { d with labels := d.labels.map (fun l => [l.getD j F64.zero]) }

end Verif
