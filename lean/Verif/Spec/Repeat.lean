import Verif.Spec.Data
/-!
# Specification vocabulary: repeated examples
-/

namespace Verif

/-- every entry `k` times in a row: `[a, b]` becomes `[a, …, a, b, …, b]` -/
def repeatEach {α : Type} (k : Nat) (l : List α) : List α := l.flatMap (List.replicate k)

/-- the data set in which every example stands `k` times in a row -/
def DataSet.repeated {F : Type} (k : Nat) (d : DataSet F) : DataSet F :=
  { featureRows := repeatEach k d.featureRows
    featureColumns := d.featureColumns.map (repeatEach k)
    labels := repeatEach k d.labels }

/-- the data set followed by a copy of itself -/
def DataSet.twice {F : Type} (d : DataSet F) : DataSet F :=
  { featureRows := d.featureRows ++ d.featureRows
    featureColumns := d.featureColumns.map (fun col => col ++ col)
    labels := d.labels ++ d.labels }

end Verif
