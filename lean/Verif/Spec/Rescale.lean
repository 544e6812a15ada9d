import Verif.Spec.Tree
/-!
# Specification vocabulary: rescaled features
-/

namespace Verif

variable {F : Type} [F64 F]

/-- Apply `φ j` to the `j`-th feature of a row. -/
def rescaleRow (φ : Nat → F → F) (row : List F) : List F := row.mapIdx φ

/-- Apply `φ j` to the `j`-th feature of all examples; the labels stay. -/
def DataSet.rescale (φ : Nat → F → F) (d : DataSet F) : DataSet F :=
  { featureRows := d.featureRows.map (rescaleRow φ), labels := d.labels
    featureColumns := d.featureColumns.mapIdx (fun j col => col.map (φ j)) }

/-- The question about the rescaled feature. -/
def Question.rescale (φ : Nat → F → F) (q : Question F) : Question F := { column := q.column, value := φ q.column q.value }

/-- `φ j` preserves the order of the training values of feature `j`: for two such values, `≤` holds after rescaling exactly when it
held before. -/
def KeepsOrder (φ : Nat → F → F) (rows : List (List F)) : Prop :=
  ∀ row ∈ rows, ∀ row' ∈ rows, ∀ (j : Nat) (x y : F), row[j]? = some x → row'[j]? = some y → (φ j x <=. φ j y) = (x <=. y)

/-- `φ j` preserves how the value of feature `j` in `row` compares to the training values. -/
def KeepsPlace (φ : Nat → F → F) (rows : List (List F)) (row : List F) : Prop :=
  ∀ row' ∈ rows, ∀ (j : Nat) (v x : F), row'[j]? = some v → row[j]? = some x → (φ j v <=. φ j x) = (v <=. x)

end Verif
