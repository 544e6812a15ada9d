import Verif.Spec.Tree
/-!
# Specification vocabulary: features that add nothing
-/

namespace Verif

variable {F : Type} [F64 F]

/-- Remove feature `k` from all examples. -/
def DataSet.dropFeature (d : DataSet F) (k : Nat) : DataSet F :=
  { featureRows := d.featureRows.map (fun row => row.eraseIdx k), labels := d.labels, featureColumns := d.featureColumns.eraseIdx k }

/-- The number feature `i` had before feature `k` was removed. -/
def originalFeature (k i : Nat) : Nat := if i < k then i else i + 1

/-- The question about the same feature in the data with feature `k`. -/
def Question.original (k : Nat) (q : Question F) : Question F := { column := originalFeature k q.column, value := q.value }

/-- All rows have the same value of feature `k`. -/
def ConstantFeature (rows : List (List F)) (k : Nat) : Prop :=
  ∀ row ∈ rows, ∀ row' ∈ rows, ∀ x x' : F, row[k]? = some x → row'[k]? = some x' → (x ==. x') = true

/-- Features `j` and `k` order the rows in the same way (in particular, if they are equal or a monotone function of each other). -/
def SameOrder (rows : List (List F)) (j k : Nat) : Prop :=
  ∀ row ∈ rows, ∀ row' ∈ rows, ∀ x x' y y' : F, row[j]? = some x → row'[j]? = some x' → row[k]? = some y → row'[k]? = some y' →
    (y <=. y') = (x <=. x')

/-- Feature `k` is constant, or orders the rows like an earlier feature. -/
def RedundantFeature (rows : List (List F)) (k : Nat) : Prop := ConstantFeature rows k ∨ ∃ j < k, SameOrder rows j k

/-- The trees may ask no question, or all training rows agree in all `c` features. -/
def NothingToAsk (rows : List (List F)) (c maxLevels : Nat) : Prop :=
  maxLevels = 0 ∨ ∀ j < c, ConstantFeature rows j

/-- `tree` is a single leaf holding `leaf`. -/
def SingleLeaf {L : Type} (tree : TreeNode F L) (leaf : L) : Prop := ∀ row : List F, tree.route row = [] ∧ findLeafNodeForData row tree = .ok leaf

end Verif
