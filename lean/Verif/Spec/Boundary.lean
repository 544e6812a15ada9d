import Verif.Spec.Tree
import Mathlib.Data.Set.Defs
/-!
# Specification vocabulary: where the labels change
-/

namespace Verif

variable {F : Type} [F64 F] {α : Type}

/-- The labels change at the value `v` of feature `j`: some example with this value has another label than some example with this value or
with the next smaller value among the examples. -/
def LabelsChange (es : List (List F × α)) (j : Nat) (v : F) : Prop :=
  ∃ e ∈ es, ∃ e' ∈ es, ∃ w : F, e.1[j]? = some v ∧ e'.1[j]? = some w ∧ (w <=. v) = true ∧
    (∀ a ∈ es, ∀ x : F, a.1[j]? = some x → ¬ ((w <. x) = true ∧ (x <. v) = true)) ∧ e.2 ≠ e'.2

/-- The values of feature `j`, above its smallest value, at which the labels change. -/
def labelChanges (es : List (List F × α)) (j : Nat) : Set F :=
  {v | LabelsChange es j v ∧ ∃ e ∈ es, ∃ u : F, e.1[j]? = some u ∧ (u <. v) = true}

/-- Between the values of two rows in feature `j` the labels of the examples do not change. -/
def SameRun (es : List (List F × α)) (j : Nat) (row row' : List F) : Prop :=
  ∀ v ∈ labelChanges es j, ∀ x x' : F, row[j]? = some x → row'[j]? = some x' → (v <=. x) = (v <=. x')

end Verif
