import Verif.Spec.Data
/-!
# Specification vocabulary: where a row lies among the training rows
-/

namespace Verif

variable {F : Type} [F64 F]

/-- `v` occurs as value of feature `j` in the training rows, and so does a smaller value. -/
def InnerValue (rows : List (List F)) (j : Nat) (v : F) : Prop :=
  (∃ r ∈ rows, r[j]? = some v) ∧ ∃ r ∈ rows, ∃ u, r[j]? = some u ∧ (u <. v) = true

/-- Two rows lie in the same place among the training rows: in every feature, no training value other than the smallest one tells them
apart (is at most the value of one of them, but not of the other). -/
def SamePlace (rows : List (List F)) (row row' : List F) : Prop :=
  ∀ (j : Nat) (v x y : F), InnerValue rows j v → row[j]? = some x → row'[j]? = some y → (v <=. x) = (v <=. y)

/-- The value of feature `j` is below all training values of this feature, equal to the smallest one, or NaN. -/
def AtBottom (rows : List (List F)) (j : Nat) (x : F) : Prop :=
  isNaN x = true ∨ ∀ r ∈ rows, ∀ v, r[j]? = some v → (x <=. v) = true

/-- The value of feature `j` is above all training values of this feature or equal to the largest one. -/
def AtTop (rows : List (List F)) (j : Nat) (x : F) : Prop :=
  ∀ r ∈ rows, ∀ v, r[j]? = some v → (v <=. x) = true

end Verif
