import Verif.Spec.Exact
/-!
# Specification vocabulary: fitting the training data
-/

namespace Verif

section
variable {F : Type} [F64 F]

/-- Feature `j` has a different value in every row. -/
def TellsRowsApart (rows : List (List F)) (j : Nat) : Prop :=
  ∀ (a b : Nat) (ra rb : List F) (x y : F), rows[a]? = some ra → rows[b]? = some rb → ra[j]? = some x → rb[j]? = some y → (x ==. y) = true → a = b

/-- Two rows with equal values in all features: no question can tell them apart. -/
def SameFeatures (r r' : List F) : Prop := ∀ (j : Nat) (x y : F), r[j]? = some x → r'[j]? = some y → (x ==. y) = true

/-- Rows with the same features have the same label. -/
def NoContradictions {α : Type} (rows : List (List F)) (labels : List α) : Prop :=
  ∀ e ∈ rows.zip labels, ∀ e' ∈ rows.zip labels, SameFeatures e.1 e'.1 → e.2 = e'.2

end

variable {K : Type} [Field K]

/-- the point between two vectors with `t` entries: `w` times the first plus `1 - w` times the second -/
def between (t : Nat) (w : K) (u v : List K) : List K := (List.range t).map (fun j => w * u.getD j 0 + (1 - w) * v.getD j 0)

end Verif
