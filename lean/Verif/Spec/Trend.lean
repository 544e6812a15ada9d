import Verif.Spec.Hull
/-!
# Specification vocabulary: trends
-/

namespace Verif

/-- `y` is `x` with feature `f` raised (or unchanged); all other features are the same. -/
def RaisesOnly {F : Type} [F64 F] (f : Nat) (x y : List F) : Prop :=
  (∀ j, j ≠ f → x[j]? = y[j]?) ∧ ∃ a b, x[f]? = some a ∧ y[f]? = some b ∧ (a <=. b) = true

/-- In the training data the quantity `g` of the labels never falls when feature `f` rises: of two rows, the one with the smaller feature
`f` does not have the larger `g`. -/
def Follows {F : Type} [F64 F] {K : Type} [LE K] (rows : List (List F)) (ls : List (List K)) (f : Nat) (g : List K → K) : Prop :=
  ∀ e ∈ rows.zip ls, ∀ e' ∈ rows.zip ls, ∀ a b, e.1[f]? = some a → e'.1[f]? = some b → (a <. b) = true → g e.2 ≤ g e'.2

end Verif
