import Verif.Spec.Exact
/-!
# Specification vocabulary: other units and another order for the targets
-/

namespace Verif

variable {K : Type} [Field K]

/-- Write a label vector in other units: target `j` of the new vector is target `σ j` of the old one, times `a`, plus `b j`. -/
def relabel (t : Nat) (σ : Nat → Nat) (a : K) (b : Nat → K) (v : List K) : List K :=
  (List.range t).map (fun j => a * v.getD (σ j) 0 + b j)

/-- List the entries in another order: entry `j` of the new vector is entry `σ j` of the old one. -/
def reorder (t : Nat) (σ : Nat → Nat) (v : List K) : List K := (List.range t).map (fun j => v.getD (σ j) 0)

/-- `σ` reorders the targets `0, …, t - 1`. -/
def Reorders (t : Nat) (σ : Nat → Nat) : Prop :=
  (∀ j < t, σ j < t) ∧ ∀ i < t, ∀ j < t, σ i = σ j → i = j

end Verif
