import Verif.Spec.Exact
/-!
# Specification vocabulary: rows that share a feature value
-/

namespace Verif

variable {K : Type} [Field K] [LinearOrder K] [FloorSemiring K] [HasExp K]

/-- Examples that have the same value of a feature, and not its smallest value, have the same label. -/
def DataSet.TiesAgree (c : Nat) (d : DataSet (Ext K)) : Prop :=
  ∀ j < c, ∀ e ∈ d.examples, ∀ e' ∈ d.examples, e.1.getD j F64.zero = e'.1.getD j F64.zero →
    (∃ row ∈ d.featureRows, (row.getD j F64.zero <. e.1.getD j F64.zero) = true) → e.2 = e'.2

/-- Examples that have the same value of a feature, and not its smallest value, are copies of each other: they agree in all features and
in the label. -/
def DataSet.TiesIdentical (c : Nat) (d : DataSet (Ext K)) : Prop :=
  ∀ j < c, ∀ e ∈ d.examples, ∀ e' ∈ d.examples, e.1.getD j F64.zero = e'.1.getD j F64.zero →
    (∃ row ∈ d.featureRows, (row.getD j F64.zero <. e.1.getD j F64.zero) = true) → e = e'

end Verif
