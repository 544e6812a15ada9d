import Verif.Num.B64
import Verif.Spec.Data
/-!
# Specification vocabulary: labels multiplied by a power of two
-/

namespace Verif

/-- `y` is exactly `2^k` times `x`; both are finite binary64 numbers -/
def TimesPow (k : ℤ) (x y : B64) : Prop := ∃ q : ℚ, x.val = .fin q ∧ y.val = .fin ((2 : ℚ) ^ k * q)

/-- a number of ordinary size: zero, or between `2^-148` and `2^200` in absolute value -/
def Ordinary (x : B64) : Prop := ∃ q : ℚ, x.val = .fin q ∧ (q = 0 ∨ 1 / 2 ^ 148 ≤ |q|) ∧ |q| ≤ 2 ^ 200

/-- The same rows; every label entry is exactly `2^k` times as large. -/
structure TimesPowLabels (k : ℤ) (d d' : DataSet B64) : Prop where
  rows : d'.featureRows = d.featureRows
  columns : d'.featureColumns = d.featureColumns
  labels : List.Forall₂ (List.Forall₂ (TimesPow k)) d.labels d'.labels

end Verif
