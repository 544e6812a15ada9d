import Verif.Num.B64
import Verif.Spec.NearPerm
import Verif.Spec.Score
import Verif.Spec.Tree
/-!
# Specification vocabulary: means that are rounded once
-/

namespace Verif

variable [B64Env]

/-- the rational number a finite binary64 number stands for -/
def B64.number (x : B64) : ℚ :=
  match x.val with
  | .fin q => q
  | _ => 0

/-- the exact mean of target `j` -/
def exactMean (labels : List (List B64)) (j : ℕ) : ℚ := meanOf (labels.map (fun l => (l.getD j F64.zero).number))

/-- The vector has `t` entries, each the exact mean of its target, rounded once to binary64. -/
def RoundedMeans (t : ℕ) (labels : List (List B64)) (a : List B64) : Prop :=
  a.map B64.val = (List.range t).map (fun j => roundE (.fin (exactMean labels j)))

/-- The vector has `t` entries; they are finite, and no binary64 number is nearer to the exact mean of the target. -/
def NearestMeans (t : ℕ) (labels : List (List B64)) (a : List B64) : Prop :=
  a.length = t ∧ ∀ j < t, ∃ q, (a.getD j F64.zero).val = .fin q ∧ ∀ (y : B64) (r : ℚ), y.val = .fin r →
    |q - exactMean labels j| ≤ |r - exactMean labels j|

/-- Each entry of the vector lies between the entries of two of the labels. -/
def BetweenLabels (t : ℕ) (labels : List (List B64)) (a : List B64) : Prop :=
  ∀ j < t, ∃ l ∈ labels, ∃ l' ∈ labels, (l.getD j F64.zero <=. a.getD j F64.zero) = true ∧ (a.getD j F64.zero <=. l'.getD j F64.zero) = true

/-- The entries of the vector are ordered as the classes are by their numbers of examples; they are 0 for classes without examples and 1 for a class
with all examples. -/
structure Shares (t : ℕ) (labels : List (List B64)) (a : List B64) : Prop where
  order : ∀ i < t, ∀ j < t, (a.getD i F64.zero <. a.getD j F64.zero) = true ↔ classCount labels i < classCount labels j
  none : ∀ j < t, (a.getD j F64.zero).val = .fin 0 ↔ classCount labels j = 0
  all : ∀ j < t, (a.getD j F64.zero).val = .fin 1 ↔ classCount labels j = labels.length

end Verif
