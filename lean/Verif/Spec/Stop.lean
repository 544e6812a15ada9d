import Verif.Spec.Fit
/-!
# Specification vocabulary: when there is nothing left to learn
-/

namespace Verif

section
variable {F : Type} [F64 F]

/-- Some row has a smaller value than `r` in some feature. -/
def HasLess (rows : List (List F)) (r : List F) : Prop :=
  ∃ row ∈ rows, ∃ (j : Nat) (x y : F), row[j]? = some x ∧ r[j]? = some y ∧ (x <. y) = true

/-- the two rows have equal values in all features -/
def sameFeatures (r r' : List F) : Bool := (r.zip r').all (fun p => p.1 ==. p.2)

end

variable {K : Type} [Field K] [LinearOrder K] [FloorSemiring K] [HasExp K]

/-- Every example whose row is not the smallest in all features has the mean label (of `t` targets).  The other examples, if any, have
the same features. -/
def NothingLeft (t : Nat) (es : List (List (Ext K) × List K)) : Prop :=
  ∀ e ∈ es, HasLess (es.map Prod.fst) e.1 → e.2 = meanVec t (es.map Prod.snd)

/-- the labels of the examples with the features of `row` -/
def copies (es : List (List (Ext K) × List K)) (row : List (Ext K)) : List (List K) := (es.filter (fun e => sameFeatures row e.1)).map Prod.snd

/-- the mean label of the examples with the features of `row` -/
def copyMean (t : Nat) (es : List (List (Ext K) × List K)) (row : List (Ext K)) : List K := meanVec t (copies es row)

end Verif
