import Verif.Num.B64
import Verif.Spec.Data
/-!
# Specification vocabulary: targets with the opposite sign
-/

namespace Verif

/-- `y` has the same value as `x` or, with `b`, the opposite value.  NaN is its own opposite; the sign of a zero is not looked at. -/
def Mirrors (b : Bool) (x y : B64) : Prop := y.val = if b then Ext.neg x.val else x.val

/-- Vectors of the same length; the entries of `v'` are those of `v`, with the opposite sign at the positions `s` selects. -/
def MirrorVec (s : ℕ → Bool) (v v' : List B64) : Prop :=
  v'.length = v.length ∧ ∀ (j : ℕ) (x y : B64), v[j]? = some x → v'[j]? = some y → Mirrors (s j) x y

/-- The same rows; the targets `s` selects have the opposite sign. -/
structure MirrorLabels (s : ℕ → Bool) (d d' : DataSet B64) : Prop where
  rows : d'.featureRows = d.featureRows
  columns : d'.featureColumns = d.featureColumns
  labels : List.Forall₂ (MirrorVec s) d.labels d'.labels

end Verif
