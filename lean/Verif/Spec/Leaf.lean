import Verif.Model.Tree
/-!
# What a leaf stores

Independent description of the vectors stored in the leaves of boosting trees, target by target.
-/

namespace Verif

variable {F : Type} [F64 F]

/-- the `j`-th entries of the vectors, added up in order -/
def sumAt (vs : List (List F)) (j : Nat) : F := vs.foldl (fun s v => s +. v.getD j F64.zero) F64.zero

/-- `|r| (1 - |r|)` for the `j`-th entries `r` of the vectors, added up in order -/
def weightAt (vs : List (List F)) (j : Nat) : F :=
  vs.foldl (fun s v => s +. (F64.abs (v.getD j F64.zero) *. (F64.one -. F64.abs (v.getD j F64.zero)))) F64.zero

/-- the average of the `j`-th entries -/
def averageAt (vs : List (List F)) (j : Nat) : F := sumAt vs j /. F64.ofNat vs.length

/-- the Newton step of multi-class boosting for class `j` of `t`: `(sum of r) / (sum of |r| (1 - |r|)) * (t - 1)/t` -/
def newtonAt (t : Nat) (vs : List (List F)) (j : Nat) : F :=
  (sumAt vs j /. weightAt vs j) *. ((F64.ofNat t -. F64.one) /. F64.ofNat t)

/-- the output of a leaf with training labels `vs`, with `t` targets: the average for regression, the Newton step for classes -/
def leafValue (k : LeafOutputType) (t : Nat) (vs : List (List F)) : List F :=
  (List.range t).map (fun j =>
    match k with
    | .regression => averageAt vs j
    | .multiClassClassification => newtonAt t vs j)

end Verif
