import Verif.Spec.Exact
/-!
# Specification vocabulary: distances between label vectors
-/

namespace Verif

variable {K : Type} [Field K]

/-- the squared Euclidean distance of two vectors -/
def sqDist (v w : List K) : K := (List.zipWith (fun x y => (x - y) ^ 2) v w).sum

/-- Two lists of label vectors, possibly with different numbers of targets, in which corresponding pairs have squared distances in the
ratio `μ`. -/
def ProportionalDistances (μ : K) (ls ls' : List (List K)) : Prop :=
  ls'.length = ls.length ∧ ∀ (i j : Nat) (v w v' w' : List K), ls[i]? = some v → ls[j]? = some w → ls'[i]? = some v' → ls'[j]? = some w' →
    sqDist v' w' = μ * sqDist v w

/-- An affine map from vectors with `t` entries to vectors with `t'` entries: entry `i` of the result is `∑ j, A i j * v j + b i`. -/
def affineMap (t t' : Nat) (A : Nat → Nat → K) (b : Nat → K) (v : List K) : List K :=
  (List.range t').map (fun i => ((List.range t).map (fun j => A i j * v.getD j 0)).sum + b i)

/-- A similarity: it multiplies all squared distances by `μ`. -/
def IsSimilarity (t : Nat) (μ : K) (f : List K → List K) : Prop :=
  ∀ v w : List K, v.length = t → w.length = t → sqDist (f v) (f w) = μ * sqDist v w

end Verif
