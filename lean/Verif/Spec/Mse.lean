import Verif.Spec.Data
/-!
# Specification vocabulary: squared errors in floating point

Sums are taken from left to right, starting from the given zero (`0.` in explicit loops, the start value of `Iterator::sum` otherwise).
-/

namespace Verif

variable {F : Type} [F64 F]

/-- the sum of the squared differences of two vectors, divided by the length of the first -/
def squaredError (start : F) (p a : List F) : F :=
  (List.zipWith (fun x y => (x -. y) *. (x -. y)) p a).foldl F64.add start /. F64.ofNat p.length

/-- the average of the squared errors of `n` pairs of vectors -/
def averageError (start : F) (n : Nat) (ps as : List (List F)) : F :=
  (List.zipWith (squaredError start) ps as).foldl F64.add F64.zero /. F64.ofNat n

end Verif
