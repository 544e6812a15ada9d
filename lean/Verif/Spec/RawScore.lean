import Verif.Num.F64
/-!
# Specification vocabulary: raw scores
-/

namespace Verif

variable {F : Type} [F64 F]

/-- The outputs of the trees, each multiplied by the learning rate, added to the initial guess one after the other. -/
def addUp (guess : List F) (lr : F) (outs : List (List F)) : List F :=
  outs.foldl (fun score out => List.zipWith (fun a x => a +. (lr *. x)) score out) guess

/-- The output of an AMG leaf for `n` classes: `max` for the class `k` it is about, and `-max / (n - 1)` for the others. -/
def amgOutput (n : Nat) (max : F) (k : Nat) : List F :=
  (List.range n).map (fun j => if j = k then max else F64.neg max /. (F64.ofNat n -. F64.one))

end Verif
