import Verif.Num.B64
/-!
# Specification vocabulary: the range of the labels
-/

namespace Verif

/-- a finite number whose square is too large for binary64 -/
def Huge (x : B64) : Prop := ∃ q : ℚ, x.val = .fin q ∧ 2 ^ 512 ≤ |q|

/-- a number close to zero: squares of sums of up to `2^25` of them are closer to zero than to any other binary64 number -/
def Faint (x : B64) : Prop := ∃ q : ℚ, x.val = .fin q ∧ |q| ≤ 1 / 2 ^ 565

end Verif
