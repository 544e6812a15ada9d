import Verif.Spec.Special
/-!
# How NaN spreads through sums, products and quotients

Facts of IEEE arithmetic used to follow NaN through boosting.  Instances for the exact numbers and for binary64 are in
`Verif.Lemmas.Poison`.
-/

namespace Verif

/-- How IEEE arithmetic propagates NaN, what a share `x * (1 / s)` of an infinite total is, and that `0 / 0` is not a number. -/
class LawfulPoison (F : Type) [F64 F] : Prop extends LawfulSpecial F where
  nan_mul_left : ∀ {x : F} (y : F), isNaN x = true → isNaN (x *. y) = true
  nan_mul_right : ∀ (x : F) {y : F}, isNaN y = true → isNaN (x *. y) = true
  nan_sub_right : ∀ (x : F) {y : F}, isNaN y = true → isNaN (x -. y) = true
  nan_div_right : ∀ (x : F) {y : F}, isNaN y = true → isNaN (x /. y) = true
  share : ∀ {x s : F}, nonFinite s = true → nonFinite x = true → isNaN (x *. (F64.one /. s)) = true
  zero_div_zero : ∀ {x y : F}, (x ==. F64.zero) = true → (y ==. F64.zero) = true → isNaN (x /. y) = true
  zero_add : ∀ {x y : F}, (x ==. F64.zero) = true → (y ==. F64.zero) = true → ((x +. y) ==. F64.zero) = true
  zero_weight : ∀ {x : F}, (x ==. F64.zero) = true → ((F64.abs x *. (F64.one -. F64.abs x)) ==. F64.zero) = true

end Verif
