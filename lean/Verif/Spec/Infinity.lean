import Verif.Spec.Poison
/-!
# How infinities add up

Facts of IEEE arithmetic used to follow infinite scores through AMG boosting.  Instances for the exact numbers and for binary64 are in
`Verif.Lemmas.Infinity`.
-/

namespace Verif

/-- Sums and products with infinities: a sum with plus infinity is plus infinity or NaN, a sum of a finite number and an infinity is this
infinity, and so is a positive multiple. -/
class LawfulInfinity (F : Type) [F64 F] : Prop extends LawfulPoison F where
  pos_absorbs : ∀ {x : F} (y : F), posSpecial x = true → posSpecial (x +. y) = true
  add_inf : ∀ {x y : F}, nonFinite x = false ∨ (x ==. F64.infinity) = true → (y ==. F64.infinity) = true → ((x +. y) ==. F64.infinity) = true
  add_negInf : ∀ {x y : F}, nonFinite x = false ∨ (x ==. F64.negInfinity) = true → (y ==. F64.negInfinity) = true →
    ((x +. y) ==. F64.negInfinity) = true
  add_inf_any : ∀ (x : F) {y : F}, (y ==. F64.infinity) = true → posSpecial (x +. y) = true
  add_negInf_any : ∀ (x : F) {y : F}, (y ==. F64.negInfinity) = true → isNaN (x +. y) = true ∨ ((x +. y) ==. F64.negInfinity) = true
  mul_negInf : ∀ {x : F}, (F64.zero <. x) = true → ((x *. F64.negInfinity) ==. F64.negInfinity) = true
  mul_share : ∀ {x : F} {n : Nat}, (F64.zero <. x) = true → 2 ≤ n → n ≤ 2 ^ 53 →
    ((x *. (F64.neg F64.negInfinity /. (F64.ofNat n -. F64.one))) ==. F64.infinity) = true
  negInf_lt_inf : ((F64.negInfinity : F) <. F64.infinity) = true

end Verif
