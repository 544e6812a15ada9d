import Verif.Num.F64
/-!
# Specification vocabulary: NaN and infinities
-/

namespace Verif

variable {F : Type} [F64 F]

/-- NaN or an infinity. -/
def nonFinite (x : F) : Bool := isNaN x || (x ==. F64.infinity) || (x ==. F64.negInfinity)

/-- NaN or positive infinity. -/
def posSpecial (x : F) : Bool := isNaN x || (x ==. F64.infinity)

/-- How IEEE arithmetic propagates NaN and infinities. -/
class LawfulSpecial (F : Type) [F64 F] : Prop where
  add_left : ∀ {x : F} (y : F), nonFinite x = true → nonFinite (x +. y) = true
  add_right : ∀ (x : F) {y : F}, nonFinite y = true → nonFinite (x +. y) = true
  sub_left : ∀ {x : F} (y : F), nonFinite x = true → nonFinite (x -. y) = true
  div : ∀ {x : F} (n : Nat), nonFinite x = true → nonFinite (x /. F64.ofNat n) = true
  square : ∀ {x : F}, nonFinite x = true → posSpecial (x *. x) = true
  pos_add_left : ∀ {x y : F}, posSpecial x = true → (y <. F64.zero) = false → posSpecial (x +. y) = true
  pos_add_right : ∀ {x y : F}, (x <. F64.zero) = false → posSpecial y = true → posSpecial (x +. y) = true
  ofNat_mul : ∀ {x : F} (n : Nat), posSpecial x = true → posSpecial (F64.ofNat n *. x) = true
  sub : ∀ {x y : F}, posSpecial x = true → posSpecial y = true → isNaN (x -. y) = true
  nan_add_left : ∀ {x : F} (y : F), isNaN x = true → isNaN (x +. y) = true
  nan_add_right : ∀ (x : F) {y : F}, isNaN y = true → isNaN (x +. y) = true
  nan_sub_left : ∀ {x : F} (y : F), isNaN x = true → isNaN (x -. y) = true
  nan_div_left : ∀ {x : F} (y : F), isNaN x = true → isNaN (x /. y) = true

end Verif
