/-!
# The arithmetic interface

The Rust code computes with `f64`.  The model is generic in a type `F` of floating point values, and only uses the
operations below.  The class has **no laws**: anything proved for every `[F64 F]` holds whatever the rounding, the value of
`exp`, the sign of zero, or the treatment of NaN.
-/

namespace Verif

/-- The `f64` operations that /repo uses.  No laws. -/
class F64 (F : Type) where
  /-- `0.` -/
  zero : F
  /-- `1.` -/
  one : F
  /-- `f64::INFINITY` -/
  infinity : F
  /-- `f64::NEG_INFINITY` -/
  negInfinity : F
  /-- the value `iter().sum::<f64>()` starts from: `0.0`, or `-0.0` in recent versions of std -/
  sumStart : F
  add : F → F → F
  sub : F → F → F
  mul : F → F → F
  div : F → F → F
  neg : F → F
  abs : F → F
  exp : F → F
  /-- IEEE `==` (false on NaN) -/
  eq : F → F → Bool
  /-- IEEE `<` (false on NaN) -/
  lt : F → F → Bool
  /-- IEEE `<=` (false on NaN) -/
  le : F → F → Bool
  /-- `n as f64` for an unsigned integer -/
  ofNat : Nat → F
  /-- `x as usize` (64-bit, saturating, NaN to 0) -/
  toUsize : F → Nat

/-- Rust `a + b` -/
infixl:65 " +. " => F64.add
/-- Rust `a - b` -/
infixl:65 " -. " => F64.sub
/-- Rust `a * b` -/
infixl:70 " *. " => F64.mul
/-- Rust `a / b` -/
infixl:70 " /. " => F64.div
@[inherit_doc] infix:50 " ==. " => F64.eq
@[inherit_doc] infix:50 " <. " => F64.lt
@[inherit_doc] infix:50 " <=. " => F64.le
/-- Rust `a > b` -/
notation:50 a:51 " >. " b:51 => F64.lt b a
/-- Rust `a >= b` -/
notation:50 a:51 " >=. " b:51 => F64.le b a

/-- `x.is_nan()`: in IEEE arithmetic NaN is the value that is not `==` to itself. -/
def isNaN {F : Type} [F64 F] (x : F) : Bool := !(x ==. x)

/-- `v.iter().sum::<f64>()`: left-to-right addition (std `impl Sum for f64`). -/
def fsum {F : Type} [F64 F] (v : List F) : F := v.foldl F64.add F64.sumStart

/-- `Vec<f64> == Vec<f64>`: same length and element-wise IEEE `==`. -/
def vecEq {F : Type} [F64 F] : List F → List F → Bool
  | [], [] => true
  | a :: as, b :: bs => (a ==. b) && vecEq as bs
  | _, _ => false

/-- The comparison facts of IEEE-754 that the structural theorems need: `<=` is a total preorder on the values that are not
NaN, comparisons with NaN are false, `<` and `==` are derived from `<=`, and subtracting `INFINITY` never gives a
positive number.  Nothing about rounding. -/
class LawfulOrder (F : Type) [F64 F] : Prop where
  /-- a comparison that succeeds involves no NaN -/
  le_nan : ∀ {x y : F}, (x <=. y) = true → (x ==. x) = true ∧ (y ==. y) = true
  le_trans : ∀ {x y z : F}, (x <=. y) = true → (y <=. z) = true → (x <=. z) = true
  le_total : ∀ {x y : F}, (x ==. x) = true → (y ==. y) = true → (x <=. y) = true ∨ (y <=. x) = true
  lt_iff : ∀ {x y : F}, (x <. y) = true ↔ (x <=. y) = true ∧ (y <=. x) = false
  eq_iff : ∀ {x y : F}, (x ==. y) = true ↔ (x <=. y) = true ∧ (y <=. x) = true
  zero_eq : ((F64.zero : F) ==. F64.zero) = true
  inf_eq : ((F64.infinity : F) ==. F64.infinity) = true
  negInf_le : ∀ {x : F}, (x ==. x) = true → (F64.negInfinity <=. x) = true
  sub_inf : ∀ {x : F}, ((F64.zero : F) <. (x -. F64.infinity)) = false

/-- Integers below `2^53` are exact in `f64`: counting by adding `1.` is exact, casts round-trip, distinct counts compare as
distinct.  (IEEE binary64 has a 53-bit significand.) -/
class LawfulCount (F : Type) [F64 F] : Prop where
  zero_eq_ofNat : (F64.zero : F) = F64.ofNat 0
  add_one : ∀ {n : Nat}, n < 2 ^ 53 → (F64.ofNat n : F) +. F64.one = F64.ofNat (n + 1)
  toUsize_ofNat : ∀ {n : Nat}, n ≤ 2 ^ 53 → F64.toUsize (F64.ofNat n : F) = n

end Verif
