import Verif.Spec.Data
/-!
# Specification vocabulary: predictions and scores
-/

namespace Verif

variable {F : Type} [F64 F]

/-- How many of the label vectors have the entry `1.` for class `k`. -/
def classCount (labels : List (List F)) (k : Nat) : Nat :=
  labels.countP (fun l => match l[k]? with | some x => x ==. F64.one | none => false)

/-- Class `k` is the first of the `n` classes with the largest count. -/
def FirstMajority (labels : List (List F)) (n k : Nat) : Prop :=
  k < n ∧ (∀ j, j < n → classCount labels j ≤ classCount labels k) ∧ (∀ j, j < k → classCount labels j < classCount labels k)

/-- Position `k` holds the first of the largest entries of `v`, ignoring NaN and negative infinity; it is 0 if there is nothing
else. -/
def FirstMax (v : List F) (k : Nat) : Prop :=
  (∃ m, v[k]? = some m ∧ (F64.negInfinity <. m) = true ∧ (∀ x ∈ v, (m <. x) = false) ∧
    ∀ j x, j < k → v[j]? = some x → (m <=. x) = false) ∨
  (k = 0 ∧ ∀ x ∈ v, (F64.negInfinity <. x) = false)

/-- The number of positions at which two lists of vectors agree (element-wise IEEE `==`). -/
def matchCount (a b : List (List F)) : Nat := (a.zip b).countP (fun p => vecEq p.1 p.2)

/-- Fractions of counts up to `2^53` behave like fractions: between 0 and 1, and 0 or 1 only when exactly so; `0/0` is NaN. -/
class LawfulFraction (F : Type) [F64 F] : Prop where
  nonneg : ∀ {m n : Nat}, 0 < n → m ≤ n → n ≤ 2 ^ 53 → ((F64.zero : F) <=. (F64.ofNat m /. F64.ofNat n)) = true
  le_one : ∀ {m n : Nat}, 0 < n → m ≤ n → n ≤ 2 ^ 53 → ((F64.ofNat m /. F64.ofNat n : F) <=. F64.one) = true
  eq_one : ∀ {m n : Nat}, 0 < n → m ≤ n → n ≤ 2 ^ 53 → (((F64.ofNat m /. F64.ofNat n : F) ==. F64.one) = true ↔ m = n)
  eq_zero : ∀ {m n : Nat}, 0 < n → m ≤ n → n ≤ 2 ^ 53 → (((F64.ofNat m /. F64.ofNat n : F) ==. F64.zero) = true ↔ m = 0)
  zero_zero : isNaN ((F64.ofNat 0 : F) /. F64.ofNat 0) = true

/-- The sign rules that keep sums of squares from being negative (NaN allowed): none of the results compares below zero. -/
class LawfulSign (F : Type) [F64 F] : Prop where
  zero : ((F64.zero : F) <. F64.zero) = false
  sumStart : ((F64.sumStart : F) <. F64.zero) = false
  square : ∀ x : F, ((x *. x) <. F64.zero) = false
  add : ∀ {x y : F}, (x <. F64.zero) = false → (y <. F64.zero) = false → ((x +. y) <. F64.zero) = false
  div : ∀ {x : F} (n : Nat), (x <. F64.zero) = false → ((x /. F64.ofNat n) <. F64.zero) = false

end Verif
