import Mathlib.Algebra.Order.Floor.Semiring
import Mathlib.Algebra.Order.Field.Basic
import Mathlib.Data.Rat.Floor
import Mathlib.Tactic.Linarith
import Verif.Num.F64
/-!
# Exact arithmetic with the IEEE special values

`Ext K` is an ordered field `K` extended with NaN and both infinities: IEEE-754 rules for the special values and for division by
zero (there is one zero, which behaves like `+0`), and no rounding and no overflow.  The algebraic claims are
proved for `Ext K`, for every `K`.
-/

namespace Verif

/-- An exponential function: only its positivity is ever used.  (`Real.exp` is an instance, `Verif/Num/Real.lean`.) -/
class HasExp (K : Type) [Field K] [LinearOrder K] where
  exp : K → K
  exp_pos : ∀ x, 0 < exp x

/-- A field element, an infinity, or NaN. -/
inductive Ext (K : Type) where
  | nan
  | negInf
  | fin (x : K)
  | posInf
  deriving DecidableEq, Repr

namespace Ext

variable {K : Type} [Field K] [LinearOrder K]

/-- addition -/
def add : Ext K → Ext K → Ext K
  | .nan, _ => .nan
  | _, .nan => .nan
  | .posInf, .negInf => .nan
  | .negInf, .posInf => .nan
  | .posInf, _ => .posInf
  | _, .posInf => .posInf
  | .negInf, _ => .negInf
  | _, .negInf => .negInf
  | .fin x, .fin y => .fin (x + y)

/-- negation -/
def neg : Ext K → Ext K
  | .nan => .nan
  | .negInf => .posInf
  | .posInf => .negInf
  | .fin x => .fin (-x)

/-- `s * INFINITY` for a finite `s` -/
def signInf (s : K) : Ext K := if 0 < s then .posInf else if s < 0 then .negInf else .nan

/-- multiplication -/
def mul : Ext K → Ext K → Ext K
  | .nan, _ => .nan
  | _, .nan => .nan
  | .posInf, .posInf => .posInf
  | .posInf, .negInf => .negInf
  | .negInf, .posInf => .negInf
  | .negInf, .negInf => .posInf
  | .posInf, .fin y => signInf y
  | .fin x, .posInf => signInf x
  | .negInf, .fin y => signInf (-y)
  | .fin x, .negInf => signInf (-x)
  | .fin x, .fin y => .fin (x * y)

/-- division -/
def div : Ext K → Ext K → Ext K
  | .nan, _ => .nan
  | _, .nan => .nan
  | .posInf, .posInf => .nan
  | .posInf, .negInf => .nan
  | .negInf, .posInf => .nan
  | .negInf, .negInf => .nan
  | .posInf, .fin y => if y < 0 then .negInf else .posInf
  | .negInf, .fin y => if y < 0 then .posInf else .negInf
  | .fin _, .posInf => .fin 0
  | .fin _, .negInf => .fin 0
  | .fin x, .fin y => if y = 0 then signInf x else .fin (x / y)

/-- absolute value -/
def abs : Ext K → Ext K
  | .nan => .nan
  | .negInf => .posInf
  | .posInf => .posInf
  | .fin x => .fin |x|

/-- IEEE `<=` -/
def le : Ext K → Ext K → Bool
  | .nan, _ => false
  | _, .nan => false
  | .negInf, _ => true
  | _, .posInf => true
  | .fin x, .fin y => decide (x ≤ y)
  | .posInf, _ => false
  | .fin _, .negInf => false

/-- `x as usize` -/
def toUsize [FloorSemiring K] : Ext K → Nat
  | .nan => 0
  | .negInf => 0
  | .posInf => 2 ^ 64 - 1
  | .fin x => min ⌊x⌋₊ (2 ^ 64 - 1)

/-- exponential -/
def exp [HasExp K] : Ext K → Ext K
  | .nan => .nan
  | .negInf => .fin 0
  | .posInf => .posInf
  | .fin x => .fin (HasExp.exp x)

end Ext

variable {K : Type} [Field K] [LinearOrder K] [FloorSemiring K] [HasExp K]

instance : F64 (Ext K) where
  zero := .fin 0
  one := .fin 1
  infinity := .posInf
  negInfinity := .negInf
  sumStart := .fin 0
  add := Ext.add
  sub x y := Ext.add x (Ext.neg y)
  mul := Ext.mul
  div := Ext.div
  neg := Ext.neg
  abs := Ext.abs
  exp := Ext.exp
  eq x y := Ext.le x y && Ext.le y x
  lt x y := Ext.le x y && !Ext.le y x
  le := Ext.le
  ofNat n := .fin (n : K)
  toUsize := Ext.toUsize

namespace Ext

@[simp] theorem zero_def : (F64.zero : Ext K) = .fin 0 := rfl
@[simp] theorem one_def : (F64.one : Ext K) = .fin 1 := rfl
@[simp] theorem sumStart_def : (F64.sumStart : Ext K) = .fin 0 := rfl
@[simp] theorem infinity_def : (F64.infinity : Ext K) = .posInf := rfl
@[simp] theorem negInfinity_def : (F64.negInfinity : Ext K) = .negInf := rfl
@[simp] theorem ofNat_def (n : Nat) : (F64.ofNat n : Ext K) = .fin (n : K) := rfl
@[simp] theorem fin_add (x y : K) : (Ext.fin x) +. (Ext.fin y) = .fin (x + y) := rfl
@[simp] theorem fin_sub (x y : K) : (Ext.fin x) -. (Ext.fin y) = .fin (x - y) := by
  simp [F64.sub, Ext.add, Ext.neg, sub_eq_add_neg]
@[simp] theorem fin_mul (x y : K) : (Ext.fin x) *. (Ext.fin y) = .fin (x * y) := rfl
theorem fin_div (x y : K) (h : y ≠ 0) : (Ext.fin x) /. (Ext.fin y) = .fin (x / y) := by
  simp [F64.div, Ext.div, h]
@[simp] theorem fin_neg (x : K) : F64.neg (Ext.fin x) = .fin (-x) := rfl
@[simp] theorem fin_abs (x : K) : F64.abs (Ext.fin x) = .fin |x| := rfl
@[simp] theorem fin_exp (x : K) : F64.exp (Ext.fin x) = .fin (HasExp.exp x) := rfl
@[simp] theorem fin_le (x y : K) : (Ext.fin x <=. Ext.fin y) = decide (x ≤ y) := rfl
@[simp] theorem fin_lt (x y : K) : (Ext.fin x <. Ext.fin y) = decide (x < y) := by
  simp only [F64.lt, Ext.le]
  by_cases h : x < y
  · simp [h, h.le]
  · simp only [h, decide_false]
    rcases _root_.lt_or_eq_of_le (_root_.not_lt.mp h) with h | h
    · simp [h]
    · simp [h]
@[simp] theorem fin_eq (x y : K) : (Ext.fin x ==. Ext.fin y) = decide (x = y) := by
  simp only [F64.eq, Ext.le]
  by_cases h : x = y
  · simp [h]
  · simp only [h, decide_false, Bool.and_eq_false_iff, decide_eq_false_iff_not, _root_.not_le]
    rcases lt_or_gt_of_ne h with h | h
    · exact .inr h
    · exact .inl h
@[simp] theorem fin_lt_posInf (x : K) : (Ext.fin x <. Ext.posInf) = true := rfl
@[simp] theorem not_posInf_lt (x : Ext K) : (Ext.posInf <. x) = false := by
  cases x <;> rfl
@[simp] theorem not_lt_nan (x : Ext K) : (x <. Ext.nan) = false := by
  cases x <;> rfl
@[simp] theorem not_nan_lt (x : Ext K) : (Ext.nan <. x) = false := by
  cases x <;> rfl
@[simp] theorem isNaN_fin (x : K) : isNaN (Ext.fin x) = false := by simp [isNaN]

end Ext

instance : LawfulOrder (Ext K) where
  le_nan := by
    intro x y h
    cases x <;> cases y <;> simp_all [F64.le, F64.eq, Ext.le]
  le_trans := by
    intro x y z h1 h2
    cases x <;> cases y <;> cases z <;> simp_all [F64.le, Ext.le]
    exact _root_.le_trans h1 h2
  le_total := by
    intro x y h1 h2
    cases x <;> cases y <;> simp_all [F64.le, F64.eq, Ext.le]
    exact _root_.le_total _ _
  lt_iff := by
    intro x y
    simp [F64.lt, F64.le]
  eq_iff := by
    intro x y
    simp [F64.eq, F64.le]
  zero_eq := by simp
  inf_eq := rfl
  negInf_le := by
    intro x h
    cases x <;> simp_all [F64.le, F64.eq, Ext.le]
  sub_inf := by
    intro x
    cases x <;> rfl

instance [IsStrictOrderedRing K] : LawfulCount (Ext K) where
  zero_eq_ofNat := by simp
  add_one := by
    intro n _
    simp
  toUsize_ofNat := by
    intro n h
    simp only [Ext.ofNat_def, F64.toUsize, Ext.toUsize, Nat.floor_natCast]
    omega

/-- A positive function on the rationals, for executing examples in the kernel.  (Not an exponential; theorems only use that
it is positive.) -/
instance : HasExp ℚ where
  exp x := 1 + x * x
  exp_pos x := by nlinarith [mul_self_nonneg x]

end Verif
