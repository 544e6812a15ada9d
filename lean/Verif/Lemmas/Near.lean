import Verif.Num.Error
import Verif.Spec.Rounding
import Mathlib.Tactic.Ring
import Mathlib.Tactic.FieldSimp
/-!
# Propagation of rounding errors
-/

set_option linter.unusedSectionVars false

namespace Verif

open B64

/-- a finite binary64 number within `e` of `q` -/
def Near (x : B64) (q e : ℚ) : Prop := ∃ v, x.val = .fin v ∧ |v - q| ≤ e

theorem Near.weaken {x : B64} {q e f : ℚ} (h : Near x q e) (hef : e ≤ f) : Near x q f := by
  obtain ⟨v, h1, h2⟩ := h
  exact ⟨v, h1, h2.trans hef⟩

theorem Near.exact {x : B64} {q : ℚ} (h : x.val = .fin q) : Near x q 0 := ⟨q, h, by simp⟩

theorem abs_near {v q e : ℚ} (h : |v - q| ≤ e) : |v| ≤ |q| + e := by
  have := abs_sub_abs_le_abs_sub v q
  linarith

variable [B64Env]

theorem Near.add {x y : B64} {a b e f : ℚ} (hx : Near x a e) (hy : Near y b f) (h : |a + b| + (e + f) ≤ big) :
    Near (x +. y) (a + b) (e + f + (u * (|a + b| + (e + f)) + tiny)) := by
  obtain ⟨v, hv, hve⟩ := hx
  obtain ⟨w, hw, hwf⟩ := hy
  have h1 : |v + w - (a + b)| ≤ e + f := by
    have : v + w - (a + b) = (v - a) + (w - b) := by ring
    rw [this]
    exact (abs_add_le _ _).trans (add_le_add hve hwf)
  have h2 := abs_near h1
  obtain ⟨z, hz, hze⟩ := add_err hv hw (h2.trans h)
  refine ⟨z, hz, ?_⟩
  have h3 : |z - (a + b)| ≤ |z - (v + w)| + |v + w - (a + b)| := abs_sub_le _ _ _
  have h4 := mul_le_mul_of_nonneg_left h2 u_pos.le
  linarith

theorem Near.sub {x y : B64} {a b e f : ℚ} (hx : Near x a e) (hy : Near y b f) (h : |a - b| + (e + f) ≤ big) :
    Near (x -. y) (a - b) (e + f + (u * (|a - b| + (e + f)) + tiny)) := by
  obtain ⟨v, hv, hve⟩ := hx
  obtain ⟨w, hw, hwf⟩ := hy
  have h1 : |v - w - (a - b)| ≤ e + f := by
    have : v - w - (a - b) = (v - a) - (w - b) := by ring
    rw [this]
    exact (abs_sub _ _).trans (add_le_add hve hwf)
  have h2 := abs_near h1
  obtain ⟨z, hz, hze⟩ := sub_err hv hw (h2.trans h)
  refine ⟨z, hz, ?_⟩
  have h3 : |z - (a - b)| ≤ |z - (v - w)| + |v - w - (a - b)| := abs_sub_le _ _ _
  have h4 := mul_le_mul_of_nonneg_left h2 u_pos.le
  linarith

/-- `p` bounds the error of the product before rounding -/
theorem Near.mul {x y : B64} {a b e f p : ℚ} (hx : Near x a e) (hy : Near y b f) (hp : |a| * f + e * (|b| + f) ≤ p)
    (h : |a * b| + p ≤ big) : Near (x *. y) (a * b) (p + (u * (|a * b| + p) + tiny)) := by
  obtain ⟨v, hv, hve⟩ := hx
  obtain ⟨w, hw, hwf⟩ := hy
  have h1 : |v * w - a * b| ≤ p := by
    have : v * w - a * b = a * (w - b) + (v - a) * w := by ring
    rw [this]
    refine (abs_add_le _ _).trans (le_trans ?_ hp)
    rw [abs_mul, abs_mul]
    exact add_le_add (mul_le_mul_of_nonneg_left hwf (abs_nonneg _))
      (mul_le_mul hve (abs_near hwf) (abs_nonneg _) ((abs_nonneg _).trans hve))
  have h2 := abs_near h1
  obtain ⟨z, hz, hze⟩ := mul_err hv hw (h2.trans h)
  refine ⟨z, hz, ?_⟩
  have h3 : |z - a * b| ≤ |z - v * w| + |v * w - a * b| := abs_sub_le _ _ _
  have h4 := mul_le_mul_of_nonneg_left h2 u_pos.le
  linarith

/-- division by an exact positive number -/
theorem Near.div {x y : B64} {a b e : ℚ} (hx : Near x a e) (hy : y.val = .fin b) (hb : 0 < b) (h : |a| / b + e / b ≤ big) :
    Near (x /. y) (a / b) (e / b + (u * (|a| / b + e / b) + tiny)) := by
  obtain ⟨v, hv, hve⟩ := hx
  have h1 : |v / b - a / b| ≤ e / b := by
    rw [← sub_div, abs_div, abs_of_pos hb]
    exact div_le_div_of_nonneg_right hve hb.le
  have h2 := abs_near h1
  rw [abs_div a b, abs_of_pos hb] at h2
  obtain ⟨z, hz, hze⟩ := div_err hv hy hb.ne' (h2.trans h)
  refine ⟨z, hz, ?_⟩
  have h3 : |z - a / b| ≤ |z - v / b| + |v / b - a / b| := abs_sub_le _ _ _
  have h4 := mul_le_mul_of_nonneg_left h2 u_pos.le
  linarith

/-! ## the scale of the problem -/

theorem tiny_small : 2 ^ 50 * tiny ≤ u * (1 / 2 ^ 800) := by
  have h1 : 2 ^ 50 * tiny = (2 : ℚ) ^ (-1025 : ℤ) := by
    rw [tiny_zpow, ← zpow_natCast, ← zpow_add₀ (by norm_num)]
    norm_num
  have h2 : u * (1 / 2 ^ 800) = (2 : ℚ) ^ (-853 : ℤ) := by
    rw [u_zpow, one_div, ← zpow_natCast, ← zpow_neg, ← zpow_add₀ (by norm_num)]
    norm_num
  rw [h1, h2]
  exact two_zpow_le.mpr (by norm_num)

namespace Scale
variable {n : ℕ} {B : ℚ} (h : Scale n B)
include h

theorem pos : 0 < B := _root_.lt_of_lt_of_le (by positivity) h.lower

theorem sq_lower : 1 / 2 ^ 800 ≤ B * B := by
  have : (1 : ℚ) / 2 ^ 800 = 1 / 2 ^ 400 * (1 / 2 ^ 400) := by
    rw [div_mul_div_comm, one_mul, ← pow_add]
  rw [this]
  exact mul_le_mul h.lower h.lower (by positivity) h.pos.le

theorem tiny_sq : 2 ^ 50 * tiny ≤ u * (B * B) :=
  tiny_small.trans (mul_le_mul_of_nonneg_left h.sq_lower u_pos.le)

theorem tiny_lin : 2 ^ 50 * tiny ≤ u * B := by
  refine tiny_small.trans (mul_le_mul_of_nonneg_left (le_trans ?_ h.lower) u_pos.le)
  exact one_div_le_one_div_of_le (by positivity) (pow_le_pow_right₀ (by norm_num) (by norm_num))

theorem sq_big : 2 ^ 100 * (B * B) ≤ big := by
  have h1 : B * B ≤ 2 ^ 800 := by
    rw [show (2 : ℚ) ^ 800 = 2 ^ 400 * 2 ^ 400 by rw [← pow_add]]
    exact mul_le_mul h.upper h.upper h.pos.le (by positivity)
  have h2 : (2 : ℚ) ^ 100 * 2 ^ 800 ≤ big := by rw [← pow_add]; exact big_ge (by norm_num)
  exact (mul_le_mul_of_nonneg_left h1 (by positivity)).trans h2

theorem lin_big : 2 ^ 100 * B ≤ big := by
  have h2 : (2 : ℚ) ^ 100 * 2 ^ 400 ≤ big := by rw [← pow_add]; exact big_ge (by norm_num)
  exact (mul_le_mul_of_nonneg_left h.upper (by positivity)).trans h2

theorem rows_q : (n : ℚ) ≤ 16777216 := by
  have h1 := h.rows
  norm_num at h1
  exact_mod_cast h1

end Scale

end Verif
