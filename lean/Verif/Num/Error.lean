import Verif.Num.B64
import Mathlib.Tactic.Positivity
import Mathlib.Tactic.NormNum
/-!
# Rounding errors of binary64

One operation on finite numbers, far from overflow, is off by at most `2^-53` times the exact result plus `2^-1075`.
-/

set_option linter.unusedSectionVars false

namespace Verif

namespace B64

/-- the relative error of one rounding: `2^-53` -/
def u : ℚ := 1 / 2 ^ 53

/-- the absolute error of one rounding of a tiny number: `2^-1075` -/
def tiny : ℚ := 1 / 2 ^ 1075

theorem u_pos : 0 < u := by unfold u; positivity
theorem tiny_pos : 0 < tiny := by unfold tiny; positivity
theorem u_le : u ≤ 1 / 1024 := by unfold u; norm_num
theorem u_zpow : u = (2 : ℚ) ^ (-53 : ℤ) := by unfold u; norm_num
theorem tiny_zpow : tiny = (2 : ℚ) ^ (-1075 : ℤ) := by
  unfold tiny
  rw [zpow_neg, one_div]
  norm_cast

theorem roundQ_err (q : ℚ) : |roundQ q - q| ≤ u * |q| + tiny := by
  have hp := pow2_pos (unitExp q)
  have h1 : |roundQ q - q| ≤ pow2 (unitExp q) / 2 := by
    have h := nearestEven_near (q / pow2 (unitExp q))
    have : roundQ q - q = ((nearestEven (q / pow2 (unitExp q)) : ℚ) - q / pow2 (unitExp q)) * pow2 (unitExp q) := by
      rw [roundQ]; field_simp
    rw [this, abs_mul, abs_of_pos hp]
    nlinarith
  have h0 : 0 ≤ u * |q| := mul_nonneg u_pos.le (abs_nonneg q)
  rcases eq_or_ne q 0 with rfl | hq
  · simp [roundQ_zero, tiny_pos.le]
  rcases le_total (-1074) (binade q - 52) with hb | hb
  · have : unitExp q = binade q - 52 := max_eq_left hb
    rw [this, pow2_eq] at h1
    have h2 := (binade_spec hq).1
    have h3 : (2 : ℚ) ^ (binade q - 52) / 2 = u * (2 : ℚ) ^ binade q := by
      rw [u_zpow, ← zpow_add₀ (by norm_num : (2 : ℚ) ≠ 0), div_eq_iff (by norm_num)]
      rw [← zpow_add_one₀ (by norm_num : (2 : ℚ) ≠ 0)]
      congr 1
      ring
    rw [h3] at h1
    have := mul_le_mul_of_nonneg_left h2 u_pos.le
    linarith [tiny_pos]
  · have : unitExp q = -1074 := max_eq_right hb
    rw [this, pow2_eq] at h1
    have h3 : (2 : ℚ) ^ (-1074 : ℤ) / 2 = tiny := by
      rw [tiny_zpow, div_eq_iff (by norm_num), ← zpow_add_one₀ (by norm_num : (2 : ℚ) ≠ 0)]
      norm_num
    rw [h3] at h1
    linarith

/-- `2^1000`: results up to here do not overflow -/
def big : ℚ := 2 ^ 1000

theorem big_lt_limit : 2 * big < limit := by
  have h : 2 * big = (2 : ℚ) ^ (1001 : ℤ) := by
    rw [big, ← zpow_natCast, ← zpow_one_add₀ (by norm_num)]
    norm_num
  rw [limit, pow2_eq, h]
  exact two_zpow_lt.mpr (by norm_num)

theorem big_ge {k : ℕ} (hk : k ≤ 1000) : (2 : ℚ) ^ k ≤ big := pow_le_pow_right₀ (by norm_num) hk

attribute [irreducible] big

/-- rounding does not overflow below `2^1000` -/
theorem roundE_err {q : ℚ} (hq : |q| ≤ big) : ∃ v, roundE (.fin q) = .fin v ∧ |v - q| ≤ u * |q| + tiny := by
  have he := roundQ_err q
  have hb : |roundQ q| < limit := by
    have h1 : |roundQ q| ≤ |q| + (u * |q| + tiny) := by
      have := abs_sub_abs_le_abs_sub (roundQ q) q
      linarith
    have h2 : u * |q| ≤ 1 / 1024 * big := mul_le_mul u_le hq (abs_nonneg q) (by norm_num)
    have h3 : tiny ≤ 1 := by
      rw [tiny, div_le_one (by positivity)]
      exact one_le_pow₀ (by norm_num)
    have h4 := big_ge (show 20 ≤ 1000 by norm_num)
    have h6 := big_lt_limit
    norm_num at h4
    linarith
  rw [abs_lt] at hb
  refine ⟨roundQ q, ?_, he⟩
  rw [roundE, if_neg (_root_.not_le.mpr hb.2), if_neg (_root_.not_le.mpr hb.1)]

variable [B64Env]

theorem add_err {x y : B64} {a b : ℚ} (hx : x.val = .fin a) (hy : y.val = .fin b) (h : |a + b| ≤ big) :
    ∃ v, (x +. y).val = .fin v ∧ |v - (a + b)| ≤ u * |a + b| + tiny := by
  rw [add_val, hx, hy, Ext.fin_add]
  exact roundE_err h

theorem sub_err {x y : B64} {a b : ℚ} (hx : x.val = .fin a) (hy : y.val = .fin b) (h : |a - b| ≤ big) :
    ∃ v, (x -. y).val = .fin v ∧ |v - (a - b)| ≤ u * |a - b| + tiny := by
  have : (x -. y).val = roundE (.fin (a - b)) := by
    change roundE (Ext.add x.val (F64.neg y).val) = _
    rw [neg_val, hx, hy, sub_eq_add_neg]
    rfl
  rw [this]
  exact roundE_err h

theorem mul_err {x y : B64} {a b : ℚ} (hx : x.val = .fin a) (hy : y.val = .fin b) (h : |a * b| ≤ big) :
    ∃ v, (x *. y).val = .fin v ∧ |v - a * b| ≤ u * |a * b| + tiny := by
  rw [mul_val, hx, hy, Ext.fin_mul]
  exact roundE_err h

theorem div_err {x y : B64} {a b : ℚ} (hx : x.val = .fin a) (hy : y.val = .fin b) (hb : b ≠ 0) (h : |a / b| ≤ big) :
    ∃ v, (x /. y).val = .fin v ∧ |v - a / b| ≤ u * |a / b| + tiny := by
  rw [div_val _ _ (by rw [hy]; simpa using hb), hx, hy, Ext.fin_div _ _ hb]
  exact roundE_err h

end B64

end Verif
