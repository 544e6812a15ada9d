import Verif.Lemmas.NearTree
import Verif.Lemmas.Leaf
/-!
# Rounding errors of averages
-/

set_option linter.unusedSectionVars false

namespace Verif

open B64

variable [B64Env]

theorem vecSum_foldl (labels : List (List B64)) (t : ℕ) :
    vecSum t labels = (labels.foldl updLeft (leftStart t)).metrics.sumOfLabels := by
  induction labels using List.reverseRecOn with
  | nil => rfl
  | append_singleton ls l ih =>
    simp only [vecSum, List.foldl_append, List.foldl_cons, List.foldl_nil] at ih ⊢
    rw [ih]
    rfl

theorem avgVec_near {t : ℕ} {B : ℚ} {labels : List (List B64)} {ls : List (List ℚ)} (hS : Scale ls.length B)
    (hl : labels.map (List.map B64.val) = lift ls) (ht : ∀ v ∈ ls, v.length = t) (hB : AtMost B ls) (hne : ls ≠ []) {j : ℕ} (hj : j < t) :
    Near ((avgVec t labels).getD j F64.zero) (meanOf (target ls j)) (averageTolerance ls.length B) := by
  have h := foldl_near hS ls labels 0 _ [] (leftStart_near hS t) hl ht hB (by simp) (by omega)
  simp only [List.nil_append, Nat.zero_add] at h
  have hlen : labels.length = ls.length := by
    have := congrArg List.length hl
    simpa [lift] using this
  have hn1 : 1 ≤ ls.length := List.length_pos_of_ne_nil hne
  have hn0 : (1 : ℚ) ≤ ls.length := by exact_mod_cast hn1
  have hcnt : (F64.ofNat labels.length : B64).val = .fin (ls.length : ℚ) := by
    have := roundE_nat (n := ls.length) (by have := hS.rows; omega)
    simpa [hlen] using this
  have hvl : (vecSum t labels).length = t := by rw [vecSum_foldl]; exact h.shape.sums
  have e0 : (avgVec t labels).getD j F64.zero = (vecSum t labels).getD j F64.zero /. F64.ofNat labels.length := by
    simp [avgVec, List.getD, hvl, hj]
  rw [e0, vecSum_foldl]
  have hB0 := hS.pos
  have hu := u_pos
  have hul := u_le
  have htl := hS.tiny_lin
  have hbl := hS.lin_big
  have hnq := hS.rows_q
  have ht0 := tiny_pos
  norm_num at htl hbl
  have hs := h.sums j hj
  have hsum : |(target ls j).sum| ≤ ls.length * B := by
    have := abs_sum_le (hB.target hB0.le j)
    simpa [target] using this
  have hm : |(target ls j).sum| / ls.length ≤ B := by rw [div_le_iff₀ (by linarith)]; linarith
  have hnu : (ls.length : ℚ) * u ≤ 1 / 1024 := by
    have := mul_le_mul_of_nonneg_right hnq hu.le
    refine this.trans ?_
    unfold u; norm_num
  have e1 : 4 * (ls.length : ℚ) * (u * (ls.length * B)) / ls.length = 4 * (ls.length * u) * B := by field_simp
  have hnuB : (ls.length : ℚ) * u * B ≤ 1 / 1024 * B := mul_le_mul_of_nonneg_right hnu hB0.le
  have huB : u * B ≤ ls.length * u * B := mul_le_mul_of_nonneg_right (by nlinarith) hB0.le
  have h2 := hs.div hcnt (by linarith) (by rw [e1]; linarith)
  rw [e1] at h2
  have e2 : meanOf (target ls j) = (target ls j).sum / ls.length := by simp [meanOf, target]
  rw [e2]
  refine h2.weaken ?_
  have g1 : u * (|(target ls j).sum| / ls.length) ≤ u * B := mul_le_mul_of_nonneg_left hm hu.le
  have g2 : u * (4 * (ls.length * u) * B) ≤ 1 / 1024 * (4 * (ls.length * u) * B) := mul_le_mul_of_nonneg_right hul (by positivity)
  have e3 : averageTolerance ls.length B = 8 * (ls.length * u * B) := by unfold averageTolerance u; ring
  rw [e3]
  linarith

end Verif
