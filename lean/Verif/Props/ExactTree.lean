import Verif.Lemmas.ExactTree
import Verif.Props.Exact
import Verif.Props.Score
/-!
# C25 and C29 with exact arithmetic: errors of regression trees and ensembles
-/

set_option linter.unusedSectionVars false
set_option linter.unusedSimpArgs false

namespace Verif

variable {K : Type} [Field K] [LinearOrder K] [IsStrictOrderedRing K] [FloorSemiring K] [HasExp K]

open Sample

/-! ## C29 -/

theorem companions_lift {L : Type} {d : DataSet (Ext K)} {ls : List (List K)} (hls : d.labels = lift ls) (tree : TreeNode (Ext K) L)
    (row : List (Ext K)) : companions d tree row = lift (mates tree (d.featureRows.zip ls) row) := by
  rw [companions, examples_lift hls, List.filter_map, List.map_map, mates, lift, List.map_map]
  rfl

/-- the score of a tree as a mean of squared errors -/
theorem overallMse_exact {d : DataSet (Ext K)} {c t : Nat} (h : d.WF c t) (ht0 : 0 < t) {ls : List (List K)} (hls : d.labels = lift ls)
    (m : Nat) {test : DataSet (Ext K)} (hrows : ∀ row ∈ test.featureRows, c ≤ row.length) {as : List (List K)}
    (has : test.labels = lift as) (haw : ∀ a ∈ as, a.length = t) (hcount : as.length = test.featureRows.length)
    (hne : test.featureRows ≠ []) :
    calculateOverallMse test (treeOf regLeaf c t m d) = .ok (.fin (mseOf (test.featureRows.map (fun row =>
      meanVec t (mates (treeOf regLeaf c t m d) (d.featureRows.zip ls) row))) as)) := by
  have hn := length_cast_ne (K := K) hne
  set pred := fun row => meanVec t (mates (treeOf regLeaf c t m d) (d.featureRows.zip ls) row) with hpred
  rw [mseOf_range (n := test.featureRows.length) (by simp) hcount, calculateOverallMse,
    error_loop (e := fun i => sqErr ((test.featureRows.map pred).getD i []) (as.getD i [])), R.ok_bind, R.pure_eq,
    Ext.ofNat_def, Ext.fin_div _ _ hn]
  intro i hi s
  obtain ⟨dd, hw, hf, he⟩ := tree_lookup (leafOf := regLeaf) m h (hrows _ (List.getElem_mem hi))
  obtain ⟨h1, h2, h3⟩ := mates_ok hls hw he
  have hi2 : i < as.length := by omega
  have hi3 : i < test.labels.length := by rw [has, lift_length]; exact hi2
  rw [idx_lt hi, R.ok_bind, hf, R.ok_bind]
  simp only [regLeaf, unwrap, R.ok_bind, R.pure_eq]
  rw [calculateAverageLabelVector_eq, calculateAverageVector_ok hw.labels_ne hw.label_len, R.ok_bind, idx_lt hi3, R.ok_bind]
  have h4 : test.labels[i] = liftV as[i] := by simp only [has, lift, List.getElem_map]
  have h5 : avgVec t dd.labels = liftV (pred test.featureRows[i]) := by rw [h1, avgVec_exact h3 h2]
  rw [h4, h5, meanSumOfSquaredDifferencesVectors_exact ht0 (meanVec_length _ _) (haw _ (List.getElem_mem _))]
  simp [hi, hi2, hpred]

/-- **C29** (tree, exact).  The score of a trained tree on a test set is the average over the rows of the average squared error
per target, where the prediction for a row is the mean of the training labels that share its path.  It is never negative, and zero
exactly when every prediction equals its label. -/
theorem C29_tree_exact (d : DataSet (Ext K)) (c t : Nat) (h : d.WF c t) (ht0 : 0 < t) (ls : List (List K)) (hls : d.labels = lift ls)
    (cfg : TreeConfig) (ht : cfg.numberOfClasses = t) (tree : TreeNode (Ext K) (RegressionLeaf (Ext K)))
    (hb : regressionTreeNew d cfg = .ok tree) (test : DataSet (Ext K)) (hrows : ∀ row ∈ test.featureRows, c ≤ row.length)
    (as : List (List K)) (has : test.labels = lift as) (haw : ∀ a ∈ as, a.length = t) (hcount : as.length = test.featureRows.length)
    (hne : test.featureRows ≠ []) :
    ∃ ps : List (List K),
      List.Forall₂ (fun row p => ∃ cs, companions d tree row = lift cs ∧ p = meanVec t cs) test.featureRows ps ∧
      calculateOverallMse test tree = .ok (.fin (mseOf ps as)) ∧ 0 ≤ mseOf ps as ∧ (mseOf ps as = 0 ↔ ps = as) := by
  rw [regressionTreeNew_ok h ht] at hb
  have := Except.ok.inj hb
  subst this
  refine ⟨_, ?_, overallMse_exact h ht0 hls cfg.maxLevels hrows has haw hcount hne, mseOf_nonneg _ _, ?_⟩
  · rw [List.forall₂_map_right_iff, List.forall₂_same]
    exact fun row _ => ⟨_, companions_lift hls _ row, rfl⟩
  · refine mseOf_eq_zero ht0 ?_ haw (by simp [hcount]) (by simpa using hne)
    intro p hp
    obtain ⟨row, _, rfl⟩ := List.mem_map.mp hp
    exact meanVec_length _ _

/-- **C29** (ensemble, exact).  The score of a regression ensemble whose predictions on the test rows are `ps` is the average over
the rows of the average squared error per target; never negative, and zero exactly when every prediction equals its label. -/
theorem C29_ensemble_exact (m : BoostModel (Ext K) (GradBoostLeaf (Ext K))) (test : DataSet (Ext K)) (t : Nat) (ht0 : 0 < t)
    (ps as : List (List K)) (hp : test.featureRows.mapM (regressionPredict m) = .ok (lift ps)) (has : test.labels = lift as)
    (hpw : ∀ p ∈ ps, p.length = t) (haw : ∀ a ∈ as, a.length = t) (hcount : as.length = test.featureRows.length)
    (hne : test.featureRows ≠ []) :
    regressionScore m test = .ok (.fin (mseOf as ps)) ∧ 0 ≤ mseOf as ps ∧ (mseOf as ps = 0 ↔ as = ps) := by
  have hlen : ps.length = as.length := by
    have := mapM_length hp
    rw [lift_length] at this
    omega
  have hne' : as ≠ [] := by
    intro h0
    rw [h0] at hcount
    exact hne (List.length_eq_zero_iff.mp hcount.symm)
  refine ⟨?_, mseOf_nonneg _ _, mseOf_eq_zero ht0 haw hpw hlen.symm hne'⟩
  rw [regressionScore, (C43_batch m ⟨[], [], F64.zero⟩ test).1, hp, R.ok_bind, has]
  exact calculateMeanSquaredError_exact ht0 haw hpw hlen hne'

-- a trained tree and a test set; the score is not zero
example : (do
    let tree ← regressionTreeNew distinct4 { useMultiThreading := false, numberOfClasses := 1, maxLevels := 1 }
    calculateOverallMse d4 tree) = .ok (.fin (55 / 16)) := by decide +kernel

/-! ## C25 -/

theorem mse_mates {d : DataSet (Ext K)} {c t : Nat} (h : d.WF c t) {ls : List (List K)} (hls : d.labels = lift ls)
    (f : List (Ext K) → List K) (hf : ∀ row, (f row).length = t) :
    mseOf (d.featureRows.map f) ls = ((d.featureRows.zip ls).map (fun e =>
      ((List.range t).map (fun j => ((f e.1).getD j 0 - e.2.getD j 0) ^ 2)).sum)).sum / t / d.featureRows.length := by
  have hll : ls.length = d.featureRows.length := by rw [← h.label_count, hls, lift_length]
  have hlw := lift_width hls h.label_len
  rw [mseOf, List.length_map]
  congr 1
  rw [div_eq_mul_inv, ← List.sum_map_mul_right, List.zipWith_map_left, ← List.map_uncurry_zip_eq_zipWith]
  congr 1
  apply List.map_congr_left
  intro e he
  simp only [Function.uncurry]
  rw [sqErr_eq (hf _) (hlw _ (List.of_mem_zip (show (e.1, e.2) ∈ _ from he)).2), div_eq_mul_inv]

/-- **C25**.  On its own training set the error of a regression tree is at most that of always predicting the mean label: the mean
over the targets of the variance of the labels. -/
theorem C25_training_error (d : DataSet (Ext K)) (c t : Nat) (h : d.WF c t) (ht0 : 0 < t) (ls : List (List K)) (hls : d.labels = lift ls)
    (cfg : TreeConfig) (ht : cfg.numberOfClasses = t) :
    ∃ tree e, regressionTreeNew d cfg = .ok tree ∧ calculateOverallMse d tree = .ok (.fin e) ∧ e ≤ totalVar t ls / t := by
  have hll : ls.length = d.featureRows.length := by rw [← h.label_count, hls, lift_length]
  have hlw := lift_width hls h.label_len
  refine ⟨_, _, regressionTreeNew_ok h ht,
    overallMse_exact h ht0 hls cfg.maxLevels (fun row hr => (h.row_len row hr).ge) hls hlw hll h.rows_ne, ?_⟩
  have htp : (0 : K) < t := by exact_mod_cast ht0
  have hnp : (0 : K) < d.featureRows.length := by exact_mod_cast List.length_pos_of_ne_nil h.rows_ne
  rw [mse_mates h hls (fun row => meanVec t (mates _ _ row)) (fun _ => meanVec_length _ _), div_div, mul_comm, ← div_div,
    div_le_div_iff_of_pos_right htp, div_le_iff₀ hnp]
  have := finer_le (t := t) (fun _ => ()) (fun row => (treeOf regLeaf c t cfg.maxLevels d).route row) (fun _ _ _ => rfl)
    (d.featureRows.zip ls)
  refine this.trans (le_of_eq ?_)
  simp only [decide_true, List.filter_true]
  rw [sum_range_swap, totalVar, ← List.sum_map_mul_right]
  congr 1
  apply List.map_congr_left
  intro j hj
  rw [List.mem_range] at hj
  simp only [meanVec, getD_range hj]
  rw [List.map_snd_zip (by omega)]
  have h1 := length_mul_varOf (target ls j)
  rw [target_length, hll] at h1
  rw [mul_comm, h1, sqDev]
  have h2 : target ls j = (d.featureRows.zip ls).map (fun e => e.2.getD j 0) := by
    rw [target]
    conv_lhs => rw [← List.map_snd_zip (l₁ := d.featureRows) (l₂ := ls) (by omega)]
    rw [List.map_map]
    rfl
  conv_rhs => rw [h2]
  rw [List.map_map]
  congr 1
  apply List.map_congr_left
  intro e _
  simp only [Function.comp]
  rw [← h2]
  ring

/-- **C25**.  Allowing more levels never increases the training error. -/
theorem C25_more_levels (d : DataSet (Ext K)) (c t : Nat) (h : d.WF c t) (ht0 : 0 < t) (ls : List (List K)) (hls : d.labels = lift ls)
    (cfg cfg' : TreeConfig) (ht : cfg.numberOfClasses = t) (ht' : cfg'.numberOfClasses = t) (hle : cfg.maxLevels ≤ cfg'.maxLevels) :
    ∃ tree tree' e e', regressionTreeNew d cfg = .ok tree ∧ regressionTreeNew d cfg' = .ok tree' ∧
      calculateOverallMse d tree = .ok (.fin e) ∧ calculateOverallMse d tree' = .ok (.fin e') ∧ e' ≤ e := by
  have hll : ls.length = d.featureRows.length := by rw [← h.label_count, hls, lift_length]
  have hlw := lift_width hls h.label_len
  have hrl : ∀ row ∈ d.featureRows, c ≤ row.length := fun row hr => (h.row_len row hr).ge
  refine ⟨_, _, _, _, regressionTreeNew_ok h ht, regressionTreeNew_ok h ht',
    overallMse_exact h ht0 hls cfg.maxLevels hrl hls hlw hll h.rows_ne,
    overallMse_exact h ht0 hls cfg'.maxLevels hrl hls hlw hll h.rows_ne, ?_⟩
  have htp : (0 : K) < t := by exact_mod_cast ht0
  have hnp : (0 : K) < d.featureRows.length := by exact_mod_cast List.length_pos_of_ne_nil h.rows_ne
  rw [mse_mates h hls (fun row => meanVec t (mates _ _ row)) (fun _ => meanVec_length _ _),
    mse_mates h hls (fun row => meanVec t (mates _ _ row)) (fun _ => meanVec_length _ _),
    div_le_div_iff_of_pos_right hnp, div_le_div_iff_of_pos_right htp]
  refine finer_le (t := t) (fun row => (treeOf regLeaf c t cfg.maxLevels d).route row)
    (fun row => (treeOf regLeaf c t cfg'.maxLevels d).route row) ?_ (d.featureRows.zip ls)
  intro a b hab
  obtain ⟨k, hk⟩ := Nat.exists_eq_add_of_le hle
  rw [hk] at hab
  simp only [route_take _ k cfg.maxLevels d, hab]

-- the error without a split is the variance; it falls with each level
example : d4.labels = lift [[0], [1], [4], [6]] ∧ (totalVar 1 [[0], [1], [4], [6]] / 1 : ℚ) = 91 / 16 ∧
    (do
      let t0 ← regressionTreeNew d4 { useMultiThreading := false, numberOfClasses := 1, maxLevels := 0 }
      let t1 ← regressionTreeNew d4 { useMultiThreading := false, numberOfClasses := 1, maxLevels := 1 }
      let t2 ← regressionTreeNew d4 { useMultiThreading := true, numberOfClasses := 1, maxLevels := 2 }
      pure (← calculateOverallMse d4 t0, ← calculateOverallMse d4 t1, ← calculateOverallMse d4 t2)) =
      (.ok (.fin (91 / 16), .fin (19 / 6), .fin (1 / 2)) : R (E × E × E)) := by decide +kernel

end Verif
