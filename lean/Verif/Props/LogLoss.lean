import Verif.Lemmas.LogLoss
import Mathlib.Analysis.Complex.ExponentialBounds
/-!
# C72: classification boosting lowers the log loss when the learning rate is small

Over the real numbers with the exponential function.  One more iteration of either classification ensemble does not increase the log loss
on the training set, provided the learning rate is at most every probability the ensemble gives to a class of a training row, and at
most every complementary probability.
-/

set_option linter.unusedSectionVars false

namespace Verif

section
variable {d : DataSet (Ext ℝ)} {c t : Nat} {ls : List (List ℝ)} {cfg : TreeConfig} {lr : ℝ}

theorem rateBelow_start {n : Nat} (h2 : 2 ≤ t) (h : lr ≤ 1 / t) : RateBelow lr (List.replicate n (List.replicate t (1 / (t : ℝ)))) := by
  intro v hv p hp
  rw [List.eq_of_mem_replicate hv] at hp
  obtain ⟨x, hx, rfl⟩ := List.mem_map.mp hp
  rw [List.eq_of_mem_replicate hx]
  have ht : (2 : ℝ) ≤ t := by exact_mod_cast h2
  have : HasExp.exp (1 / (t : ℝ)) / ((List.replicate t (1 / (t : ℝ))).map HasExp.exp).sum = 1 / t := by
    have := HasExp.exp_pos (1 / (t : ℝ))
    simp only [List.map_replicate, List.sum_replicate, nsmul_eq_mul]
    field_simp
  rw [this]
  have h3 : 1 / (t : ℝ) ≤ 1 / 2 := one_div_le_one_div_of_le (by norm_num) ht
  constructor <;> linarith

theorem loss_start {n : Nat} (h2 : 2 ≤ t) (hh : ∀ l ∈ ls, ∃ k < t, l = hot t k) (hn : n = ls.length) :
    logLoss ls (List.replicate n (List.replicate t (1 / (t : ℝ)))) = ls.length * Real.log t := by
  subst hn
  have ht : (2 : ℝ) ≤ t := by exact_mod_cast h2
  have : List.zipWith rowLoss ls (List.replicate ls.length (List.replicate t (1 / (t : ℝ)))) = List.replicate ls.length (Real.log t) := by
    apply List.ext_getElem (by simp)
    intro i h1 h3
    simp only [List.length_replicate] at h3
    simp only [List.getElem_zipWith, List.getElem_replicate]
    obtain ⟨k, hk, he⟩ := hh _ (List.getElem_mem h3)
    rw [he, rowLoss_hot hk (by simp)]
    simp only [List.map_replicate, List.sum_replicate, nsmul_eq_mul]
    rw [Real.log_mul (by linarith) (Real.exp_pos _).ne', Real.log_exp]
    simp [hk]
  rw [logLoss, this]
  simp

end

/-- **C72** (multi-class).  One-hot labels of two or more classes, any depth, any number of iterations: let `scores` and `scores'` be the raw
scores that the ensembles with `n` and `n + 1` iterations give to the training rows.  If the learning rate is at most every soft-max
probability of `scores` and at most one minus it, the log loss of `scores'` is at most that of `scores`, and smaller unless the scores
are the same. -/
theorem C72_multiClass (d : DataSet (Ext ℝ)) (c t : Nat) (h : d.WF c t) (h2 : 2 ≤ t) (ht : t ≤ 2 ^ 53) (ls : List (List ℝ))
    (hls : d.labels = lift ls) (hot : ∀ l ∈ d.labels, ∃ k < t, l = oneHot t k) (cfg : TreeConfig) (hc : cfg.numberOfClasses = t) (n : Nat)
    (lr : ℝ) (h0 : 0 ≤ lr) :
    ∃ m m' scores scores', multiClassTrain d cfg n (.fin lr) = .ok m ∧ multiClassTrain d cfg (n + 1) (.fin lr) = .ok m' ∧
      d.featureRows.mapM (fun row => predictInstance row m.trees m.initialGuess m.learningRate) = .ok (lift scores) ∧
      d.featureRows.mapM (fun row => predictInstance row m'.trees m'.initialGuess m'.learningRate) = .ok (lift scores') ∧
      (RateBelow lr scores → logLoss ls scores' ≤ logLoss ls scores ∧ (0 < lr → scores' ≠ scores → logLoss ls scores' < logLoss ls scores)) := by
  obtain ⟨ls', hls', hh⟩ := labels_hot hot
  have : ls' = ls := lift_injective (hls'.symm.trans hls)
  subst this
  have hg : (liftV (List.replicate t (1 / (t : ℝ))) : List (Ext ℝ)).length = t := by simp [liftV]
  obtain ⟨s, ps, h3, hs⟩ := multi_loop (lr := lr) h h2 hls hh hc n
  obtain ⟨s', h4, h5, h6⟩ := class_step_explicit h h2 hls hh hc hg hs.finite
  refine ⟨_, _, ps, updated lr (classOut c t cfg.maxLevels d (probResid ls' ps)) ps d.featureRows, multi_train h h2 ht h3, multi_train h h2 ht (by rw [boostLoop_succ, h3]; exact h4), ?_, ?_, ?_⟩
  · simp only [predictInstance_eq]
    rw [tracks_mapM hs.finite.tracks h.label_count.symm, hs.finite.labels]
  · simp only [predictInstance_eq]
    rw [tracks_mapM h5.tracks h.label_count.symm, h5.labels]
  · intro hrate
    exact loss_drop_multi h2 hh hs.finite.width h0 hrate (by rw [hs.finite.len, hls, lift_length])
      (by rw [← h.label_count, hls, lift_length]) _

/-- **C72** (AMG).  The same for AMG boosting. -/
theorem C72_amg (d : DataSet (Ext ℝ)) (c t : Nat) (h : d.WF c t) (h2 : 2 ≤ t) (ht : t ≤ 2 ^ 53) (ls : List (List ℝ))
    (hls : d.labels = lift ls) (hot : ∀ l ∈ d.labels, ∃ k < t, l = oneHot t k) (cfg : TreeConfig) (hc : cfg.numberOfClasses = t) (n : Nat)
    (lr : ℝ) (h0 : 0 ≤ lr) :
    ∃ m m' scores scores', amgTrain d cfg n (.fin lr) = .ok m ∧ amgTrain d cfg (n + 1) (.fin lr) = .ok m' ∧
      d.featureRows.mapM (fun row => amgPredictInstance row m.trees m.initialGuess m.learningRate m.initialGuess.length) = .ok (lift scores) ∧
      d.featureRows.mapM (fun row => amgPredictInstance row m'.trees m'.initialGuess m'.learningRate m'.initialGuess.length) =
        .ok (lift scores') ∧
      (RateBelow lr scores → logLoss ls scores' ≤ logLoss ls scores ∧ (0 < lr → scores' ≠ scores → logLoss ls scores' < logLoss ls scores)) := by
  obtain ⟨ls', hls', hh⟩ := labels_hot hot
  have : ls' = ls := lift_injective (hls'.symm.trans hls)
  subst this
  have hg : (liftV (List.replicate t (1 / (t : ℝ))) : List (Ext ℝ)).length = t := by simp [liftV]
  obtain ⟨s, ps, h3, hs⟩ := amg_loop (lr := lr) h h2 hls hh hc n
  obtain ⟨s', h4, h5, h6⟩ := amg_step_explicit h h2 hls hh hc hg hs.finite
  refine ⟨_, _, ps, updated lr (amgOutAt c t cfg.maxLevels d (probResid ls' ps)) ps d.featureRows, amg_train h h2 ht h3, amg_train h h2 ht (by rw [boostLoop_succ, h3]; exact h4), ?_, ?_, ?_⟩
  · simp only [amgPredictInstance_eq, hg]
    rw [tracks_mapM hs.finite.tracks h.label_count.symm, hs.finite.labels]
  · simp only [amgPredictInstance_eq, hg]
    rw [tracks_mapM h5.tracks h.label_count.symm, h5.labels]
  · intro hrate
    exact loss_drop_amg h2 hh hs.finite.width h0 hrate (by rw [hs.finite.len, hls, lift_length])
      (by rw [← h.label_count, hls, lift_length]) _

/-- **C72** (first iteration).  An ensemble without trees has log loss `n log t`.  A first iteration with a learning rate of at most
`1 / t` does not increase it. -/
theorem C72_first_iteration (d : DataSet (Ext ℝ)) (c t : Nat) (h : d.WF c t) (h2 : 2 ≤ t) (ht : t ≤ 2 ^ 53) (ls : List (List ℝ))
    (hls : d.labels = lift ls) (hot : ∀ l ∈ d.labels, ∃ k < t, l = oneHot t k) (cfg : TreeConfig) (hc : cfg.numberOfClasses = t)
    (lr : ℝ) (h0 : 0 ≤ lr) (h1 : lr ≤ 1 / t) :
    (∃ m scores, multiClassTrain d cfg 1 (.fin lr) = .ok m ∧
      d.featureRows.mapM (fun row => predictInstance row m.trees m.initialGuess m.learningRate) = .ok (lift scores) ∧
      logLoss ls scores ≤ ls.length * Real.log t) ∧
    ∃ m scores, amgTrain d cfg 1 (.fin lr) = .ok m ∧
      d.featureRows.mapM (fun row => amgPredictInstance row m.trees m.initialGuess m.learningRate m.initialGuess.length) = .ok (lift scores) ∧
      logLoss ls scores ≤ ls.length * Real.log t := by
  obtain ⟨ls', hls', hh⟩ := labels_hot hot
  have : ls' = ls := lift_injective (hls'.symm.trans hls)
  subst this
  have hg : (liftV (List.replicate t (1 / (t : ℝ))) : List (Ext ℝ)).length = t := by simp [liftV]
  have hn : d.labels.length = ls'.length := by rw [hls, lift_length]
  have hw : ∀ p ∈ List.replicate d.labels.length (List.replicate t (1 / (t : ℝ))), p.length = t := by
    intro p hp
    rw [List.eq_of_mem_replicate hp]; simp
  constructor
  · have hs := class_start (out := gradOut) (leafOf := gradLeaf .multiClassClassification t) (d := d) (c := c) (t := t) (m := cfg.maxLevels)
      (ls := ls') (lr := lr) (List.replicate t (1 / (t : ℝ))) (by simp)
    obtain ⟨s', h4, h5, h6⟩ := class_step_explicit h h2 hls hh hc hg hs.finite
    refine ⟨_, updated lr (classOut c t cfg.maxLevels d (probResid ls' (List.replicate d.labels.length (List.replicate t (1 / (t : ℝ))))))
      (List.replicate d.labels.length (List.replicate t (1 / (t : ℝ)))) d.featureRows,
      multi_train h h2 ht (n := 1) (by rw [boostLoop_succ]; exact h4), ?_, ?_⟩
    · simp only [predictInstance_eq]
      rw [tracks_mapM h5.tracks h.label_count.symm, h5.labels]
    · rw [← loss_start h2 hh hn]
      exact (loss_drop_multi h2 hh hw h0 (rateBelow_start h2 h1) (by simp [hn]) (by rw [← h.label_count, hn]) _).1
  · have hs := class_start (out := amgOut t) (leafOf := amgLeaf .multiClassClassification t) (d := d) (c := c) (t := t) (m := cfg.maxLevels)
      (ls := ls') (lr := lr) (List.replicate t (1 / (t : ℝ))) (by simp)
    obtain ⟨s', h4, h5, h6⟩ := amg_step_explicit h h2 hls hh hc hg hs.finite
    refine ⟨_, updated lr (amgOutAt c t cfg.maxLevels d (probResid ls' (List.replicate d.labels.length (List.replicate t (1 / (t : ℝ))))))
      (List.replicate d.labels.length (List.replicate t (1 / (t : ℝ)))) d.featureRows,
      amg_train h h2 ht (n := 1) (by rw [boostLoop_succ]; exact h4), ?_, ?_⟩
    · simp only [amgPredictInstance_eq, hg]
      rw [tracks_mapM h5.tracks h.label_count.symm, h5.labels]
    · rw [← loss_start h2 hh hn]
      exact (loss_drop_amg h2 hh hw h0 (rateBelow_start h2 h1) (by simp [hn]) (by rw [← h.label_count, hn]) _).1

/-! ## a case, and what happens for a large learning rate -/

namespace Sample

/-- three rows, two of class 0 and one of class 1 -/
noncomputable def coin : DataSet (Ext ℝ) :=
  { featureRows := [[.fin 0], [.fin 1], [.fin 2]]
    labels := [oneHot 2 0, oneHot 2 0, oneHot 2 1]
    featureColumns := [[.fin 0, .fin 1, .fin 2]] }

noncomputable def coinLabels : List (List ℝ) := [hot 2 0, hot 2 0, hot 2 1]

theorem coin_labels : coin.labels = lift coinLabels := by
  simp [coin, coinLabels, lift, oneHot_lift]

theorem coin_wf : coin.WF 1 2 := by
  refine ⟨by simp [coin], by simp [coin], by simp [coin], by simp [coin, oneHot], by simp [coin, columnsOf, column], ?_, by norm_num⟩
  intro row hrow x hx
  have : ∀ y : ℝ, isNaN (Ext.fin y) = false := by
    intro y
    simp [isNaN, F64.eq, Ext.le]
  simp only [coin, List.mem_cons, List.not_mem_nil, or_false] at hrow
  rcases hrow with rfl | rfl | rfl <;> (simp only [List.mem_singleton] at hx; rw [hx]; exact this _)

theorem coin_hot : ∀ l ∈ coin.labels, ∃ k < 2, l = oneHot 2 k := by
  intro l hl
  simp only [coin, List.mem_cons, List.not_mem_nil, or_false] at hl
  rcases hl with rfl | rfl | rfl
  · exact ⟨0, by norm_num, rfl⟩
  · exact ⟨0, by norm_num, rfl⟩
  · exact ⟨1, by norm_num, rfl⟩

end Sample

open Sample

-- three rows: the hypotheses are met, for instance with learning rate 1/2 in the first iteration
example : ∃ m scores, multiClassTrain coin { useMultiThreading := false, maxLevels := 3, numberOfClasses := 2 } 1 (.fin (1 / 2)) = .ok m ∧
    coin.featureRows.mapM (fun row => predictInstance row m.trees m.initialGuess m.learningRate) = .ok (lift scores) ∧
    logLoss coinLabels scores ≤ 3 * Real.log 2 := by
  have := (C72_first_iteration coin 1 2 coin_wf le_rfl (by norm_num) coinLabels coin_labels coin_hot
    { useMultiThreading := false, maxLevels := 3, numberOfClasses := 2 } rfl (1 / 2) (by norm_num) (by norm_num)).1
  simpa [coinLabels] using this

theorem coin_start : probResid coinLabels (List.replicate 3 (List.replicate 2 (1 / ((2 : Nat) : ℝ)))) =
    [[1 / 2, -1 / 2], [1 / 2, -1 / 2], [-1 / 2, 1 / 2]] := by
  have h : softmax (List.replicate 2 (1 / ((2 : Nat) : ℝ))) = [1 / 2, 1 / 2] := by
    have h0 := (HasExp.exp_pos (1 / ((2 : Nat) : ℝ))).ne'
    simp only [softmax, List.replicate, List.map_cons, List.map_nil, List.sum_cons, List.sum_nil, add_zero]
    congr 1
    · field_simp; norm_num
    · congr 1; field_simp; norm_num
  simp only [probResid, coinLabels, List.replicate_succ, List.zipWith_cons_cons] at h ⊢
  simp only [List.replicate_zero] at h ⊢
  rw [h]
  norm_num [hot, List.range_succ]

/-- **C72** (limit).  With a large learning rate the log loss can rise: two classes, rows of classes 0, 0 and 1 in a single leaf, learning
rate 10. -/
theorem C72_violated_for_large_rate : ∃ m m' scores scores',
    multiClassTrain coin { useMultiThreading := false, maxLevels := 0, numberOfClasses := 2 } 0 (.fin 10) = .ok m ∧
    multiClassTrain coin { useMultiThreading := false, maxLevels := 0, numberOfClasses := 2 } 1 (.fin 10) = .ok m' ∧
    coin.featureRows.mapM (fun row => predictInstance row m.trees m.initialGuess m.learningRate) = .ok (lift scores) ∧
    coin.featureRows.mapM (fun row => predictInstance row m'.trees m'.initialGuess m'.learningRate) = .ok (lift scores') ∧
    logLoss coinLabels scores < logLoss coinLabels scores' := by
  obtain ⟨ls', hls', hh⟩ := labels_hot coin_hot
  have : ls' = coinLabels := lift_injective (hls'.symm.trans coin_labels)
  subst this
  have hlen : coin.labels.length = 3 := rfl
  have hg : (liftV (List.replicate 2 (1 / ((2 : Nat) : ℝ))) : List (Ext ℝ)).length = 2 := by simp [liftV]
  have hs := class_start (out := gradOut) (leafOf := gradLeaf .multiClassClassification 2) (d := coin) (c := 1) (t := 2) (m := 0)
      (ls := coinLabels) (lr := 10) (List.replicate 2 (1 / ((2 : Nat) : ℝ))) (by simp)
  obtain ⟨s', h4, h5, h6⟩ := class_step_explicit (cfg := { useMultiThreading := false, maxLevels := 0, numberOfClasses := 2 }) coin_wf le_rfl
    coin_labels hh rfl hg hs.finite
  refine ⟨_, _, _, _, multi_train coin_wf le_rfl (by norm_num) (n := 0) rfl,
    multi_train coin_wf le_rfl (by norm_num) (n := 1) (by rw [boostLoop_succ]; exact h4),
    by simp only [predictInstance_eq]; rw [tracks_mapM hs.finite.tracks coin_wf.label_count.symm, hs.finite.labels],
    by simp only [predictInstance_eq]; rw [tracks_mapM h5.tracks coin_wf.label_count.symm, h5.labels], ?_⟩
  rw [hlen] at *
  rw [loss_start le_rfl hh (by simp [coinLabels]), coin_start]
  have hout : ∀ row ∈ coin.featureRows, classOut 1 2 0 coin [[1 / 2, -1 / 2], [1 / 2, -1 / 2], [-1 / 2, (1 / 2 : ℝ)]] row = [1 / 3, -1 / 3] := by
    intro row _
    have hm : mates (classTree 1 2 0 coin [[1 / 2, -1 / 2], [1 / 2, -1 / 2], [-1 / 2, (1 / 2 : ℝ)]])
        (coin.featureRows.zip [[1 / 2, -1 / 2], [1 / 2, -1 / 2], [-1 / 2, (1 / 2 : ℝ)]]) row =
        [[1 / 2, -1 / 2], [1 / 2, -1 / 2], [-1 / 2, (1 / 2 : ℝ)]] := by
      simp only [mates, classTree, treeOf, TreeNode.route_leafNode, decide_true, List.filter_true]
      rfl
    rw [classOut, hm]
    norm_num [classLeaf, target, List.range_succ, abs_of_nonneg]
  have hupd : updated 10 (classOut 1 2 0 coin [[1 / 2, -1 / 2], [1 / 2, -1 / 2], [-1 / 2, (1 / 2 : ℝ)]])
      (List.replicate 3 (List.replicate 2 (1 / ((2 : Nat) : ℝ)))) coin.featureRows =
      List.replicate 3 [1 / 2 + 10 / 3, 1 / 2 - 10 / 3] := by
    have h1 := hout [.fin 0] (by simp [coin])
    have h2 := hout [.fin 1] (by simp [coin])
    have h3 := hout [.fin 2] (by simp [coin])
    simp only [updated, coin] at *
    simp only [List.replicate_succ, List.replicate_zero, List.zipWith_cons_cons, List.zipWith_nil_left, h1, h2, h3]
    norm_num
  rw [hupd]
  have hab : Real.log ((([1 / 2 + 10 / 3, 1 / 2 - 10 / 3] : List ℝ).map Real.exp).sum) ≥ 1 / 2 + 10 / 3 := by
    rw [ge_iff_le, Real.le_log_iff_exp_le (by simp; positivity)]
    simp only [List.map_cons, List.map_nil, List.sum_cons, List.sum_nil, add_zero]
    have := Real.exp_pos (1 / 2 - 10 / 3)
    linarith
  have h0 := rowLoss_hot (t := 2) (k := 0) (by norm_num) (v := [1 / 2 + 10 / 3, 1 / 2 - 10 / 3]) rfl
  have h1 := rowLoss_hot (t := 2) (k := 1) (by norm_num) (v := [1 / 2 + 10 / 3, 1 / 2 - 10 / 3]) rfl
  simp only [List.getD_cons_zero, List.getD_cons_succ] at h0 h1
  have hloss : logLoss coinLabels (List.replicate 3 [1 / 2 + 10 / 3, 1 / 2 - 10 / 3]) =
      rowLoss (hot 2 0) [1 / 2 + 10 / 3, 1 / 2 - 10 / 3] + (rowLoss (hot 2 0) [1 / 2 + 10 / 3, 1 / 2 - 10 / 3] +
        rowLoss (hot 2 1) [1 / 2 + 10 / 3, 1 / 2 - 10 / 3]) := by
    simp [logLoss, coinLabels, List.replicate_succ]
  rw [hloss, h0, h1]
  have := Real.log_two_lt_d9
  simp only [coinLabels, List.length_cons, List.length_nil]
  push_cast
  linarith

end Verif
