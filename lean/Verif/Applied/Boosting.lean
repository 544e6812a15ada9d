import Verif.Applied.Facts
import Verif.Props.Boost
import Verif.Props.Bounded
import Verif.Props.Custom
import Verif.Props.DeepClass
import Verif.Props.Degenerate
import Verif.Props.ExactBoost
import Verif.Props.ExactClass
import Verif.Props.Exhaust
import Verif.Props.Hull
import Verif.Props.Interact
import Verif.Props.Own
import Verif.Props.Progress
import Verif.Props.Repeat
import Verif.Props.Special
import Verif.Props.Standstill
import Verif.Props.Trend
import Verif.Props.TwoClasses

/-! Theorems about the ensembles, applied to the sample data: each `example` is a theorem whose hypotheses are all discharged. -/

namespace Verif.Applied

open Sample

/-! ### Props/Boost.lean -/

example := C32_regression (F := E) d4 (cfg 1) 2 3 (by met) half _ (returns (regressionTrain d4 (cfg 1) 3 half) (by decide +kernel))
example := C31_no_trees_regression (F := E) d4 (cfg 1) half _ (returns _ (by decide +kernel)) [1, 7]
example := C33_classification_tracked (F := E) d5 (by met) (cfg 3) 2 half { data := d5, mutableLabels := [], size := 5 }
example := C31_multiClass (F := E) d5 (cfg 3) 2 half multi5 multi5_ok
example := C42_amg (F := E) d4 2 1 (by met) (by met) (by met) (cfg 1) (by met) 2 half
example := C32_amg (F := E) d5 (cfg 3) 2 3 (by met) half _ (returns (amgTrain d5 (cfg 3) 3 half) (by decide +kernel))
example := C42_regression (F := E) d4 2 1 (by met) (cfg 1) (by met) 2 half
example := C33_regression_residual_tree (F := E) d4 (by met) (cfg 1) 2 half _ (returns _ (by decide +kernel)) 1 _ (contains _
  (by decide +kernel))
example := C32_multiClass (F := E) d5 (cfg 3) 2 3 (by met) half _ (returns (multiClassTrain d5 (cfg 3) 3 half) (by decide +kernel))
example := C33_multiClass_residual_tree (F := E) d5 (by met) (cfg 3) 2 half _ (returns _ (by decide +kernel)) 1 _ (contains _
  (by decide +kernel))
example := C33_regression_tracked (F := E) d4 (by met) (cfg 1) 2 half _ _ (returns (regressionTrainFull d4 (cfg 1) 2 half)
  (by decide +kernel))
example := C40_amg_leaf (F := E) d4 2 1 (by met) (by met) (cfg 1) (by met) .regression _ (returns _ (by decide +kernel)) [true, false] _
  (contains _ (by decide +kernel))
example := C31_regression (F := E) d4 (cfg 1) 2 half ens4 ens4_ok
example := C33_amg_residual_tree (F := E) d5 (by met) (cfg 3) 2 half _ (returns _ (by decide +kernel)) 1 _ (contains _ (by decide +kernel))
example := C42_multiClass (F := E) d4 2 1 (by met) (by met) (by met) (cfg 1) (by met) 2 half
example := C31_amg (F := E) d5 (cfg 3) 2 half amg5 amg5_ok

/-! ### Props/ExactBoost.lean -/

example := C35_training_error (K := ℚ) d4 2 1 (by met) (by met) labels4 (by met) (cfg 1) (by met) 2 (1 / 2) (by met) (by met)
example := C36_unbiased (K := ℚ) d4 2 1 (by met) labels4 (by met) (cfg 1) (by met) 2 (1 / 2)
example := C34_trained (K := ℚ) d4 2 1 (by met) labels4 (by met) (cfg 1) (by met) 2 (1 / 2)
example := C35_more_iterations (K := ℚ) d4 2 1 d4_wf (by met) labels4 labels4_eq (cfg 1) rfl 2 5 (by met) (1 / 2) (by met) (by met)

/-! ### Props/ExactClass.lean -/

example := C38_denominator (K := ℚ) [[1 / 2, -1 / 2], [1 / 3, -1 / 3]] (by met) 2 1 (by met) (by decide +kernel)
example := C37_probabilities (K := ℚ) [1, 2, 0] (by met)
example := C38_one_class (K := ℚ) { d4 with labels := [[1], [1], [1], [1]] } 2 (by constructor <;> decide +kernel) (by decide +kernel) (cfg
  1) rfl 2 half
example := C41_scores_sum_to_one (K := ℚ) d5 2 3 (by met) (by met) (by met) (by met) (cfg 3) (by met) 2 (1 / 2)
example := C38_leaf_formula (K := ℚ) d5 2 3 (by met) (by met) (by met) (by met) (cfg 3) (by met) 2 (1 / 2)
example := C37_residuals (K := ℚ) { data := d5, mutableLabels := lift [[1, 2, 0], [1, 2, 0], [0, 0, 0], [1, 1, 1], [0, 1, 0]], size := 5 } 3
  (by met) rfl hot [[1, 2, 0], [1, 2, 0], [0, 0, 0], [1, 1, 1], [0, 1, 0]] rfl rfl (by met)
example := C38_scores_finite (K := ℚ) d5 2 3 (by met) (by met) (by met) (by met) (cfg 3) (by met) 2 (1 / 2)
example := C41_leaf_sums_to_zero (K := ℚ) 3 (by met) { maxValue := some (.fin (1 / 2)), cls := some 1 } (1 / 2) 1 (by met) rfl rfl

/-! ### Props/Bounded.lean -/

example := C97_bounded (K := ℚ) d4 2 1 (by met) labels4 (by met) (cfg 1) (by met) 2 (1 / 2) (by met) (by met)
example := C97_training_rows (K := ℚ) d4 2 1 (by met) labels4 (by met) (cfg 1) (by met) 2 (1 / 2) (by met) (by met)

/-! ### Props/Hull.lean -/

example := C57_ensemble (K := ℚ) shares3 1 2 (by constructor <;> decide +kernel) [[1 / 2, 1 / 2], [1 / 4, 3 / 4], [0, 1]]
  (by decide +kernel) (fun _ => 1) 1 (by decide +kernel) (cfg 2) rfl 2 (1 / 2)
example := C57_tree (K := ℚ) twoTargets 2 2 twoTargets_wf two twoTargets_eq (fun _ => 1) 8 (by decide +kernel) (cfg 2) rfl
example := C57_one_iteration (K := ℚ) twoTargets 2 2 twoTargets_wf two twoTargets_eq (fun _ => 1) 8 (by decide +kernel) (cfg 2) rfl 1
  (by met) (1 / 2) (by met) (by met)

/-! ### Props/Progress.lean -/

example := C68_stagnation (K := ℚ) Sample.xor 2 1 (by constructor <;> decide +kernel) (by met) [[0], [1], [1], [0]] (by decide +kernel)
  (exCfg 1) rfl 1 (1 / 2) (by met) (by met) _ _ (returns (regressionTrain Sample.xor (exCfg 1) 1 half) (by decide +kernel)) (returns
  (regressionTrain Sample.xor (exCfg 1) 2 half) (by decide +kernel)) (by decide +kernel) 5 (by met)
example := C68_decrease (K := ℚ) d4 2 1 (by met) (by met) labels4 (by met) (cfg 1) (by met) 2 (1 / 2)

/-! ### Props/Standstill.lean -/

example := C74_multiClass_exact (K := ℚ) xorClass 2 2 (by constructor <;> decide +kernel) (by met) (by met) (by decide +kernel) (exCfg 2)
  rfl 1 (1 / 2) (by met) _ _ (returns (multiClassTrain xorClass (exCfg 2) 1 half) (by decide +kernel)) (returns (multiClassTrain xorClass
  (exCfg 2) 2 half) (by decide +kernel)) (by decide +kernel) 1
example := C74_multiClass (F := E) xorClass (by decide +kernel) (exCfg 2) 1 half _ _ (returns (multiClassTrain xorClass (exCfg 2) 1 half)
  (by decide +kernel)) (returns (multiClassTrain xorClass (exCfg 2) 2 half) (by decide +kernel)) (by decide +kernel)
example := C74_amg_exact (K := ℚ) xorClass 2 2 (by constructor <;> decide +kernel) (by met) (by met) (by decide +kernel) (exCfg 2) rfl 1 (1
  / 2) (by met) _ _ (returns (amgTrain xorClass (exCfg 2) 1 half) (by decide +kernel)) (returns (amgTrain xorClass (exCfg 2) 2 half)
  (by decide +kernel)) (by decide +kernel) 1
example := C74_regression (F := E) Sample.xor (by decide +kernel) (exCfg 1) 1 half _ _ (returns (regressionTrain Sample.xor (exCfg 1) 1
  half) (by decide +kernel)) (returns (regressionTrain Sample.xor (exCfg 1) 2 half) (by decide +kernel)) (by decide +kernel)
example := C74_amg (F := E) xorClass (by decide +kernel) (exCfg 2) 1 half _ _ (returns (amgTrain xorClass (exCfg 2) 1 half)
  (by decide +kernel)) (returns (amgTrain xorClass (exCfg 2) 2 half) (by decide +kernel)) (by decide +kernel)

/-! ### Props/DeepClass.lean -/

example := C101_amg (K := ℚ) stripes4 1 2 (by constructor <;> decide +kernel) (by met) (by met) [0, 1, 0, 1] (by met) (by decide +kernel)
  (consistent (c := 1) (by decide +kernel) (by decide +kernel)) (cfg 2) rfl (by met) 2 (1 / 2)
example := C101_multiClass (K := ℚ) stripes4 1 2 (by constructor <;> decide +kernel) (by met) (by met) [0, 1, 0, 1] (by met)
  (by decide +kernel)
  (consistent (c := 1) (by decide +kernel) (by decide +kernel)) (cfg 2) rfl (by met) 2 (1 / 2)
example := C101_growth (K := ℚ) 3 (by met) (1 / 2) (by met) 2

/-! ### Props/TwoClasses.lean -/

example := C66_two_classes (K := ℚ) binary 2 (by constructor <;> decide +kernel) (by decide +kernel) (cfg 2) rfl 2 (1 / 2)
example := C66_accuracy (K := ℚ) binary 2 (by constructor <;> decide +kernel) (by decide +kernel) (cfg 2) rfl 2 (1 / 2) binary
  (by decide +kernel)

/-! ### Props/Exhaust.lean -/

example := C99_exhausted (K := ℚ) distinct4 2 1 distinct4_wf labels4 (by decide +kernel) (by decide +kernel) (cfg 1) rfl (by met) (1 / 2)
  (by met) (by met) 1 (by met)

/-! ### Props/Repeat.lean -/

example := C60_tree_score (K := ℚ) d4 2 1 d4_wf (by met) labels4 labels4_eq 2 (by met) (cfg 1) rfl d4 (by decide +kernel) labels4 labels4_eq
  (by decide +kernel) rfl (by decide +kernel) 3 (by met)
example := C60_regression_ensemble (K := ℚ) d4 2 1 (by met) labels4 (by met) 1 (by met) (cfg 1) (by met) 2 (1 / 2)
example := C60_boosting_trees (K := ℚ) d4 2 1 (by met) labels4 (by met) 1 (by met) (cfg 1) (by met) .regression
example := C60_amg_ensemble (K := ℚ) d5 2 3 (by met) (by met) (by met) (by met) 1 (by met) (cfg 3) (by met) 2 (1 / 2)
example := C60_regression_tree (K := ℚ) d4 2 1 (by met) labels4 (by met) 1 (by met) (cfg 1) (by met)
example := C60_split (K := ℚ) d4 2 1 (by met) labels4 (by met) 1 (by met)
example := C60_multiClass_ensemble (K := ℚ) d5 2 3 (by met) (by met) (by met) (by met) 1 (by met) (cfg 3) (by met) 2 (1 / 2)

/-! ### Props/Interact.lean -/

example := C109_classification (K := ℚ) d5 2 3 (by met) (by met) (by met) (by met) (cfg 3) (by met) 2 (1 / 2)
example := C109_boxes (F := E) d4 2 1 d4_wf (cfg 1) rfl .regression [0, 5] [2, 7] [1, 6] (by met) (by met) (by met) between4
example := C109_additive (K := ℚ) d4 2 1 d4_wf labels4 labels4_eq (exCfg 1) rfl (by met) 2 (1 / 2)
example := C109_boxes_ensembles (F := E) d4 2 1 d4_wf (cfg 1) rfl 2 half [0, 5] [2, 7] [1, 6] (by met) (by met) (by met) between4
example := C109_regression (K := ℚ) d4 2 1 (by met) labels4 (by met) (cfg 1) (by met) 2 (1 / 2)
example := C109_tree (F := E) (G := ℚ) d4 2 1 d4_wf (cfg 1) rfl .regression

/-! ### Props/Trend.lean -/

example := C90_one_iteration (K := ℚ) trend5 2 1 trend5_wf [[0], [0], [1], [2], [4]] (by decide +kernel) (fun _ => 1) 0 (by met) follows5
  (cfg 1) rfl 1 (by met) (1 / 2) (by met)
example := C90_tree (K := ℚ) trend5 2 1 trend5_wf [[0], [0], [1], [2], [4]] (by decide +kernel) (fun _ => 1) 0 (by met) follows5 (cfg 1) rfl

/-! ### Props/Own.lean -/

example := C108_round (K := ℚ) d4 2 1 d4_wf labels4 [[1], [1], [1], [1]] labels4_eq rfl (by met) { levels 1 with splitFinder := .new } rfl
  halfMean (C108_scaled_mean_helps (K := ℚ) (1 / 2) (by norm_num) (by norm_num) 2 1).2 (1 / 2) (by met) (by met) _ (returns
  (gradBoostTreeNewOwn ⟨d4.featureRows, lift (remaining labels4 [[1], [1], [1], [1]]), d4.featureColumns⟩ { levels 1 with splitFinder :=
  .new } halfMean) (by decide +kernel))
example := C108_scaled_mean_helps (K := ℚ) (3 / 2) (by met) (by met) 2 1
example := C108_tree (F := E) distinct4 twoCuts firstLabel _ (returns (regressionTreeNewWith distinct4 twoCuts) (by decide +kernel))
example := C108_executor_empty (F := E) (L := GradBoostLeaf E) ⟨[], [], []⟩ rfl (cfg 1) 2 half
example := C108_panics (F := E) d4 2 1 d4_wf (cfg 1) rfl firstLabel .index
example := C108_outputs (F := E) d4 2 1 d4_wf { levels 1 with splitFinder := .new } rfl firstLabel _ (returns (gradBoostTreeNewOwn d4 {
  levels 1 with splitFinder := .new } firstLabel) (by decide +kernel)) [1, 7] (by met)

/-! ### Props/Custom.lean -/

example := C105_returned (F := E) distinct4 2 1 distinct4_wf twoCuts rfl _ (returns (regressionTreeNewWith distinct4 twoCuts)
  (by decide +kernel))
example := C105_returned_boosted (F := E) distinct4 2 1 distinct4_wf twoCuts rfl .regression
example := C105_boosting (K := ℚ) distinct4 2 1 distinct4_wf (by met) labels4 (by decide +kernel) twoCuts rfl 1 (1 / 2) _ (returns
  (regressionTrainWith distinct4 twoCuts (1 + 1) (.fin (1 / 2))) (by decide +kernel))
example := C105_when (F := E) distinct4 2 1 distinct4_wf twoCuts rfl .regression
example := C105_training_error (K := ℚ) distinct4 2 1 distinct4_wf (by met) labels4 (by decide +kernel) twoCuts rfl _ (returns
  (regressionTreeNewWith distinct4 twoCuts) (by decide +kernel))
example := C105_no_panic (F := E) twoCuts 2 1 rfl (firstCut_separates _ 2 1 (by decide +kernel)) distinct4 distinct4_wf .regression 2 half

/-! ### Props/Degenerate.lean -/

example := C67_sorted_tree (F := E) alike 2 1 alike_wf (by met) (cfg 1) _ (returns (createDatasetWithSortedFeatures alike)
  (by decide +kernel)) _ (returns (regressionTreeNewPartitionNew (result (createDatasetWithSortedFeatures alike) (by decide +kernel)) (cfg
  1)) (by decide +kernel)) alike_nothing
example := C67_zero_rate_classification (K := ℚ) d5 2 3 (by met) (by met) (by met) (by met) (cfg 3) (by met) 2
example := C67_same_for_all_rows (F := E) alike 2 1 alike_wf (cfg 1) rfl alike_nothing 2 half [1, 7] [2, 5]
example := C67_tree (F := E) alike 2 1 alike_wf (cfg 1) rfl .regression alike_nothing
example := C67_zero_rate_regression (K := ℚ) d4 2 1 (by met) labels4 (by met) (cfg 1) (by met) 2
example := C67_average (K := ℚ) alike 2 1 alike_wf [[1], [2], [6]] (by decide +kernel) (cfg 1) rfl alike_nothing 2 (1 / 2)

/-! ### Props/Special.lean -/

example := C16_no_gain (F := E) d4inf 2 1 d4inf_wf (by decide +kernel)
example := C16_single_leaf (F := E) d4inf 2 1 d4inf_wf (by decide +kernel) (cfg 1) rfl
example := C16_ensembles (F := E) d4inf 2 1 d4inf_wf (by decide +kernel) (cfg 1) rfl 2 half

end Verif.Applied
