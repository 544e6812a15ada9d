import Verif.Applied.Facts
import Verif.Props.Absent
import Verif.Props.Accept
import Verif.Props.Credit
import Verif.Props.Data
import Verif.Props.Exact
import Verif.Props.ExactTree
import Verif.Props.FullFit
import Verif.Props.Gini
import Verif.Props.Growth
import Verif.Props.LeastSquares
import Verif.Props.Local
import Verif.Props.Place
import Verif.Props.Reads
import Verif.Props.Redundant
import Verif.Props.Reject
import Verif.Props.Rescale
import Verif.Props.SingleRow
import Verif.Props.SingleTree
import Verif.Props.Size
import Verif.Props.Ties
import Verif.Props.Tree
import Verif.Props.Unused

/-! Theorems about the split search, the trees and what they predict, applied to the sample data: each `example` is a theorem whose hypotheses are all discharged. -/

namespace Verif.Applied

open Sample

/-! ### Props/Data.lean -/

example := C01_columns_are_transpose (F := E) [[1, 2, 3], [4, 5, 6]] _ (returns (createFeatureColumns [[1, 2, 3], [4, 5, 6]])
  (by decide +kernel))
example := C04_one_hot_wf (F := E) digit (some [["a", "b", "class"], ["7", "3", "1"], ["1", "2", "0"]]) 2 _ (returns
  (readCsvDataOneHotMultiTarget digit (some [["a", "b", "class"], ["7", "3", "1"], ["1", "2", "0"]]) 2) (by decide +kernel))
  (by decide +kernel) (by decide +kernel)
example := C02_parse_keeps_records (F := E) [[1, 2, 9], [3, 4, 8]] _ (returns (parseDataIntoFeaturesAndLabels [[1, 2, 9], [3, 4, 8]])
  (by decide +kernel))
example := C08_not_reached (F := E) d4 2 1 d4_wf sorted4 [0, 1, 2, 3] represents4 (by met) _ (returns (findBestSplitNewPartition sorted4
  d4.labels 1 2) (by decide +kernel)) (by decide +kernel)
example := C05_sorted_permutation (F := E) [5, 2, 5, 0] _ (returns (getSortedFeatureTupleVector [5, 2, 5, 0]) (by decide +kernel))
example := C08_no_satisfying_row (F := E) sorted4 d4 2 [0, 1, 2, 3] represents4 rfl 0 9 (by met) (by decide +kernel)
example := C06_panics_iff (F := E) d4 2 ⟨d4_wf.row_len, d4_wf.label_count⟩ ⟨1, 7⟩
example := C08_correct_iff (F := E) sorted4 d4 2 [0, 1, 2, 3] represents4 rfl 0 1 (by met)
example := C04_one_hot_consistent (F := E) digit (some [["a", "b", "class"], ["7", "3", "1"], ["1", "2", "0"]]) 2 _ (returns
  (readCsvDataOneHotMultiTarget digit (some [["a", "b", "class"], ["7", "3", "1"], ["1", "2", "0"]]) 2) (by decide +kernel))
example := C04_multi_target_wf (F := E) digit (some [["a", "b"], ["7", "3"], ["1", "2"]]) (some [["y"], ["1"], ["0"]]) _ (returns
  (readCsvDataMultiTarget digit (some [["a", "b"], ["7", "3"], ["1", "2"]]) (some [["y"], ["1"], ["0"]])) (by decide +kernel)) rfl
  (by decide +kernel) (by decide +kernel)
example := C06_partition (F := E) d4 2 ⟨d4_wf.row_len, d4_wf.label_count⟩ ⟨1, 7⟩ _ _ (returns (partition d4 ⟨1, 7⟩) (by decide +kernel))
example := C04_multi_target_consistent (F := E) digit (some [["a", "b"], ["7", "3"], ["1", "2"]]) (some [["y"], ["1"], ["0"]]) _ (returns
  (readCsvDataMultiTarget digit (some [["a", "b"], ["7", "3"], ["1", "2"]]) (some [["y"], ["1"], ["0"]])) (by decide +kernel))
example := C07_new_partition (F := E) sorted4 d4 2 [0, 1, 2, 3] represents4 rfl 0 1 (by met) (by decide +kernel)

/-! ### Props/Exact.lean -/

example := C12_optimal_if_threshold_unique (K := ℚ) distinct4 2 1 distinct4_wf labels4 (by decide +kernel) _ (returns (findBestSplit
  distinct4 1) (by decide +kernel)) (by decide +kernel) (by decide +kernel)
example := C13_order_irrelevant_tree (K := ℚ) distinct4 distinct4' 2 1 distinct4_wf distinct4'_wf labels4 (by decide +kernel)
  (by decide +kernel) (by decide +kernel) (cfg 1) rfl
example := C11_gain_bounds_reductions (K := ℚ) d4 2 1 (by met) labels4 (by met)
example := C09_variance_is_variance (K := ℚ) 1 labels4 (by met) (by met)
example := C15_constant_labels (K := ℚ) const3 1 1 (by constructor <;> decide +kernel) [[1 / 10], [1 / 10], [1 / 10]] (by decide +kernel)
  (by decide +kernel) (cfg 1) rfl
example := C13_order_irrelevant (K := ℚ) distinct4 distinct4' 2 1 distinct4_wf distinct4'_wf labels4 (by decide +kernel) (by decide +kernel)
  (by decide +kernel)
example := C11_zero_gain (K := ℚ) const3 1 1 (by constructor <;> decide +kernel) [[1 / 10], [1 / 10], [1 / 10]] (by decide +kernel) _
  (returns (findBestSplit const3 1) (by decide +kernel)) (by decide +kernel) ⟨0, 1⟩ (by met)
example := C12_optimal_without_ties (K := ℚ) distinct4 2 1 distinct4_wf labels4 (by decide +kernel) (by decide +kernel) _ (returns
  (findBestSplit distinct4 1) (by decide +kernel)) (by decide +kernel)

/-! ### Props/Tree.lean -/

example := C14_gain_nonneg (F := E) d4 1 _ (returns (findBestSplit d4 1) (by decide +kernel))
example := C23_builders_agree (F := E) d4 2 1 (by met) (by met) (cfg 1) (by met)
example := C19_boost_leaf_output (F := E) d4 2 1 (by met) (cfg 1) (by met) .regression _ (returns _ (by decide +kernel)) [true, false] _
  (contains _ (by decide +kernel))
example := C17_sorted_training_returns (F := E) d4 2 1 (by met) (by met) (cfg 1)
example := C10_split_separates (F := E) d4 2 1 d4_wf _ (returns (findBestSplit d4 1) (by decide +kernel)) (by decide +kernel)
example := C14_first_best_column (F := E) d4 2 1 d4_wf _ (returns (findBestSplit d4 1) (by decide +kernel))
example := C19_leaf_contents (F := E) d4 2 1 (by met) (cfg 1) (by met) _ (returns _ (by decide +kernel)) [true, false] _ (contains _
  (by decide +kernel))
example := C17_training_returns (F := E) d4 2 1 (by met) (cfg 1) (by met) .regression
example := C21_lookup_total (F := E) d4 2 1 (by met) (cfg 1) (by met) _ (returns _ (by decide +kernel)) [1, 7] (by met)
example := C20_leaves_partition (F := E) d4 2 1 d4_wf (cfg 1) rfl tree4 tree4_ok
example := C18_zero_levels (F := E) d4 { cfg 1 with maxLevels := 0 } rfl _ (returns (regressionTreeNew d4 { cfg 1 with maxLevels := 0 })
  (by decide +kernel))
example := C24_refinement (F := E) d4 (cfg 1) 1 3 (by met) _ (returns (regressionTreeNew d4 { cfg 1 with maxLevels := 3 })
  (by decide +kernel))
example := C30_scorers_agree (F := E) d4 2 1 (by met) (by met) (cfg 1) (by met) d4
example := C21_training_row (F := E) d4 2 1 d4_wf (cfg 1) rfl tree4 tree4_ok [1, 7] [4] (by decide +kernel)

/-! ### Props/Growth.lean -/

example := C49_reports_best_cut (K := ℚ) d4 2 1 d4_wf labels4 labels4_eq { gain := 0, question := ⟨0, 0⟩ }
example := C48_grown_greedily_sorted (F := E) d4 2 1 d4_wf (by met) (cfg 1) sorted4 sorted4_ok _ (returns (regressionTreeNewPartitionNew
  sorted4 (cfg 1)) (by decide +kernel))
example := C49_cut_is_question (K := ℚ) distinct4 2 1 distinct4_wf labels4 (by decide +kernel) 1 2 (by met) (by met) (by decide +kernel)
example := C48_grown_greedily (F := E) d4 2 1 (by met) (cfg 1) (by met) .regression

/-! ### Props/ExactTree.lean -/

example := C29_tree_exact (K := ℚ) d4 2 1 d4_wf (by met) labels4 labels4_eq (cfg 1) rfl tree4 tree4_ok d4 (by decide +kernel) labels4
  labels4_eq (by decide +kernel) rfl (by decide +kernel)
example := C25_training_error (K := ℚ) d4 2 1 (by met) (by met) labels4 (by met) (cfg 1) (by met)
example := C25_more_levels (K := ℚ) d4 2 1 d4_wf (by met) labels4 labels4_eq (exCfg 1) (cfg 1) rfl rfl (by met)

/-! ### Props/Redundant.lean -/

example := C55_amg_ensemble (F := E) d4More 3 1 d4More_wf (by met) (by met) 1 (by met) more_redundant (cfg 1) rfl 2 half
example := C55_gradBoost_tree (F := E) d4More 3 1 d4More_wf 1 (by met) more_redundant (cfg 1) rfl .regression
example := C55_multiClass_ensemble (F := E) d4More 3 1 d4More_wf (by met) (by met) 1 (by met) more_redundant (cfg 1) rfl 2 half
example := C55_regression_tree (F := E) d4More 3 1 d4More_wf 1 (by met) more_redundant (cfg 1) rfl
example := C55_regression_ensemble (F := E) d4More 3 1 d4More_wf 1 (by met) more_redundant (cfg 1) rfl 2 half
example := C55_split (F := E) d4More 3 1 d4More_wf 1 (by met) more_redundant
example := C55_amg_tree (F := E) d4More 3 1 d4More_wf 1 (by met) more_redundant (cfg 1) rfl .regression

/-! ### Props/Unused.lean -/

example := C82_regression_ensemble (F := E) d4Noise 2 1 (by constructor <;> decide +kernel) 2 (by met) (cfg 1) rfl 2 half
example := C82_regression_tree (F := E) d4Noise 2 1 (by constructor <;> decide +kernel) 2 (by met) (cfg 1) rfl
example := C82_multiClass_ensemble (F := E) d4Noise 2 1 (by constructor <;> decide +kernel) (by met) (by met) 2 (by met) (cfg 1) rfl 2 half
example := C82_amg_ensemble (F := E) d4Noise 2 1 (by constructor <;> decide +kernel) (by met) (by met) 2 (by met) (cfg 1) rfl 2 half
example := C82_gradBoost_tree (F := E) d4Noise 2 1 (by constructor <;> decide +kernel) 2 (by met) (cfg 1) rfl .regression
example := C82_amg_tree (F := E) d4Noise 2 1 (by constructor <;> decide +kernel) 2 (by met) (cfg 1) rfl .regression

/-! ### Props/Place.lean -/

example := C58_sorted_tree (F := E) d4 2 1 d4_wf (by met) (cfg 1) _ (returns (createDatasetWithSortedFeatures d4) (by decide +kernel)) _
  (returns _ (by decide +kernel)) [.fin (3 / 2), 6] [1, 5] (by met) (by met) samePlace4
example := C58_tree (F := E) d4 2 1 d4_wf (cfg 1) rfl .regression [.fin (3 / 2), 6] [1, 5] (by met) (by met) samePlace4
example := C58_negInfinity (F := E) d4 2 1 (by met) 1
example := C58_ensembles (F := E) d4 2 1 d4_wf (cfg 1) rfl 2 half [.fin (3 / 2), 6] [1, 5] (by met) (by met) samePlace4
example := C58_nan (F := E) d4 2 1 d4_wf (cfg 1) rfl 2 half [1, 7] (by met) 1 .nan rfl

/-! ### Props/Local.lean -/

example := C76_same_examples (F := E) d4 d4 2 1 d4_wf d4_wf (cfg 1) (cfg 1) rfl rfl [true] [true] tree4 tree4 _ _ tree4_ok tree4_ok
  (contains (tree4.subtreeAt [true]) (by decide +kernel)) (contains (tree4.subtreeAt [true]) (by decide +kernel)) rfl rfl
example := C76_subtree (F := E) d4 2 1 (by met) (cfg 1) (by met) .regression [true]

/-! ### Props/SingleTree.lean -/

example := C65_regression_score (K := ℚ) d4 2 1 d4_wf (by met) labels4 labels4_eq (cfg 1) rfl d4 (by decide +kernel) labels4 labels4_eq
  (by decide +kernel) rfl (by decide +kernel)
example := C65_regression (K := ℚ) d4 2 1 (by met) labels4 (by met) (cfg 1) (by met) (1 / 2)
example := C65_classification (K := ℚ) d5 2 3 (by met) (by met) (by met) labels5 (by met) (by met) (by met) (cfg 3) (by met) (1 / 2)
  (by met)
example := C65_accuracy (K := ℚ) d5 2 3 (by met) (by met) (by met) (by met) (by met) (cfg 3) (by met) (1 / 2) (by met) d5 (by met) (by met)
  (by met)

/-! ### Props/Size.lean -/

example := C59_ensembles (F := E) d4 2 1 (by met) (cfg 1) (by met) 2 half
example := C59_sorted_tree (F := E) d4 2 1 (by met) (by met) (cfg 1) (by met)
example := C59_trees (F := E) d4 2 1 (by met) (cfg 1) (by met) .regression

/-! ### Props/FullFit.lean -/

example := C56_tree_fits (K := ℚ) distinct4 2 1 distinct4_wf (by met) labels4 (by decide +kernel)
  (consistent (c := 2) (by decide +kernel) (by decide +kernel)) (cfg 1) rfl (by met)
example := C56_ensemble_fits (K := ℚ) distinct4 2 1 distinct4_wf (by met) labels4 (by decide +kernel)
  (consistent (c := 2) (by decide +kernel) (by decide +kernel)) (cfg 1) rfl (by met) 1 (1 / 2)
example := C56_pure_leaves (K := ℚ) distinct4 2 1 distinct4_wf labels4 (by decide +kernel)
  (consistent (c := 2) (by decide +kernel) (by decide +kernel))
  (cfg 1) rfl .regression
example := C56_depth (F := E) d4 2 1 (by met) (cfg 1) (by met) .regression
example := C56_rate_one (K := ℚ) distinct4 2 1 distinct4_wf (by met) labels4 (by decide +kernel)
  (consistent (c := 2) (by decide +kernel) (by decide +kernel)) (cfg 1) rfl (by met) 1 (by met)

/-! ### Props/Gini.lean -/

example := C98_largest_decrease (K := ℚ) classes5 2 3 classes5_wf [0, 0, 1, 2, 1] (by met) (by decide +kernel) (by decide +kernel) _
  (returns (findBestSplit classes5 3) (by decide +kernel)) (by decide +kernel)
example := C98_training_score (K := ℚ) d5 2 3 (by met) (by met) classes (by met) (by met) (cfg 3) (by met)
example := C98_gain_bounds (K := ℚ) d5 2 3 (by met) classes (by met) (by met)

/-! ### Props/LeastSquares.lean -/

example := C96_least_error (K := ℚ) d4 2 1 d4_wf (by met) labels4 labels4_eq (exCfg 1) rfl _ (returns (regressionTreeNew d4 (exCfg 1))
  (by decide +kernel)) guess (by decide +kernel) (by decide +kernel)
example := C96_error_splits (K := ℚ) d4 2 1 (by met) (by met) labels4 (by met) (cfg 1) (by met)

/-! ### Props/Rescale.lean -/

example := C26_gradBoost_tree (F := E) d4 2 1 d4_wf exScale scaled4 (cfg 1) rfl .regression
example := C26_regression_tree (F := E) d4 2 1 d4_wf exScale scaled4 (cfg 1) rfl
example := C26_amg_tree (F := E) d4 2 1 d4_wf exScale scaled4 (cfg 1) rfl .regression
example := C26_amg_ensemble (F := E) d4 2 1 d4_wf (by met) (by met) exScale scaled4 (cfg 1) rfl 2 half
example := C26_multiClass_ensemble (F := E) d4 2 1 d4_wf (by met) (by met) exScale scaled4 (cfg 1) rfl 2 half
example := C26_regression_ensemble (F := E) d4 2 1 d4_wf exScale scaled4 (cfg 1) rfl 2 half

/-! ### Props/Ties.lean -/

example := C61_regression_ensemble (K := ℚ) copies6 copies6sorted 2 2 (by constructor <;> decide +kernel)
  (by constructor <;> decide +kernel) [[1, 0], [1, 0], [1, 0], [0, 1], [1, 0], [0, 1]] (by decide +kernel) (by decide +kernel)
  (by decide +kernel) (cfg 2) rfl 2 (1 / 2)
example := C61_multiClass_ensemble (K := ℚ) copies6 copies6sorted 2 2 (by constructor <;> decide +kernel)
  (by constructor <;> decide +kernel) (by met) (by met) (by decide +kernel) (by decide +kernel) (by decide +kernel) (cfg 2) rfl 2 (1 / 2)
example := C13_boosting_trees_if_ties_agree (K := ℚ) mixed4 mixed4rev 2 1 mixed4_wf mixed4rev_wf [[3], [2], [2], [0]] (by decide +kernel)
  (by decide +kernel) (by decide +kernel) (cfg 1) rfl .regression
example := C61_amg_ensemble (K := ℚ) copies6 copies6sorted 2 2 (by constructor <;> decide +kernel) (by constructor <;> decide +kernel)
  (by met) (by met) (by decide +kernel) (by decide +kernel) (by decide +kernel) (cfg 2) rfl 2 (1 / 2)
example := C13_order_irrelevant_if_ties_agree (K := ℚ) mixed4 mixed4rev 2 1 mixed4_wf mixed4rev_wf [[3], [2], [2], [0]] (by decide +kernel)
  (by decide +kernel) (by decide +kernel)
example := C60_copies_in_any_order (K := ℚ) mixed4 (mixed4rev.repeated 2) 2 1 mixed4_wf (by constructor <;> decide +kernel) [[3], [2], [2],
  [0]] (by decide +kernel) (by decide +kernel) 2 (by met) (by decide +kernel) (cfg 1) rfl .regression
example := C60_ensemble_copies_in_any_order (K := ℚ) copies6 (copies6sorted.repeated 2) 2 2 (by constructor <;> decide +kernel)
  (by constructor <;> decide +kernel) [[1, 0], [1, 0], [1, 0], [0, 1], [1, 0], [0, 1]] (by decide +kernel) (by decide +kernel) 2 (by met)
  (by decide +kernel) (cfg 2) rfl 2 (1 / 2)
example := C13_tree_if_ties_agree (K := ℚ) mixed4 mixed4rev 2 1 mixed4_wf mixed4rev_wf [[3], [2], [2], [0]] (by decide +kernel)
  (by decide +kernel) (by decide +kernel) (cfg 1) rfl
example := C12_optimal_if_ties_agree (K := ℚ) mixed4 2 1 mixed4_wf [[3], [2], [2], [0]] (by decide +kernel) (by decide +kernel) _ (returns
  (findBestSplit mixed4 1) (by decide +kernel)) (by decide +kernel)

/-! ### Props/Absent.lean -/

example := C91_amg (K := ℚ) d5 2 3 (by met) (by met) (by met) (by met) (cfg 3) (by met) 2 (by met) (1 / 2) (by met)
example := C91_multiClass_scores (K := ℚ) gap5 2 3 gap5_wf (by met) (by met) (by decide +kernel) 1 (by met) (by decide +kernel) (cfg 3) rfl
  2 (1 / 2) (by met)
example := C91_multiClass_one_iteration (K := ℚ) d5 2 3 (by met) (by met) (by met) (by met) (by met) (cfg 3) (by met) (1 / 2) (by met)
example := C91_tree (F := E) d5 2 3 (by met) (by met) (by met) (by met) (cfg 3) (by met) _ (returns _ (by decide +kernel)) [1, 7] (by met)
example := C91_amg_scores (K := ℚ) gap5 2 3 gap5_wf (by met) (by met) (by decide +kernel) 1 (by met) (by decide +kernel) (cfg 3) rfl 2 (1 /
  2) (by met)

/-! ### Props/Accept.lean -/

example := C88_classification_ensembles (F := E) d5 2 3 tables5 (by met) (by met) (by met) (by simp [d5]) (cfg 3) 2 (by met) half
example := C88_regression_ensemble (F := E) d5 2 3 tables5 (by met) (by simp [d5]) (cfg 3) 2 (by met) half
example := C88_trees (F := E) d5 2 3 tables5 (by met) (by simp [d5]) (cfg 3) .regression

/-! ### Props/Reject.lean -/

example := C44_trees (F := E) d5 2 3 d5_wf (by met) (cfg 2) (by met)
example := C44_ensembles (F := E) d5 2 3 d5_wf (by met) (cfg 2) (by met) 2 (by met) half
example := C45_ensembles (F := E) nan2 2 (by decide +kernel) (by decide +kernel) (by decide +kernel) (by decide +kernel) (by decide +kernel)
  (cfg 1) 2 (by met) half
example := C45_nan_feature (F := E) nan2 2 (by decide +kernel) (by decide +kernel) (by decide +kernel) (by decide +kernel) (cfg 1)

/-! ### Props/Reads.lean -/

example := C75_surplus (F := E) d4 2 1 d4_wf (cfg 1) rfl 2 half [1, 7] [9] (by met)
example := C75_multiClass_panics (F := E) d5 2 3 (by met) (by met) (by met) (cfg 3) (by met) 2 half _ (returns _ (by decide +kernel)) [1, 7]
example := C75_amg_panics (F := E) d5 2 3 (by met) (by met) (by met) (cfg 3) (by met) 2 half _ (returns _ (by decide +kernel)) [1, 7]
example := C75_regression_panics (F := E) d4 2 1 (by met) (cfg 1) (by met) 2 half _ (returns _ (by decide +kernel)) [1, 7]

/-! ### Props/SingleRow.lean -/

example := C88_trees_single_row (F := E) lone2 2 1 ⟨(by decide +kernel), (by decide +kernel), (by decide +kernel), by decide⟩ (by met)
  (by met) (cfg 1) .regression

/-! ### Props/Credit.lean -/

example := C104_boosting (K := ℚ) d4 2 1 (by met) (by met) labels4 (by met) (cfg 1) (by met) 2 (1 / 2)
example := C104_reported_gains (K := ℚ) d4 2 1 (by met) labels4 (by met) (cfg 1) (by met) _ (returns _ (by decide +kernel)) [true] _
  (contains _ (by decide +kernel))
example := C104_features (K := ℚ) d4 2 1 d4_wf labels4 (cfg 1) rfl tree4 tree4_ok
example := C104_training_error (K := ℚ) d4 2 1 (by met) (by met) labels4 (by met) (cfg 1) (by met)

end Verif.Applied
