import Verif.Applied.Facts
import Verif.Props.Accuracy
import Verif.Props.ClassOrder
import Verif.Props.Distance
import Verif.Props.FeatureOrder
import Verif.Props.Files
import Verif.Props.Mse
import Verif.Props.Noise
import Verif.Props.Output
import Verif.Props.Print
import Verif.Props.PrintBack
import Verif.Props.Relabel
import Verif.Props.Score
import Verif.Props.TestSet

/-! Theorems about scores, printed trees, files and changed data, applied to the sample data: each `example` is a theorem whose hypotheses are all discharged. -/

namespace Verif.Applied

open Sample

/-! ### Props/Accuracy.lean -/

example := C81_majority (F := E) d5 2 3 (by met) (by met) (by met) (by met) (cfg 3) (by met) 1 (by met)
example := C81_best_rule (F := E) d5 2 3 d5_wf hot (by met) (by met) (cfg 3) rfl tree5 tree5_ok (fun row => if satisfies ⟨0, 3⟩ row then 1
  else 2) (by decide +kernel) (by decide +kernel)
example := C81_deeper (F := E) d5 2 3 (by met) (by met) (by met) (by met) (cfg 3) (by met) 1 3 (by met)
example := C81_deep_tree (K := ℚ) stripes4 1 2 (by constructor <;> decide +kernel) (by decide +kernel) (by met) (by met) (cfg 2) rfl
  (consistent (c := 1) (by decide +kernel) (by decide +kernel)) (by met)

/-! ### Props/ClassOrder.lean -/

example := C54_class_order (K := ℚ) d5 2 3 d5_wf (by met) (by met) labels5 labels5_eq hot swap01 (by constructor <;> decide) (cfg 3) rfl 2
  (1 / 2)

/-! ### Props/Distance.lean -/

example := C83_split (K := ℚ) twoTargets 2 2 twoTargets_wf two twoTargets_eq 3 (two.map (affineMap 2 3 turn (fun i => (i : ℚ))))
  (by decide +kernel) 25 (by met) turned
example := C83_regression_ensemble (K := ℚ) twoTargets 2 2 twoTargets_wf two twoTargets_eq 3 turn (fun i => (i : ℚ)) 25 (by met)
  turn_similar (cfg 2) (cfg 3) rfl rfl rfl 2 (1 / 2)
example := C83_constant_target (K := ℚ) d4 2 1 d4_wf labels4 labels4_eq 7 (cfg 1) rfl 2 (1 / 2)
example := C83_repeated_targets (K := ℚ) d4 2 1 (by met) labels4 (by met) (cfg 1) (by met) 2 (1 / 2)
example := C83_trees (K := ℚ) twoTargets 2 2 twoTargets_wf two twoTargets_eq 3 (two.map (affineMap 2 3 turn (fun i => (i : ℚ))))
  (by decide +kernel) 25 (by met) turned (cfg 2) (cfg 3) rfl rfl rfl .regression .regression

/-! ### Props/FeatureOrder.lean -/

example := C73_gradBoost_tree (F := E) clear4 3 1 clear4_wf turn3 ⟨by decide, by decide⟩ (cfg 1) rfl .regression
example := C73_regression_tree (F := E) clear4 3 1 clear4_wf turn3 ⟨by decide, by decide⟩ (cfg 1) rfl
example := C73_split (F := E) clear4 3 1 clear4_wf turn3 ⟨by decide, by decide⟩
example := C73_amg_tree (F := E) clear4 3 1 clear4_wf turn3 ⟨by decide, by decide⟩ (cfg 1) rfl .regression

/-! ### Props/Files.lean -/

example := C50_names_fit (F := E) digit (some [["a", "b", "class"], ["7", "3", "1"], ["1", "2", "0"]]) 2 _ (returns
  (readCsvDataOneHotMultiTarget digit (some [["a", "b", "class"], ["7", "3", "1"], ["1", "2", "0"]]) 2) (by decide +kernel))
  (by decide +kernel) (by decide +kernel) (cfg 2) rfl

/-! ### Props/Mse.lean -/

example := C51_tree_score (F := E) d4 2 1 d4_wf (cfg 1) rfl tree4 tree4_ok d4 (by decide +kernel) 1

/-! ### Props/Noise.lean -/

example := C94_same_questions (K := ℚ) clean4 noisy4 1 2 clean4_wf noisy4_wf rfl [[0, 1], [2, 1], [8, 0], [9, 3]] [[1 / 200, 1], [199 / 100,
  101 / 100], [8, 0], [901 / 100, 3]] (by decide +kernel) (by decide +kernel) 10 (1 / 100) (by met) (by met)
  (by unfold NoiseAtMost; decide +kernel) (by unfold EntriesAtMost; decide +kernel) (by unfold EntriesAtMost; decide +kernel) (cfg 2) rfl
  .regression
example := C94_violated_by_close_call (1 / 1000) (by met)

/-! ### Props/Output.lean -/

example := C103_print_complete (F := E) ["x", "y"] tree4 proper4 "" (result (printTreeRegression ["x", "y"] tree4 "") (by decide +kernel))
example := C103_print (F := E) ["x"] ["y"] (by met) tree4 proper4 "" _ (returns (printTreeRegression (["x"] ++ ["y"]) tree4 "")
  (by decide +kernel))

/-! ### Props/Print.lean -/

example := C47_lines (F := E) ["x", "y"] tree4 proper4 "" _ (returns (printTreeRegression ["x", "y"] tree4 "") (by decide +kernel))
example := C47_nesting (F := E) ["x", "y"] tree4 proper4 "" _ (returns (printTreeRegression ["x", "y"] tree4 "") (by decide +kernel)) [true]
  _ (contains _ (by decide +kernel))
example := C47_built_trees_print (F := E) d4 2 1 (by met) (cfg 1) (by met) _ (returns _ (by decide +kernel)) ["x", "y"] (by met) ""
example := C47_succeeds_iff (F := E) ["x", "y"] tree4 proper4 ""

/-! ### Props/PrintBack.lean -/

example := C95_trained_trees (F := E) d4 d4 2 2 1 1 d4_wf d4_wf (cfg 1) (cfg 1) rfl rfl tree4 tree4 tree4_ok tree4_ok ["x", "y"] (by met) ""
  _ (returns (printTreeRegression ["x", "y"] tree4 "") (by decide +kernel)) (returns _ (by decide +kernel))
example := C95_same_print (F := E) ["x", "y"] tree4 tree4 proper4 proper4 (fun _ => rfl) (fun _ => rfl) ""
example := C95_print_determines (F := E) ["x", "y"] (by met) tree4 tree4 proper4 proper4 "" _ (returns (printTreeRegression ["x", "y"] tree4
  "") (by decide +kernel)) (returns _ (by decide +kernel))

/-! ### Props/Relabel.lean -/

example := C53_regression_ensemble (K := ℚ) twoTargets 2 2 twoTargets_wf two twoTargets_eq swap2 swap2_ok (-2) (by met) (fun j => (j : ℚ))
  (cfg 2) rfl 2 (1 / 2)
example := C53_gradBoost_tree (K := ℚ) twoTargets 2 2 twoTargets_wf two twoTargets_eq swap2 swap2_ok (-2) (by met) (fun j => (j : ℚ)) (cfg
  2) rfl
example := C53_split (K := ℚ) twoTargets 2 2 twoTargets_wf two twoTargets_eq swap2 swap2_ok (-2) (by met) (fun j => (j : ℚ))
example := C53_regression_tree (K := ℚ) twoTargets 2 2 twoTargets_wf two twoTargets_eq swap2 swap2_ok (-2) (by met) (fun j => (j : ℚ)) (cfg
  2) rfl
example := C53_tree_score (K := ℚ) twoTargets 2 2 twoTargets_wf (by met) two twoTargets_eq swap2 swap2_ok (-2) (by met) (fun j => (j : ℚ))
  (cfg 2) rfl twoTargets (by decide +kernel) two twoTargets_eq (by decide +kernel) rfl (by decide +kernel)
example := C53_ensemble_score (K := ℚ) twoTargets 2 2 twoTargets_wf (by met) two twoTargets_eq swap2 swap2_ok (-2) (by met) (fun j => (j :
  ℚ)) (cfg 2) rfl 2 (1 / 2) twoTargets (by decide +kernel) two twoTargets_eq (by decide +kernel) rfl (by decide +kernel)

/-! ### Props/Score.lean -/

example := C29_ensemble_not_negative (F := E) ens4 d4 _ (returns (regressionScore ens4 d4) (by decide +kernel))
example := C28_range (F := E) [[1, 0], [0, 1], [1, 0]] [[1, 0], [1, 0], [1, 0]] 3 rfl rfl (by met)
example := C27_first_majority (F := E) d4 2 1 (by met) (by met) (by met) (by met) (cfg 1) (by met) _ (returns _ (by decide +kernel)) [1, 7]
  (by met)
example := C39_multiClass_one_hot (F := E) multi5 [1, 7] _ (returns (predictInstance [1, 7] multi5.trees multi5.initialGuess
  multi5.learningRate) (by decide +kernel))
example := C39_amg_one_hot (F := E) amg5 [1, 7] _ (returns (amgPredictInstance [1, 7] amg5.trees amg5.initialGuess amg5.learningRate
  amg5.initialGuess.length) (by decide +kernel))
example := C28_amg_accuracy (F := E) amg5 d5 1 (by met)
example := C28_tree_accuracy (F := E) d5 tree5 1 (by met)
example := C43_scores (F := E) ens4 amg5 d4 { d4 with featureColumns := [] } rfl rfl
example := C29_tree_not_negative (F := E) d4 tree4 _ (returns (calculateOverallMse d4 tree4) (by decide +kernel))
example := C28_multiClass_accuracy (F := E) multi5 d5 1 (by met)

/-! ### Props/TestSet.lean -/

example := C84_accuracy_append (F := E) d5 stripes4 (by met) (by met) (by met) 1 1
example := C84_mse_order (K := ℚ) distinct4 distinct4' same4 1
example := C84_accuracy_order (F := E) distinct4 distinct4' same4 (by met) 1
example := C84_tree_mse_append (K := ℚ) d4 2 1 d4_wf (cfg 1) rfl tree4 tree4_ok d4 { d4 with labels := [[1], [1], [1], [1]] }
  (by decide +kernel) (by decide +kernel) (by met) (by met) (by met) (by met) 0 (35 / 4) (by decide +kernel) (by decide +kernel)

end Verif.Applied
