{
 "claims": [
  {
   "property": "C01",
   "status": "proved",
   "theorems": [
    "Verif.C01_columns_are_transpose",
    "Verif.C01_panics_iff"
   ],
   "note": ""
  },
  {
   "property": "C02",
   "status": "proved",
   "theorems": [
    "Verif.C02_parse_keeps_records",
    "Verif.C02_panics_iff"
   ],
   "note": ""
  },
  {
   "property": "C03",
   "status": "proved",
   "theorems": [
    "Verif.C03_one_hot",
    "Verif.C03_panics_iff",
    "Verif.C03_oneHot_entries",
    "Verif.C03_truncation"
   ],
   "note": ""
  },
  {
   "property": "C04",
   "status": "proved",
   "theorems": [
    "Verif.C04_one_hot_consistent",
    "Verif.C04_one_hot_wf",
    "Verif.C04_multi_target_consistent",
    "Verif.C04_multi_target_wf"
   ],
   "note": ""
  },
  {
   "property": "C05",
   "status": "proved",
   "theorems": [
    "Verif.C05_sorted_permutation",
    "Verif.C05_panics_iff"
   ],
   "note": ""
  },
  {
   "property": "C06",
   "status": "proved",
   "theorems": [
    "Verif.C06_partition",
    "Verif.C06_panics_iff"
   ],
   "note": ""
  },
  {
   "property": "C07",
   "status": "proved",
   "theorems": [
    "Verif.C07_new_partition"
   ],
   "note": ""
  },
  {
   "property": "C08",
   "status": "proved",
   "theorems": [
    "Verif.C08_no_satisfying_row",
    "Verif.C08_correct_iff",
    "Verif.C08_not_reached"
   ],
   "note": "The exception is a defect of the code; C08_* prove the exact behaviour, including the exception."
  },
  {
   "property": "C09",
   "status": "proved",
   "theorems": [
    "Verif.C09_violated_in_binary64",
    "Verif.C09_variance_is_variance",
    "Verif.C09_variance_sign",
    "Verif.C09_running_sums"
   ],
   "note": "Exact arithmetic (any ordered field).  C09_violated_in_binary64: rounding can make the computed variance negative."
  },
  {
   "property": "C10",
   "status": "proved",
   "theorems": [
    "Verif.C10_split_separates"
   ],
   "note": ""
  },
  {
   "property": "C11",
   "status": "proved",
   "theorems": [
    "Verif.C11_gain_bounds_reductions",
    "Verif.C11_zero_gain"
   ],
   "note": ""
  },
  {
   "property": "C12",
   "status": "proved",
   "theorems": [
    "Verif.C12_optimal_if_threshold_unique",
    "Verif.C12_optimal_without_ties",
    "Verif.C12_violated",
    "Verif.C12_violated_no_reduction",
    "Verif.C12_optimal_if_ties_agree"
   ],
   "note": "Proved under the stated restriction on repeated values; C12_violated and C12_violated_no_reduction show that the restriction is needed."
  },
  {
   "property": "C13",
   "status": "proved",
   "theorems": [
    "Verif.C13_order_irrelevant",
    "Verif.C13_order_irrelevant_tree",
    "Verif.C13_violated",
    "Verif.C13_order_irrelevant_if_ties_agree",
    "Verif.C13_tree_if_ties_agree",
    "Verif.C13_boosting_trees_if_ties_agree"
   ],
   "note": "Proved under the stated restriction on repeated values; C13_violated shows that the restriction is needed."
  },
  {
   "property": "C14",
   "status": "proved",
   "theorems": [
    "Verif.C14_gain_nonneg",
    "Verif.C14_first_best_column"
   ],
   "note": ""
  },
  {
   "property": "C15",
   "status": "proved",
   "theorems": [
    "Verif.C15_violated_in_binary64",
    "Verif.C15_constant_labels"
   ],
   "note": "Exact arithmetic; C15_violated_in_binary64 is a kernel-evaluated counterexample for IEEE binary64."
  },
  {
   "property": "C16",
   "status": "proved",
   "theorems": [
    "Verif.C16_no_gain",
    "Verif.C16_single_leaf",
    "Verif.C16_ensembles"
   ],
   "note": "For every arithmetic with the IEEE propagation rules (LawfulSpecial); instances: exact arithmetic and binary64."
  },
  {
   "property": "C17",
   "status": "proved",
   "theorems": [
    "Verif.C17_training_returns",
    "Verif.C17_sorted_training_returns"
   ],
   "note": ""
  },
  {
   "property": "C18",
   "status": "proved",
   "theorems": [
    "Verif.C18_depth",
    "Verif.C18_zero_levels"
   ],
   "note": ""
  },
  {
   "property": "C19",
   "status": "proved",
   "theorems": [
    "Verif.C19_leaf_contents",
    "Verif.C19_boost_leaf_output"
   ],
   "note": ""
  },
  {
   "property": "C20",
   "status": "proved",
   "theorems": [
    "Verif.C20_leaves_partition"
   ],
   "note": ""
  },
  {
   "property": "C21",
   "status": "proved",
   "theorems": [
    "Verif.C21_lookup_total",
    "Verif.C21_training_row"
   ],
   "note": ""
  },
  {
   "property": "C22",
   "status": "proved",
   "theorems": [
    "Verif.C22_every_schedule",
    "Verif.C22_switch_irrelevant"
   ],
   "note": ""
  },
  {
   "property": "C23",
   "status": "proved",
   "theorems": [
    "Verif.C23_surplus_labels",
    "Verif.C23_builders_agree"
   ],
   "note": ""
  },
  {
   "property": "C24",
   "status": "proved",
   "theorems": [
    "Verif.C24_refinement"
   ],
   "note": ""
  },
  {
   "property": "C25",
   "status": "proved",
   "theorems": [
    "Verif.C25_training_error",
    "Verif.C25_more_levels"
   ],
   "note": ""
  },
  {
   "property": "C26",
   "status": "proved",
   "theorems": [
    "Verif.C26_regression_tree",
    "Verif.C26_gradBoost_tree",
    "Verif.C26_amg_tree",
    "Verif.C26_regression_ensemble",
    "Verif.C26_multiClass_ensemble",
    "Verif.C26_amg_ensemble"
   ],
   "note": ""
  },
  {
   "property": "C27",
   "status": "proved",
   "theorems": [
    "Verif.C27_first_majority",
    "Verif.C27_unique",
    "Verif.C27_no_classes"
   ],
   "note": ""
  },
  {
   "property": "C28",
   "status": "proved",
   "theorems": [
    "Verif.C28_tree_accuracy",
    "Verif.C28_multiClass_accuracy",
    "Verif.C28_amg_accuracy",
    "Verif.C28_range"
   ],
   "note": ""
  },
  {
   "property": "C29",
   "status": "proved",
   "theorems": [
    "Verif.C29_tree_exact",
    "Verif.C29_ensemble_exact",
    "Verif.C29_tree_not_negative",
    "Verif.C29_ensemble_not_negative"
   ],
   "note": ""
  },
  {
   "property": "C30",
   "status": "proved",
   "theorems": [
    "Verif.C30_scorers_agree"
   ],
   "note": ""
  },
  {
   "property": "C31",
   "status": "proved",
   "theorems": [
    "Verif.C31_regression",
    "Verif.C31_multiClass",
    "Verif.C31_amg",
    "Verif.C31_no_trees_regression",
    "Verif.C31_no_trees_classification"
   ],
   "note": ""
  },
  {
   "property": "C32",
   "status": "proved",
   "theorems": [
    "Verif.C32_regression",
    "Verif.C32_multiClass",
    "Verif.C32_amg"
   ],
   "note": ""
  },
  {
   "property": "C33",
   "status": "proved",
   "theorems": [
    "Verif.C33_regression_tracked",
    "Verif.C33_regression_residual_tree",
    "Verif.C33_multiClass_residual_tree",
    "Verif.C33_amg_residual_tree",
    "Verif.C33_classification_tracked"
   ],
   "note": ""
  },
  {
   "property": "C34",
   "status": "proved",
   "theorems": [
    "Verif.C34_additive",
    "Verif.C34_trained",
    "Verif.C34_multiClass_additive",
    "Verif.C34_amg_additive"
   ],
   "note": ""
  },
  {
   "property": "C35",
   "status": "proved",
   "theorems": [
    "Verif.C35_training_error",
    "Verif.C35_more_iterations"
   ],
   "note": ""
  },
  {
   "property": "C36",
   "status": "proved",
   "theorems": [
    "Verif.C36_unbiased"
   ],
   "note": ""
  },
  {
   "property": "C37",
   "status": "proved",
   "theorems": [
    "Verif.C37_probabilities",
    "Verif.C37_residuals"
   ],
   "note": ""
  },
  {
   "property": "C38",
   "status": "proved",
   "theorems": [
    "Verif.C38_leaf_formula",
    "Verif.C38_scores_finite",
    "Verif.C38_denominator",
    "Verif.C38_one_class"
   ],
   "note": ""
  },
  {
   "property": "C39",
   "status": "proved",
   "theorems": [
    "Verif.C39_raw_scores",
    "Verif.C39_amg_raw_scores",
    "Verif.C39_multiClass_one_hot",
    "Verif.C39_amg_one_hot",
    "Verif.C39_unique"
   ],
   "note": ""
  },
  {
   "property": "C40",
   "status": "proved",
   "theorems": [
    "Verif.C40_amg_leaf"
   ],
   "note": ""
  },
  {
   "property": "C41",
   "status": "proved",
   "theorems": [
    "Verif.C41_leaf_sums_to_zero",
    "Verif.C41_scores_sum_to_one",
    "Verif.C41_any_model"
   ],
   "note": ""
  },
  {
   "property": "C42",
   "status": "proved",
   "theorems": [
    "Verif.C42_regression",
    "Verif.C42_multiClass",
    "Verif.C42_amg"
   ],
   "note": ""
  },
  {
   "property": "C43",
   "status": "proved",
   "theorems": [
    "Verif.C43_batch",
    "Verif.C43_scores"
   ],
   "note": ""
  },
  {
   "property": "C44",
   "status": "proved",
   "theorems": [
    "Verif.C44_trees",
    "Verif.C44_ensembles",
    "Verif.C44_sorted_ignores"
   ],
   "note": ""
  },
  {
   "property": "C45",
   "status": "proved",
   "theorems": [
    "Verif.C45_nan_feature",
    "Verif.C45_ensembles"
   ],
   "note": ""
  },
  {
   "property": "C46",
   "status": "proved",
   "theorems": [
    "Verif.C46_every_schedule",
    "Verif.C46_switch_irrelevant"
   ],
   "note": ""
  },
  {
   "property": "C47",
   "status": "proved",
   "theorems": [
    "Verif.C47_succeeds_iff",
    "Verif.C47_lines",
    "Verif.C47_nesting",
    "Verif.C47_built_trees_print"
   ],
   "note": ""
  },
  {
   "property": "C48",
   "status": "proved",
   "theorems": [
    "Verif.C48_grown_greedily",
    "Verif.C48_grown_greedily_sorted",
    "Verif.C48_is_leaf_node"
   ],
   "note": ""
  },
  {
   "property": "C49",
   "status": "proved",
   "theorems": [
    "Verif.C49_reports_best_cut",
    "Verif.C49_cut_is_question"
   ],
   "note": ""
  },
  {
   "property": "C50",
   "status": "proved",
   "theorems": [
    "Verif.C50_readable_iff",
    "Verif.C50_content_unique",
    "Verif.C50_single_target",
    "Verif.C50_one_hot",
    "Verif.C50_multi_target",
    "Verif.C50_feature_names",
    "Verif.C50_names_fit"
   ],
   "note": ""
  },
  {
   "property": "C51",
   "status": "proved",
   "theorems": [
    "Verif.C51_tree_score",
    "Verif.C51_ensemble_score"
   ],
   "note": ""
  },
  {
   "property": "C52",
   "status": "proved",
   "theorems": [
    "Verif.C52_main_runs",
    "Verif.C52_main_panics",
    "Verif.C52_main_wrong_targets"
   ],
   "note": ""
  },
  {
   "property": "C53",
   "status": "proved",
   "theorems": [
    "Verif.C53_split",
    "Verif.C53_regression_tree",
    "Verif.C53_tree_score",
    "Verif.C53_gradBoost_tree",
    "Verif.C53_regression_ensemble",
    "Verif.C53_ensemble_score"
   ],
   "note": ""
  },
  {
   "property": "C54",
   "status": "proved",
   "theorems": [
    "Verif.C54_class_order",
    "Verif.C54_amg_violated"
   ],
   "note": "Multi-class: proved.  AMG: C54_amg_violated proves that the property fails there."
  },
  {
   "property": "C55",
   "status": "proved",
   "theorems": [
    "Verif.C55_split",
    "Verif.C55_regression_tree",
    "Verif.C55_gradBoost_tree",
    "Verif.C55_amg_tree",
    "Verif.C55_regression_ensemble",
    "Verif.C55_multiClass_ensemble",
    "Verif.C55_amg_ensemble"
   ],
   "note": ""
  },
  {
   "property": "C56",
   "status": "proved",
   "theorems": [
    "Verif.C56_depth",
    "Verif.C56_pure_leaves",
    "Verif.C56_tree_fits",
    "Verif.C56_ensemble_fits",
    "Verif.C56_rate_one"
   ],
   "note": ""
  },
  {
   "property": "C57",
   "status": "proved",
   "theorems": [
    "Verif.C57_tree",
    "Verif.C57_ensemble",
    "Verif.C57_one_iteration",
    "Verif.C57_inequality_violated",
    "Verif.C57_violated_in_binary64"
   ],
   "note": "Exact arithmetic.  C57_inequality_violated and C57_violated_in_binary64 show the limits stated in the property."
  },
  {
   "property": "C58",
   "status": "proved",
   "theorems": [
    "Verif.C58_tree",
    "Verif.C58_sorted_tree",
    "Verif.C58_ensembles",
    "Verif.C58_outside",
    "Verif.C58_negInfinity",
    "Verif.C58_nan"
   ],
   "note": ""
  },
  {
   "property": "C59",
   "status": "proved",
   "theorems": [
    "Verif.C59_trees",
    "Verif.C59_sorted_tree",
    "Verif.C59_ensembles"
   ],
   "note": ""
  },
  {
   "property": "C60",
   "status": "proved",
   "theorems": [
    "Verif.C60_split",
    "Verif.C60_regression_tree",
    "Verif.C60_tree_score",
    "Verif.C60_boosting_trees",
    "Verif.C60_regression_ensemble",
    "Verif.C60_multiClass_ensemble",
    "Verif.C60_amg_ensemble",
    "Verif.C60_appended_copy_violated",
    "Verif.C60_copies_in_any_order",
    "Verif.C60_ensemble_copies_in_any_order"
   ],
   "note": ""
  },
  {
   "property": "C61",
   "status": "proved",
   "theorems": [
    "Verif.C61_regression_ensemble",
    "Verif.C61_multiClass_ensemble",
    "Verif.C61_amg_ensemble",
    "Verif.C61_violated_if_ties_only_agree"
   ],
   "note": ""
  },
  {
   "property": "C62",
   "status": "proved",
   "theorems": [
    "Verif.C62_average_accurate",
    "Verif.C62_tree_prediction_accurate",
    "Verif.C62_boost_leaf_accurate",
    "Verif.C62_violated_without_bound"
   ],
   "note": ""
  },
  {
   "property": "C63",
   "status": "proved",
   "theorems": [
    "Verif.C63_gain_accurate",
    "Verif.C63_near_optimal",
    "Verif.C63_constant_labels",
    "Verif.C63_tree",
    "Verif.C63_sorted_tree",
    "Verif.C63_violated_without_bound"
   ],
   "note": ""
  },
  {
   "property": "C64",
   "status": "proved",
   "theorems": [
    "Verif.C64_constant_integer_labels",
    "Verif.C64_pure_node_is_leaf",
    "Verif.C64_sorted_pure_node_is_leaf"
   ],
   "note": ""
  },
  {
   "property": "C65",
   "status": "proved",
   "theorems": [
    "Verif.C65_regression",
    "Verif.C65_regression_score",
    "Verif.C65_classification",
    "Verif.C65_accuracy"
   ],
   "note": ""
  },
  {
   "property": "C66",
   "status": "proved",
   "theorems": [
    "Verif.C66_two_classes",
    "Verif.C66_accuracy"
   ],
   "note": ""
  },
  {
   "property": "C67",
   "status": "proved",
   "theorems": [
    "Verif.C67_tree",
    "Verif.C67_sorted_tree",
    "Verif.C67_same_for_all_rows",
    "Verif.C67_average",
    "Verif.C67_zero_rate_regression",
    "Verif.C67_zero_rate_classification"
   ],
   "note": ""
  },
  {
   "property": "C68",
   "status": "proved",
   "theorems": [
    "Verif.C68_decrease",
    "Verif.C68_stagnation"
   ],
   "note": ""
  },
  {
   "property": "C69",
   "status": "proved",
   "theorems": [
    "Verif.C69_ensemble_score",
    "Verif.C69_tree_score",
    "Verif.C69_accuracy",
    "Verif.C69_violated_without_bound"
   ],
   "note": ""
  },
  {
   "property": "C70",
   "status": "proved",
   "theorems": [
    "Verif.C70_prediction_accurate",
    "Verif.C70_amg_accurate",
    "Verif.C70_clear_class",
    "Verif.C70_amg_clear_class"
   ],
   "note": ""
  },
  {
   "property": "C71",
   "status": "proved",
   "theorems": [
    "Verif.C71_elementwise",
    "Verif.C71_scalar",
    "Verif.C71_squared_differences",
    "Verif.C71_sum",
    "Verif.C71_average"
   ],
   "note": ""
  },
  {
   "property": "C72",
   "status": "proved",
   "theorems": [
    "Verif.C72_multiClass",
    "Verif.C72_amg",
    "Verif.C72_first_iteration",
    "Verif.C72_violated_for_large_rate"
   ],
   "note": ""
  },
  {
   "property": "C73",
   "status": "proved",
   "theorems": [
    "Verif.C73_split",
    "Verif.C73_regression_tree",
    "Verif.C73_gradBoost_tree",
    "Verif.C73_amg_tree",
    "Verif.C73_regression_ensemble",
    "Verif.C73_multiClass_ensemble",
    "Verif.C73_amg_ensemble",
    "Verif.C73_violated_by_ties"
   ],
   "note": ""
  },
  {
   "property": "C74",
   "status": "proved",
   "theorems": [
    "Verif.C74_regression",
    "Verif.C74_multiClass",
    "Verif.C74_amg",
    "Verif.C74_multiClass_exact",
    "Verif.C74_amg_exact"
   ],
   "note": ""
  },
  {
   "property": "C75",
   "status": "proved",
   "theorems": [
    "Verif.C75_reads",
    "Verif.C75_lookup",
    "Verif.C75_ensembles",
    "Verif.C75_regression_panics",
    "Verif.C75_multiClass_panics",
    "Verif.C75_amg_panics",
    "Verif.C75_surplus"
   ],
   "note": ""
  },
  {
   "property": "C76",
   "status": "proved",
   "theorems": [
    "Verif.C76_subtree",
    "Verif.C76_same_examples"
   ],
   "note": ""
  },
  {
   "property": "C77",
   "status": "proved",
   "theorems": [
    "Verif.C77_overflow",
    "Verif.C77_perfect_fit"
   ],
   "note": ""
  },
  {
   "property": "C78",
   "status": "proved",
   "theorems": [
    "Verif.C78_training_error",
    "Verif.C78_score",
    "Verif.C78_finite",
    "Verif.C78_violated_without_tolerance"
   ],
   "note": ""
  },
  {
   "property": "C79",
   "status": "proved",
   "theorems": [
    "Verif.C79_same_questions",
    "Verif.C79_sorted_tree",
    "Verif.C79_prediction",
    "Verif.C79_violated_by_close_call"
   ],
   "note": ""
  },
  {
   "property": "C80",
   "status": "proved",
   "theorems": [
    "Verif.C80_standstill",
    "Verif.C80_nan",
    "Verif.C80_perfect_fit"
   ],
   "note": ""
  },
  {
   "property": "C81",
   "status": "proved",
   "theorems": [
    "Verif.C81_best_rule",
    "Verif.C81_majority",
    "Verif.C81_deeper",
    "Verif.C81_deep_tree"
   ],
   "note": ""
  },
  {
   "property": "C82",
   "status": "proved",
   "theorems": [
    "Verif.C82_regression_tree",
    "Verif.C82_gradBoost_tree",
    "Verif.C82_amg_tree",
    "Verif.C82_regression_ensemble",
    "Verif.C82_multiClass_ensemble",
    "Verif.C82_amg_ensemble"
   ],
   "note": ""
  },
  {
   "property": "C83",
   "status": "proved",
   "theorems": [
    "Verif.C83_split",
    "Verif.C83_trees",
    "Verif.C83_regression_ensemble",
    "Verif.C83_constant_target",
    "Verif.C83_repeated_targets"
   ],
   "note": ""
  },
  {
   "property": "C84",
   "status": "proved",
   "theorems": [
    "Verif.C84_accuracy_order",
    "Verif.C84_accuracy_append",
    "Verif.C84_mse_order",
    "Verif.C84_mse_append",
    "Verif.C84_tree_mse_append",
    "Verif.C84_violated_by_rounding"
   ],
   "note": ""
  },
  {
   "property": "C85",
   "status": "proved",
   "theorems": [
    "Verif.C85_large_labels",
    "Verif.C85_small_labels",
    "Verif.C85_far_apart"
   ],
   "note": ""
  },
  {
   "property": "C86",
   "status": "proved",
   "theorems": [
    "Verif.C86_split",
    "Verif.C86_trees",
    "Verif.C86_ensembles"
   ],
   "note": ""
  },
  {
   "property": "C87",
   "status": "proved",
   "theorems": [
    "Verif.C87_split",
    "Verif.C87_trees",
    "Verif.C87_ensembles",
    "Verif.C87_scores"
   ],
   "note": ""
  },
  {
   "property": "C88",
   "status": "proved",
   "theorems": [
    "Verif.C88_trees",
    "Verif.C88_regression_ensemble",
    "Verif.C88_classification_ensembles",
    "Verif.C88_files",
    "Verif.C88_trees_single_row",
    "Verif.C88_single_row_features",
    "Verif.C88_ensembles_single_row",
    "Verif.C88_sorted_tree"
   ],
   "note": ""
  },
  {
   "property": "C89",
   "status": "proved",
   "theorems": [
    "Verif.C89_main_iff"
   ],
   "note": ""
  },
  {
   "property": "C90",
   "status": "proved",
   "theorems": [
    "Verif.C90_tree",
    "Verif.C90_one_iteration",
    "Verif.C90_violated_by_ensembles",
    "Verif.C90_violated_in_binary64"
   ],
   "note": ""
  },
  {
   "property": "C91",
   "status": "proved",
   "theorems": [
    "Verif.C91_tree",
    "Verif.C91_amg",
    "Verif.C91_amg_scores",
    "Verif.C91_multiClass_scores",
    "Verif.C91_multiClass_one_iteration",
    "Verif.C91_violated_by_multiClass"
   ],
   "note": ""
  },
  {
   "property": "C92",
   "status": "proved",
   "theorems": [
    "Verif.C92_probabilities",
    "Verif.C92_accuracy",
    "Verif.C92_residuals",
    "Verif.C92_leaf",
    "Verif.C92_absent_class",
    "Verif.C92_violated_for_large_scores"
   ],
   "note": ""
  },
  {
   "property": "C93",
   "status": "proved",
   "theorems": [
    "Verif.C93_more_levels",
    "Verif.C93_training_error",
    "Verif.C93_violated_without_tolerance"
   ],
   "note": ""
  },
  {
   "property": "C94",
   "status": "proved",
   "theorems": [
    "Verif.C94_same_questions",
    "Verif.C94_sorted_tree",
    "Verif.C94_prediction",
    "Verif.C94_violated_by_close_call"
   ],
   "note": ""
  },
  {
   "property": "C95",
   "status": "proved",
   "theorems": [
    "Verif.C95_print_determines",
    "Verif.C95_trained_trees",
    "Verif.C95_same_print",
    "Verif.C95_violated_by_equal_names"
   ],
   "note": ""
  },
  {
   "property": "C96",
   "status": "proved",
   "theorems": [
    "Verif.C96_error_splits",
    "Verif.C96_least_error",
    "Verif.C96_least_error_rounded",
    "Verif.C96_violated_within_a_leaf"
   ],
   "note": ""
  },
  {
   "property": "C97",
   "status": "proved",
   "theorems": [
    "Verif.C97_bounded",
    "Verif.C97_training_rows",
    "Verif.C97_violated_by_large_rates"
   ],
   "note": ""
  },
  {
   "property": "C98",
   "status": "proved",
   "theorems": [
    "Verif.C98_gain_bounds",
    "Verif.C98_largest_decrease",
    "Verif.C98_training_score",
    "Verif.C98_violated_by_ties"
   ],
   "note": ""
  },
  {
   "property": "C99",
   "status": "proved",
   "theorems": [
    "Verif.C99_exhausted",
    "Verif.C99_violated_by_ties"
   ],
   "note": ""
  },
  {
   "property": "C100",
   "status": "proved",
   "theorems": [
    "Verif.C100_best_additive",
    "Verif.C100_additive_labels",
    "Verif.C100_violated_by_ties"
   ],
   "note": ""
  },
  {
   "property": "C101",
   "status": "proved",
   "theorems": [
    "Verif.C101_growth",
    "Verif.C101_multiClass",
    "Verif.C101_amg",
    "Verif.C101_certainty"
   ],
   "note": ""
  },
  {
   "property": "C102",
   "status": "proved",
   "theorems": [
    "Verif.C102_multiClass",
    "Verif.C102_amg",
    "Verif.C102_confidence",
    "Verif.C102_sharp"
   ],
   "note": ""
  },
  {
   "property": "C103",
   "status": "proved",
   "theorems": [
    "Verif.C103_print",
    "Verif.C103_print_complete",
    "Verif.C103_main_lines",
    "Verif.C103_main_progress"
   ],
   "note": ""
  },
  {
   "property": "C104",
   "status": "proved",
   "theorems": [
    "Verif.C104_training_error",
    "Verif.C104_reported_gains",
    "Verif.C104_features",
    "Verif.C104_boosting",
    "Verif.C104_broken_promise"
   ],
   "note": ""
  },
  {
   "property": "C105",
   "status": "proved",
   "theorems": [
    "Verif.C105_library_finder",
    "Verif.C105_threads",
    "Verif.C105_returned",
    "Verif.C105_returned_boosted",
    "Verif.C105_when",
    "Verif.C105_no_panic",
    "Verif.C105_training_error",
    "Verif.C105_boosting",
    "Verif.C105_unchecked"
   ],
   "note": ""
  },
  {
   "property": "C106",
   "status": "proved",
   "theorems": [
    "Verif.C106_calls",
    "Verif.C106_ends",
    "Verif.C106_sequential",
    "Verif.C106_parallel",
    "Verif.C106_any_order",
    "Verif.C106_pure",
    "Verif.C106_function",
    "Verif.C106_deterministic",
    "Verif.C106_ensembles",
    "Verif.C106_ensemble_calls",
    "Verif.C106_schedule"
   ],
   "note": ""
  },
  {
   "property": "C107",
   "status": "proved",
   "theorems": [
    "Verif.C107_average",
    "Verif.C107_equation",
    "Verif.C107_tree",
    "Verif.C107_amg_total",
    "Verif.C107_violated_without_tolerance"
   ],
   "note": ""
  },
  {
   "property": "C108",
   "status": "proved",
   "theorems": [
    "Verif.C108_library_functions",
    "Verif.C108_schedules",
    "Verif.C108_when",
    "Verif.C108_tree",
    "Verif.C108_panics",
    "Verif.C108_outputs",
    "Verif.C108_executor",
    "Verif.C108_executor_empty",
    "Verif.C108_bookkeeping",
    "Verif.C108_round",
    "Verif.C108_loop",
    "Verif.C108_scaled_mean_helps",
    "Verif.C108_harmful"
   ],
   "note": ""
  },
  {
   "property": "C109",
   "status": "proved",
   "theorems": [
    "Verif.C109_tree",
    "Verif.C109_boxes",
    "Verif.C109_boxes_ensembles",
    "Verif.C109_regression",
    "Verif.C109_classification",
    "Verif.C109_additive",
    "Verif.C109_violated_with_more_levels",
    "Verif.C109_rounded",
    "Verif.C109_violated_without_tolerance"
   ],
   "note": ""
  },
  {
   "property": "C110",
   "status": "proved",
   "theorems": [
    "Verif.C110_weights",
    "Verif.C110_same_questions",
    "Verif.C110_one_label",
    "Verif.C110_superposition",
    "Verif.C110_one_tree",
    "Verif.C110_same_tree",
    "Verif.C110_tree"
   ],
   "note": ""
  },
  {
   "property": "C111",
   "status": "proved",
   "theorems": [
    "Verif.C111_continue"
   ],
   "note": ""
  },
  {
   "property": "C112",
   "status": "proved",
   "theorems": [
    "Verif.C112_calls",
    "Verif.C112_ends",
    "Verif.C112_sequential",
    "Verif.C112_parallel",
    "Verif.C112_any_order",
    "Verif.C112_panics",
    "Verif.C112_pure",
    "Verif.C112_function",
    "Verif.C112_questions",
    "Verif.C112_deterministic",
    "Verif.C112_schedule"
   ],
   "note": ""
  },
  {
   "property": "C113",
   "status": "proved",
   "theorems": [
    "Verif.C113_orders",
    "Verif.C113_split",
    "Verif.C113_regression_tree",
    "Verif.C113_gradBoost_tree",
    "Verif.C113_amg_tree",
    "Verif.C113_regression_ensemble",
    "Verif.C113_multiClass_ensemble",
    "Verif.C113_amg_ensemble",
    "Verif.C113_violated_by_other_rows",
    "Verif.C113_violated_by_tied_cuts"
   ],
   "note": ""
  },
  {
   "property": "C114",
   "status": "proved",
   "theorems": [
    "Verif.C114_grid",
    "Verif.C114_tree",
    "Verif.C114_sorted_tree",
    "Verif.C114_ensembles",
    "Verif.C114_one_feature",
    "Verif.C114_grid_count",
    "Verif.C114_leaf_count",
    "Verif.C114_training_rows_violated"
   ],
   "note": ""
  },
  {
   "property": "C115",
   "status": "proved",
   "theorems": [
    "Verif.C115_single_questions",
    "Verif.C115_gains",
    "Verif.C115_sharing",
    "Verif.C115_sharing_can_help"
   ],
   "note": ""
  },
  {
   "property": "C116",
   "status": "proved",
   "theorems": [
    "Verif.C116_trees",
    "Verif.C116_ensembles",
    "Verif.C116_fitted_by_trees",
    "Verif.C116_fitted_by_ensembles",
    "Verif.C116_unfitted_by_trees",
    "Verif.C116_misclassified",
    "Verif.C116_unfitted_by_ensembles"
   ],
   "note": ""
  },
  {
   "property": "C117",
   "status": "proved",
   "theorems": [
    "Verif.C117_gain",
    "Verif.C117_leaves",
    "Verif.C117_deep_tree",
    "Verif.C117_zero_error",
    "Verif.C117_deep_ensemble"
   ],
   "note": ""
  },
  {
   "property": "C118",
   "status": "proved",
   "theorems": [
    "Verif.C118_split",
    "Verif.C118_nodes",
    "Verif.C118_one_feature",
    "Verif.C118_levels",
    "Verif.C118_enough_levels",
    "Verif.C118_ensemble_questions",
    "Verif.C118_same_run",
    "Verif.C118_classification"
   ],
   "note": ""
  },
  {
   "property": "C119",
   "status": "proved",
   "theorems": [
    "Verif.C119_search",
    "Verif.C119_trees",
    "Verif.C119_tree_predicts",
    "Verif.C119_accuracy",
    "Verif.C119_regression",
    "Verif.C119_classification"
   ],
   "note": ""
  },
  {
   "property": "C120",
   "status": "proved",
   "theorems": [
    "Verif.C120_stop",
    "Verif.C120_stop_sorted",
    "Verif.C120_pure_leaves",
    "Verif.C120_tree_fits",
    "Verif.C120_accuracy",
    "Verif.C120_violated_without_bound"
   ],
   "note": ""
  },
  {
   "property": "C121",
   "status": "proved",
   "theorems": [
    "Verif.C121_search",
    "Verif.C121_trees",
    "Verif.C121_tree_sorted",
    "Verif.C121_tree_fits",
    "Verif.C121_accuracy",
    "Verif.C121_violated_without_bound"
   ],
   "note": ""
  },
  {
   "property": "C122",
   "status": "proved",
   "theorems": [
    "Verif.C122_search",
    "Verif.C122_tree",
    "Verif.C122_tree_sorted",
    "Verif.C122_predictions",
    "Verif.C122_scores",
    "Verif.C122_boosting_trees",
    "Verif.C122_violated_without_integers"
   ],
   "note": ""
  },
  {
   "property": "C123",
   "status": "proved",
   "theorems": [
    "Verif.C123_average",
    "Verif.C123_predictions",
    "Verif.C123_boost_leaf",
    "Verif.C123_shares",
    "Verif.C123_amg_class",
    "Verif.C123_violated_without_integers"
   ],
   "note": ""
  },
  {
   "property": "C124",
   "status": "proved",
   "theorems": [
    "Verif.C124_trend",
    "Verif.C124_trend_boost",
    "Verif.C124_ranges",
    "Verif.C124_ranges_boost"
   ],
   "note": ""
  },
  {
   "property": "C125",
   "status": "proved",
   "theorems": [
    "Verif.C125_order",
    "Verif.C125_ranges",
    "Verif.C125_trend",
    "Verif.C125_fits",
    "Verif.C125_rule"
   ],
   "note": ""
  },
  {
   "property": "C126",
   "status": "proved",
   "theorems": [
    "Verif.C126_split",
    "Verif.C126_trees",
    "Verif.C126_tree_sorted",
    "Verif.C126_ensembles",
    "Verif.C126_unused_class",
    "Verif.C126_needs_integers"
   ],
   "note": ""
  },
  {
   "property": "C127",
   "status": "proved",
   "theorems": [
    "Verif.C127_fixed_point",
    "Verif.C127_fixed_same_tree",
    "Verif.C127_classes",
    "Verif.C127_search",
    "Verif.C127_trees",
    "Verif.C127_tree_sorted",
    "Verif.C127_same_tree",
    "Verif.C127_predictions",
    "Verif.C127_ties_are_rounded"
   ],
   "note": ""
  },
  {
   "property": "C128",
   "status": "proved",
   "theorems": [
    "Verif.C128_trees",
    "Verif.C128_predictions",
    "Verif.C128_units",
    "Verif.C128_units_decide_ties"
   ],
   "note": ""
  },
  {
   "property": "C129",
   "status": "proved",
   "theorems": [
    "Verif.C129_search",
    "Verif.C129_trees",
    "Verif.C129_tree_sorted"
   ],
   "note": ""
  },
  {
   "property": "C130",
   "status": "proved",
   "theorems": [
    "Verif.C130_values",
    "Verif.C130_values_sorted",
    "Verif.C130_search",
    "Verif.C130_trees",
    "Verif.C130_tree_sorted",
    "Verif.C130_classes",
    "Verif.C130_classes_sorted"
   ],
   "note": ""
  }
 ]
}