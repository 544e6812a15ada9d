#!/usr/bin/env python3
"""Generates /verif/properties.jsonl (one property per line)."""
import json
P = []
def p(title, statement, quantifier, why, anchors):
    P.append(dict(id=f"C{len(P)+1:02d}", title=title, statement=statement, quantifier=quantifier,
                  why_tests_cant=why, anchors=anchors))
CR="common/src/"; DT="multi-target-decision-tree/src/"; GB="multi-target-grad-boost/src/"; EN=GB+"ensembles/"

# ---- data layer -------------------------------------------------------------------------------
p("Column view is the exact transpose of the rows",
  "create_feature_columns(rows) returns one column per entry of the first row, with columns[c][r] bit-identical to rows[r][c] for every r and c; it panics exactly when rows is empty or some row is shorter than the first one (and never otherwise).",
  "every list of rows, rectangular or ragged, of every size; any f64 contents including NaN",
  "A test fixes one matrix shape; the claim is about every shape and characterises the panic set exactly.",
  [CR+"data_reader.rs:create_feature_columns", CR+"data_reader.rs:read_csv_data_one_hot_multi_target"])
p("Single-target parsing splits each record into features and last column, losing nothing",
  "Parsing records into features and labels keeps the record order, and for every record appending its label to its feature row gives back the record; it panics exactly when some record is empty.",
  "every list of numeric records",
  "Round-trip over all record lists and the exact panic set.",
  [CR+"data_reader.rs:parse_data_into_features_and_labels", CR+"data_reader.rs:read_csv_data"])
p("One-hot label encoding",
  "For number_of_targets = n, each label whose integer truncation k (Rust `as usize`) is below n becomes the length-n vector with 1.0 at position k and 0.0 elsewhere, in record order; loading panics exactly when some label truncates to n or more.  Negative, fractional and NaN labels are not rejected: a negative or NaN label silently becomes class 0.",
  "every list of f64 labels and every number_of_targets",
  "The domain of f64 labels (NaN, negatives, fractions, huge) and target counts is unbounded.",
  [CR+"data_reader.rs:create_multi_target_labels", CR+"data_reader.rs:read_csv_data_one_hot_multi_target"])
p("Loaded data sets are internally consistent",
  "Whenever read_csv_data_one_hot_multi_target returns, rows, columns and labels describe the same records: as many labels as rows, every label of length number_of_targets, columns the transpose of the rows; whenever read_csv_data_multi_target returns, the columns are the transpose of the rows and the labels are the records of the second file.",
  "every CSV content the reader accepts",
  "Holds for every file; a test reads one file.",
  [CR+"data_reader.rs:read_csv_data_one_hot_multi_target", CR+"data_reader.rs:read_csv_data_multi_target", CR+"data_reader.rs:read_data"])
p("Feature sorting is a stable index-tagged permutation",
  "get_sorted_feature_tuple_vector(col) returns every (value,row index) pair of the column exactly once, ordered by value and, for equal values (0.0 equals -0.0), by row index; it panics exactly when the column has two or more entries and one of them is NaN.",
  "every feature column of every length, including NaN, infinities and signed zeros; any comparison sort",
  "All columns, and independence from the sorting algorithm.",
  [CR+"feature_sorter.rs:get_sorted_feature_tuple_vector", CR+"data_processor.rs:create_dataset_with_sorted_features"])
p("Row partition follows the question exactly",
  "partition(data, q) returns (false part, true part): the true part holds exactly the (row,label) pairs whose value in q.column is >= q.value, the false part all the others, both in the original order and with matching feature columns; no pair is lost, duplicated or re-paired.  On rectangular data it panics exactly when one side would be empty (or q.column does not exist).",
  "every rectangular data set, every question",
  "Every data set, threshold and column, including NaN thresholds.",
  [DT+"utils/data_partitioner.rs:partition", CR+"question.rs:Question::solve"])
p("Sorted-column partition agrees with the question when some row satisfies it",
  "If at least one row of the subset has value >= split_value in split_column, new_partition sends to the true side exactly those rows and to the false side exactly the others: labels stay in original row order, each sorted column is split into two columns that keep their order, and no (value,index) pair is lost.",
  "every subset produced from a data set with sorted features, every column and split value with a non-empty true side",
  "Quantifies over all reachable subsets of the index space, not one file.",
  [CR+"data_processor.rs:new_partition", CR+"data_processor.rs:collect_indices_for_partitioning", CR+"data_processor.rs:collect_partitioned_labels", CR+"data_processor.rs:collect_partitioned_feature_columns"])
p("Sorted-column partition with no satisfying row",
  "new_partition sends a row to the true side only if its value is >= split_value, with exactly one exception: when no row of the subset satisfies the question, every row is sent to the true side and the false side is empty (a defect: the first-encounter index stays 0).  The exception is not reachable from tree building, where the split always has a satisfying row.",
  "every subset and every split value larger than all values of the column",
  "The failing case is a boundary the existing tests never reach; the exact behaviour there is proved for all inputs.",
  [CR+"data_processor.rs:new_partition", CR+"data_processor.rs:collect_indices_for_partitioning"])

# ---- split search -----------------------------------------------------------------------------
p("The running-sum variance is the variance",
  "With exact arithmetic the per-target value computed from (sum of squares, mean, count) equals the mean squared deviation from the mean, hence is never negative, and is zero exactly when all labels of that target are equal.  (In binary64 the computed value can be negative, even for three equal labels.)",
  "every non-empty list of finite label vectors",
  "Algebraic identity over all label sets.",
  [DT+"utils/calculations/calculations.rs:calculate_variance_vector", DT+"utils/calculations/calculations.rs:get_multi_target_label_metrics", DT+"split_finders/split_finder_variance.rs:get_total_variance_sum"])
p("A reported split always separates the data",
  "Whenever find_best_split reports a gain other than zero, its question is answered true by at least one row and false by at least one row, its column exists and its threshold is a value occurring in that column.  This holds whatever the rounding of the arithmetic.",
  "every consistent data set without NaN features, arbitrary labels (NaN, infinite included), arbitrary rounding",
  "Guarantees absence of empty children (which would panic) for every input and arithmetic.",
  [DT+"split_finders/split_finder_variance.rs:find_best_split", DT+"split_finders/threshold_finders/threshold_finder_variance.rs:determine_best_threshold"])
p("Reported gain bounds every achievable gain",
  "With exact arithmetic the gain reported by find_best_split is at least the variance reduction of every threshold question (any column, any threshold); in particular gain zero means no question reduces the label variance.",
  "every consistent finite data set, every column, every threshold",
  "Universally quantified over questions and data sets.",
  [DT+"split_finders/split_finder_variance.rs:find_best_split", DT+"split_finders/threshold_finders/threshold_finder_variance.rs:determine_best_threshold"])
p("The chosen split is optimal and its gain is truthful",
  "With exact arithmetic, on data in which examples that share a value of a feature (other than its smallest value) have the same label: when find_best_split reports a non-zero gain, the gain equals the variance reduction of the returned question and no question achieves more.  Without that restriction the claim is false of the code (a defect: the first-encounter guard compares with the first value only, so thresholds inside a group of equal values are considered): there is a data set for which the reported gain is not achieved and a better question exists, and one whose chosen question does not reduce the variance at all.",
  "every consistent finite data set",
  "Optimality is a statement about all questions; the violation needs specific duplicate patterns.",
  [DT+"split_finders/threshold_finders/threshold_finder_variance.rs:determine_best_threshold", DT+"split_finders/split_finder_variance.rs:find_best_split"])
p("The learned split does not depend on the order of the training rows",
  "With exact arithmetic, on data in which examples that share a value of a feature (other than its smallest value) have the same label: permuting the training rows (with their labels) does not change the question chosen by find_best_split nor its gain, nor the questions of a regression tree, the path of any row and the examples in its leaves up to order, nor the boosting trees.  Without that restriction the claim is false of the code: swapping two rows of a concrete data set changes the chosen column.",
  "every finite data set and every permutation of its rows",
  "All permutations of all data sets.",
  [DT+"split_finders/threshold_finders/threshold_finder_variance.rs:determine_best_threshold", CR+"feature_sorter.rs:get_sorted_feature_tuple_vector"])
p("Gain is a non-negative number and ties go to the first column",
  "The gain returned by find_best_split is never NaN and never negative; it is zero exactly when no column improves, and then the question is the placeholder (column 0, value 0).  Otherwise the chosen column is the first column attaining the reported gain.",
  "every data set on which find_best_split returns, arbitrary rounding, NaN labels included",
  "Arbitrary arithmetic and all inputs.",
  [DT+"split_finders/split_finder_variance.rs:find_best_split"])
p("Constant labels are never split",
  "With exact arithmetic, if all label vectors of a data set are equal, find_best_split reports gain zero and the tree is a single leaf.  With binary64 rounding the claim is false of the code: four rows with the label 0.1 are split because of rounding noise.",
  "every data set with identical finite label vectors",
  "All sizes and values; the binary64 witness needs specific rounding.",
  [DT+"split_finders/split_finder_variance.rs:find_best_split", DT+"tree/tree_builders/regression_tree_builder.rs:build_regression_tree"])
p("NaN or infinite labels stop splitting",
  "If some label entry is NaN or infinite, the resulting tree is a single leaf holding the whole data set (the gain is never positive).",
  "every consistent data set with at least one non-finite label entry, binary64 arithmetic or exact arithmetic",
  "Any position of the non-finite entry, any size.",
  [DT+"split_finders/split_finder_variance.rs:find_best_split", DT+"utils/calculations/calculations.rs:calculate_variance_vector"])

# ---- trees ------------------------------------------------------------------------------------
p("Training a tree never panics on a consistent data set",
  "For every non-empty data set whose rows have equal length, whose columns are the transpose of the rows, whose labels have length number_of_classes, and whose features contain no NaN, RegressionMultiTargetDecisionTree::new, GradBoostMultiTargetDecisionTree::new and AMGBoostTree::new return a tree (no index, assertion or unwrap panic), for every max_levels and whatever the labels and the rounding.",
  "every consistent data set, every depth limit, arbitrary rounding",
  "Panic freedom over all inputs.",
  [DT+"tree/decision_trees.rs:RegressionMultiTargetDecisionTree::new", DT+"tree/grad_boost_decision_trees.rs", DT+"tree/tree_builders/regression_tree_builder.rs:build_regression_tree"])
p("Depth never exceeds max_levels",
  "Every path from the root to a leaf asks at most max_levels questions; with max_levels = 0 the tree is a single leaf.",
  "every data set on which training returns and every max_levels",
  "All depths and data sets.",
  [DT+"tree/tree_builders/regression_tree_builder.rs:build_regression_tree", DT+"tree/decision_trees.rs:TreeConfig"])
p("Each leaf stores exactly the training examples that reach it",
  "For every leaf, the stored (row,label) pairs are exactly the training pairs whose row satisfies all the answers on the path to the leaf, in training order; every stored data set is non-empty and consistent.",
  "every consistent training set, every leaf of the resulting tree",
  "Inductive over the tree, for all data.",
  [DT+"tree/tree_builders/regression_tree_builder.rs:build_regression_tree", DT+"tree/leaf.rs:RegressionLeaf"])
p("Leaves partition the training data",
  "Concatenating the data of all leaves gives a permutation of the training pairs: every example is in exactly one leaf, so the number of leaves is at most the number of examples.",
  "every consistent training set",
  "Conservation law over all trees.",
  [DT+"tree/tree_builders/regression_tree_builder.rs:build_regression_tree"])
p("Traversal of a training row ends in the leaf that stores it",
  "Looking up any training row in the tree returns (without panic) the leaf whose stored data contains that row with its label; looking up any other row with enough columns always ends in some leaf without panic.",
  "every training set, every row",
  "All rows, all trees.",
  [DT+"utils/scorer.rs:find_leaf_node_for_data", GB+"tree_traverse.rs:find_leaf_node_for_data"])
p("Multi-threaded training returns exactly the single-threaded result under every schedule",
  "For every interleaving of the forked subtasks and every way the parallel iterators split their work, training with use_multi_threading = true produces the same tree (bit for bit) or the same panic as the single-threaded builder, and every execution terminates.  Holds for regression, gradient-boosting and AMG trees.",
  "every data set, configuration, work-splitting and interleaving",
  "Schedules cannot be enumerated by tests.",
  [DT+"tree/tree_builders/regression_tree_builder.rs:build_regression_tree_using_multiple_threads", DT+"tree/tree_builders/grad_boost/grad_boost_tree_builder.rs:build_grad_boost_regression_tree_using_multiple_threads", DT+"tree/tree_builders/grad_boost/approximate_grad_boost_tree_builder.rs:build_approximate_grad_boost_regression_tree_using_multiple_threads", DT+"split_finders/split_finder_variance.rs:find_best_split"])
p("The sorted-column builder and the row builder learn the same tree",
  "RegressionMultiTargetDecisionTreeNewPartition::new on create_dataset_with_sorted_features(data) and RegressionMultiTargetDecisionTree::new on data build trees with identical questions, shape and leaf labels (same order), bit for bit, whatever the rounding.  So they do when there are more labels than rows.",
  "every consistent data set without NaN features, every max_levels, arbitrary rounding",
  "Equivalence of two implementations over all inputs and arithmetics.",
  [DT+"tree/tree_builders/regression_tree_builder.rs:build_regression_tree_new_partition", DT+"tree/decision_trees.rs:RegressionMultiTargetDecisionTreeNewPartition::new", DT+"split_finders/split_finder_variance.rs:find_best_split_new_partition"])
p("Raising max_levels only refines the tree",
  "The tree learned with a smaller max_levels is the tree learned with a larger one cut at that depth: all questions at depths below the smaller limit coincide.",
  "every data set, every pair of depth limits",
  "All pairs of limits.",
  [DT+"tree/tree_builders/regression_tree_builder.rs:build_regression_tree"])
p("Training error of a regression tree",
  "With exact arithmetic, calculate_overall_mean_squared_error on the training set is at most the mean per-target variance of the labels (the error of the constant mean prediction), and raising max_levels never increases it.",
  "every consistent finite training set, every max_levels",
  "Inequality over all data and depths.",
  [DT+"utils/scorer.rs:regression::calculate_overall_mean_squared_error", DT+"tree/tree_builders/regression_tree_builder.rs:build_regression_tree"])
p("Monotone rescaling of features does not change what is learned",
  "Applying to each feature column a transformation that preserves order and equality yields a tree of the same shape with the same split columns, thresholds transformed accordingly, and the same labels in every leaf; transformed rows reach the corresponding leaves.",
  "every consistent data set, every order-preserving per-column transformation, arbitrary rounding of label arithmetic",
  "All transformations and data sets.",
  [DT+"split_finders/threshold_finders/threshold_finder_variance.rs:determine_best_threshold", DT+"tree/tree_builders/regression_tree_builder.rs:build_regression_tree"])

# ---- scoring ----------------------------------------------------------------------------------
p("Class prediction is the first majority class, one-hot",
  "predict_class returns a vector of the label length with 1.0 at exactly one position and 0.0 elsewhere; that position is the first class whose number of 1.0 entries among the leaf's labels is maximal (class 0 if no label has a 1.0).",
  "every tree learned from a consistent data set and every row",
  "All leaves and label contents, ties included.",
  [DT+"utils/scorer.rs:classification::predict_class", DT+"utils/class_counter.rs:ClassCounter"])
p("Accuracy is the fraction of exact matches",
  "calculate_accuracy (single tree) and the ensemble calculate_score for classification return the number of test rows whose prediction equals the label divided by the number of rows: within [0,1], 1 exactly when all match, 0 exactly when none match; NaN exactly for an empty test set.  Proved for binary64 up to 2^53 rows.",
  "every test set, every tree/model",
  "All test sets, plus floating-point counting.",
  [DT+"utils/scorer.rs:classification::calculate_accuracy", EN+"MultiClassBoosting/common_multi_class_boosting_functions.rs:calculate_accuracy_from_predictions"])
p("Mean squared error is non-negative and zero exactly for perfect predictions",
  "With exact arithmetic the regression scores equal the average over rows of the average squared error per target, are never negative, and are zero exactly when every prediction equals its label; in binary64 they are never negative.",
  "every test set and model with matching label lengths",
  "All inputs; rounding included for the sign.",
  [DT+"utils/scorer.rs:regression::calculate_overall_mean_squared_error", EN+"RegressionBoost/regression_boost_ensemble.rs:calculate_mean_squared_error", CR+"numerical_calculations.rs:mean_sum_of_squared_differences_between_f64_slices"])
p("Both tree scorers agree",
  "calculate_overall_mean_squared_error_new_partition on the sorted-column tree equals calculate_overall_mean_squared_error on the row tree of the same data, for every test set, bit for bit.",
  "every training set, max_levels and test set, arbitrary rounding",
  "Equivalence over all inputs.",
  [DT+"utils/scorer.rs:regression::calculate_overall_mean_squared_error_new_partition", DT+"utils/scorer.rs:regression::calculate_overall_mean_squared_error"])

# ---- boosting ---------------------------------------------------------------------------------
p("An ensemble has one tree per iteration and remembers its parameters",
  "train(data, cfg, n, lr) returns a model with exactly n trees, the given learning rate, and initial guess equal to the label average (regression) or the uniform vector 1/K of length K (classification); with n = 0 prediction returns the initial guess (regression) or the one-hot vector of its first maximal entry (classification).",
  "every data set, every iteration count and learning rate",
  "All n.",
  [EN+"boosting_loop.rs:boosting_loop", EN+"boosting_loop.rs:determine_initial_guess", EN+"RegressionBoost/regression_boost_executor_functions.rs:execute_gradient_boosting_loop"])
p("More iterations extend the ensemble",
  "The first n trees of train(data,cfg,m,lr) are exactly the trees of train(data,cfg,n,lr) for n <= m: boosting is incremental and deterministic.",
  "every data set and pair n <= m, all three ensemble types, arbitrary rounding",
  "All pairs of iteration counts.",
  [EN+"RegressionBoost/regression_boost_executor_functions.rs:execute_gradient_boosting_loop", EN+"MultiClassBoosting/MultiClassBoost/multi_class_boost_executor_functions.rs:execute_gradient_boosting_loop", EN+"MultiClassBoosting/AMGBoost/amg_boost_executor_functions.rs:execute_gradient_boosting_loop"])
p("The working labels used in training equal the model's own predictions",
  "After k boosting iterations the internally tracked label of training row i equals, bit for bit, the raw score the k-tree ensemble computes for that row; hence each tree is fitted to the residual of the actual model.",
  "every training set, iteration, row, arbitrary rounding, all three ensembles",
  "Loop invariant over all iterations.",
  [EN+"common_boosting_functions.rs:update_common::update_dataset_labels", EN+"common_boosting_functions.rs:predict_common::predict_instance", EN+"MultiClassBoosting/AMGBoost/amg_boost_executor_functions.rs:update_dataset_labels", EN+"MultiClassBoosting/AMGBoost/amg_boost_predict_functions.rs:predict_instance"])
p("Prediction is additive",
  "With exact arithmetic a regression prediction equals initial_guess + learning_rate * (sum over trees of the output of the leaf reached by the row), componentwise, for any number of trees.  The class predicted by the two classification ensembles is the first largest entry of the same sum, where an AMG leaf stands for its value at its class and -value/(classes - 1) elsewhere.",
  "every model with matching lengths, every row",
  "All ensembles.",
  [EN+"common_boosting_functions.rs:predict_common::predict_instance", EN+"RegressionBoost/regression_boost_ensemble.rs:predict"])
p("Regression boosting never increases the training error",
  "With exact arithmetic and 0 <= learning_rate <= 2, the training-set score of the ensemble with n+1 trees is at most the score with n trees.",
  "every consistent finite training set, every configuration, every n, every learning rate in [0,2]",
  "Monotonicity for all n and data.",
  [EN+"RegressionBoost/regression_boost_ensemble.rs:train", EN+"RegressionBoost/regression_boost_executor_functions.rs", DT+"tree/tree_builders/grad_boost/grad_boost_leaf_output.rs:calculate_leaf_output_squared_loss"])
p("Regression boosting is unbiased on the training set",
  "With exact arithmetic, for every learning rate and every number of iterations, the average prediction over the training rows equals the average label, for each target.",
  "every consistent finite training set, n, learning rate",
  "Invariant over all iterations.",
  [EN+"boosting_loop.rs:boosting_loop", DT+"tree/tree_builders/grad_boost/grad_boost_leaf_output.rs:calculate_leaf_output_squared_loss"])
p("Softmax residuals",
  "With exact arithmetic the class probabilities computed from any finite score vector are positive and sum to 1, so for a one-hot label with at least two classes every residual entry lies strictly between -1 and 1, is non-zero, and the entries sum to 0.",
  "every finite score vector and one-hot label",
  "Real-analysis fact over all score vectors.",
  [EN+"MultiClassBoosting/common_multi_class_boosting_functions.rs:calculate_residuals", EN+"MultiClassBoosting/common_multi_class_boosting_functions.rs:calculate_probabilities_of_predictions"])
p("Multi-class leaf outputs are finite with two or more classes",
  "With exact arithmetic, for one-hot labels and K >= 2, every leaf output of MultiClassBoost is finite and equals (K-1)/K * sum(r) / sum(|r|(1-|r|)) per class; training and prediction scores stay finite for all iterations.  For K = 1 the leaf output is NaN (0/0).",
  "every one-hot training set with K >= 2, every iteration; K = 1 separately",
  "Division-by-zero freedom over all executions.",
  [DT+"tree/tree_builders/grad_boost/grad_boost_leaf_output.rs:calculate_leaf_output_multi_class_loss", DT+"tree/tree_builders/grad_boost/grad_boost_leaf_output.rs:calculate_denominator_term_for_leaf_output"])
p("Classification predictions are always one-hot",
  "predict of MultiClassBoostModel and AMGBoostModel returns a vector of length K with a single 1.0 at the first position whose raw score is maximal, for every row and whatever the rounding; NaN scores are skipped and if no score exceeds negative infinity the prediction is class 0.  It panics on an empty score vector.  The raw scores are the initial guess plus the outputs of the leaves reached, each multiplied by the learning rate, added tree by tree (for AMG the output is the stored maximum for its class and minus maximum / (K - 1) for the others).",
  "every raw score vector including NaN and infinities, every model",
  "All score vectors.",
  [EN+"MultiClassBoosting/common_multi_class_boosting_functions.rs:get_binary_prediction", EN+"MultiClassBoosting/MultiClassBoost/multi_class_boost_ensemble.rs:predict", EN+"MultiClassBoosting/AMGBoost/amg_boost_ensemble.rs:predict"])
p("AMG leaves store the first maximal output and its class",
  "Every leaf of an AMGBoost tree holds the first maximum of the multi-class leaf output vector and its index, which is a valid class (below K).",
  "every training set and leaf, arbitrary rounding",
  "All leaves.",
  [DT+"tree/tree_builders/grad_boost/approximate_grad_boost_tree_builder.rs:find_max_value_and_index_from_vector", DT+"tree/tree_builders/grad_boost/approximate_grad_boost_tree_builder.rs:build_approximate_grad_boost_regression_tree"])
p("AMG score vectors keep a constant total",
  "With exact arithmetic and K >= 2, the reconstructed AMG leaf output sums to zero over the classes, so the raw scores of any row always sum to 1 (the total of the initial guess), after any number of iterations and any learning rate.",
  "every model with finite leaf values, every row",
  "Invariant over all trees and iterations.",
  [EN+"MultiClassBoosting/AMGBoost/amg_boost_predict_functions.rs:construct_approximate_leaf_output", EN+"MultiClassBoosting/AMGBoost/amg_boost_ensemble.rs:calculate_approximate_value"])
p("Training an ensemble never panics on a consistent data set",
  "For every consistent data set without NaN features, RegressionBoostModel::train, MultiClassBoostModel::train and AMGBoostModel::train return a model for every iteration count, learning rate and depth, whatever the labels and the rounding; predict on any row with enough columns then returns without panic.",
  "every consistent data set, n, learning rate (NaN included), depth, arbitrary rounding; classification needs at least one class",
  "Panic freedom over all runs, even when scores overflow to infinity or NaN.",
  [EN+"boosting_loop.rs:boosting_loop", EN+"RegressionBoost/regression_boost_ensemble.rs", EN+"MultiClassBoosting/MultiClassBoost/multi_class_boost_ensemble.rs", EN+"MultiClassBoosting/AMGBoost/amg_boost_ensemble.rs"])
p("Batch prediction is row-wise prediction",
  "calculate_all_predictions returns, in order, predict(row) for each row of the test set, for all three models; scores depend on the test set only through its rows and labels.",
  "every model and test set",
  "All test sets.",
  [EN+"RegressionBoost/regression_boost_ensemble.rs:calculate_all_predictions", EN+"MultiClassBoosting/MultiClassBoost/multi_class_boost_ensemble.rs:calculate_all_predictions", EN+"MultiClassBoosting/AMGBoost/amg_boost_ensemble.rs:calculate_all_predictions"])
p("Wrong number_of_classes is always detected",
  "If TreeConfig.number_of_classes differs from the label length of a consistent non-empty data set with at least one feature column, training panics instead of learning from part of the targets.  The tree on pre-sorted features is the exception: it ignores number_of_classes altogether.",
  "every consistent data set and every wrong number_of_classes",
  "All mismatching configurations.",
  [DT+"utils/calculations/calculations.rs:get_label_sum_vectors", DT+"split_finders/threshold_finders/threshold_finder_variance.rs:update_left_value_tracker", DT+"tree/decision_trees.rs:TreeConfig"])
p("NaN features are always detected",
  "If a consistent data set with at least two rows has a NaN in some feature, training a tree panics rather than silently building a tree on unordered values.",
  "every data set with at least two rows and a NaN feature",
  "Any position of the NaN.",
  [CR+"feature_sorter.rs:get_sorted_feature_tuple_vector", DT+"split_finders/split_finder_variance.rs:find_best_split"])
p("Parallel training of ensembles is schedule-independent",
  "Every interleaving of the parallel residual computation, split search and subtree construction inside train yields the same model or the same panic, for all three ensembles.",
  "every data set, configuration and schedule",
  "Schedules cannot be enumerated.",
  [EN+"RegressionBoost/regression_boost_executor_functions.rs:calculate_residuals", EN+"MultiClassBoosting/common_multi_class_boosting_functions.rs:calculate_residuals", EN+"boosting_loop.rs:boosting_loop"])
p("Printing a tree visits every node once",
  "print_tree_regression prints one Predict line per leaf, one question line and one True and one False marker per internal node, true branch before false branch, indented by four spaces per level; it panics exactly when a split column has no feature name.",
  "every tree built by the library and every list of feature names",
  "All trees.",
  [DT+"tree/tree_print.rs:print_tree_regression", CR+"question.rs:Question::to_string"])
p("Trees are grown greedily",
  "In every tree returned by one of the four builders, the node at each position asks the question that find_best_split reports for exactly those training examples that are routed to this position, and the node is a leaf exactly if the position is at the depth limit or the reported gain is zero.  is_leaf_node tells the two kinds of node apart.",
  "every consistent data set, configuration, leaf output type and every position in the tree, arbitrary rounding",
  "The tree is determined at every one of its positions, for all data sets.",
  [DT+"tree/tree_builders/regression_tree_builder.rs:build_regression_tree", DT+"tree/tree_builders/grad_boost/grad_boost_tree_builder.rs:build_grad_boost_regression_tree", DT+"tree/tree_builders/grad_boost/approximate_grad_boost_tree_builder.rs:build_approximate_grad_boost_regression_tree", DT+"tree/tree_builders/regression_tree_builder.rs:build_regression_tree_using_multiple_threads", DT+"tree/node.rs:is_leaf_node"])
p("The split search reports the first best cut",
  "Order the rows by a feature, rows with equal values in their original order, and consider the cuts before every row whose value is not the smallest one.  With exact arithmetic find_best_split reports the largest variance reduction over all cuts of all features if it is positive (gain 0 otherwise), for the earliest such feature and the earliest such cut, with the value of the row after the cut as threshold.  This determines the result completely, repeated values included.",
  "every consistent data set with finite labels, exact arithmetic",
  "All data sets, all ties.",
  [DT+"split_finders/split_finder_variance.rs:find_best_split", DT+"split_finders/threshold_finders/threshold_finder_variance.rs:determine_best_threshold"])
p("Readers return exactly the records of readable files",
  "read_csv_data, read_csv_data_multi_target, read_csv_data_one_hot_multi_target and get_feature_names return exactly if the file can be opened, every record has as many fields as the header, every field is a number, and (per reader) there is the record or column the reader needs; they then return the numbers of the file, in file order, split into features and labels as each reader promises.  The content of a readable file is unique.",
  "every file content and every number syntax",
  "All files, well-formed or not, and the exact set of rejected ones.",
  [CR+"data_reader.rs:read_csv_data", CR+"data_reader.rs:read_csv_data_multi_target", CR+"data_reader.rs:read_csv_data_one_hot_multi_target", CR+"data_reader.rs:get_feature_names"])
p("What the regression scores compute",
  "In any arithmetic, the score of a regression tree is the mean over the test rows of the mean squared difference between the average training label of the row's leaf and the row's label, summed in row order, and it is returned exactly if every row has a label with at least as many entries as there are targets.  The score of a regression ensemble is the same quantity over the labels with the ensemble's predictions, and is returned exactly if each row can be predicted, each label has a row, and label and prediction have the same length.",
  "every trained tree or ensemble and every test set, arbitrary rounding",
  "The value is pinned for every model, test set and rounding behaviour, together with the exact panic set.",
  [DT+"utils/scorer.rs:calculate_overall_mean_squared_error", EN+"RegressionBoost/regression_boost_ensemble.rs:calculate_score"])
p("The main program",
  "With readable files, at least 11 training records with 10 targets and no NaN feature, and test files with enough columns, 10 targets and no more labels than rows, the program runs to its end and prints the 11th training label, the ensemble's mean squared error on the test set, the first test label and the ensemble's prediction for the first test row.  It panics if a file is unreadable, if there are fewer than 11 training labels, or if the targets are not 10.",
  "every content of the four files",
  "All file contents.",
  ["main/src/main.rs:main"])

p("Units and order of the targets do not matter",
  "With exact arithmetic, write all labels in other units: list the targets in another order, multiply all of them by the same non-zero factor a and add a constant to each target.  The split search then asks the same question with the gain times a squared, the regression tree and every tree of a regression ensemble ask the same questions and route every row alike, every prediction is the old prediction in the new units, and every mean squared error is multiplied by a squared.",
  "every consistent data set with finite labels, every reordering, factor and shift, every depth, iteration count and learning rate; exact arithmetic",
  "A relation between two complete training runs, for all data sets and all changes of units.",
  [DT+"split_finders/split_finder_variance.rs:find_best_split", DT+"tree/tree_builders/regression_tree_builder.rs:build_regression_tree", DT+"utils/scorer.rs:calculate_overall_mean_squared_error", EN+"RegressionBoost/regression_boost_ensemble.rs:train"])
p("Order of the classes",
  "With exact arithmetic, listing the classes in another order in all one-hot labels leaves all questions of a MultiClassBoostModel unchanged and lists its scores in the new order; a class whose score is strictly the largest is predicted under either order.  AMGBoostModel does not have this property: its leaves keep only the first of several equally large residual sums, so the same data with two classes swapped can give different scores.",
  "every one-hot data set, every reordering of the classes, depth, iteration count and learning rate; exact arithmetic, any exp function",
  "A relation between two complete training runs, for all data sets and reorderings.",
  [EN+"MultiClassBoosting/MultiClassBoost/multi_class_boost_ensemble.rs:train", EN+"MultiClassBoosting/AMGBoost/amg_boost_ensemble.rs:train", EN+"MultiClassBoosting/common_multi_class_boosting_functions.rs:calculate_residuals"])
p("Redundant features are never used",
  "Let a feature be constant over the training rows, or order them exactly as an earlier feature does (a copy, or any increasing function of it).  Training with and without that feature gives trees with the same questions about the other features, the same examples or outputs in the leaves and the same path for every row, and all three ensembles make identical predictions.",
  "every consistent data set, every redundant feature, configuration, iteration count and learning rate, arbitrary rounding",
  "A relation between two complete training runs, for all data sets.",
  [DT+"split_finders/split_finder_variance.rs:find_best_split", DT+"split_finders/threshold_finders/threshold_finder_variance.rs:determine_best_threshold", DT+"tree/tree_builders/regression_tree_builder.rs:build_regression_tree", EN+"boosting_loop.rs:boosting_loop"])

p("Deep trees fit the training data",
  "A leaf reached by k questions holds at most n - k of the n training examples, so no path asks more than n - 1 questions.  With exact arithmetic and no contradictory training examples (rows with equal values in all features have equal labels; repeated values are fine): all training examples in a leaf above max_levels have the same label; a regression tree with max_levels at least n - 1 has training error 0; a regression ensemble of such trees has, after k iterations, the training error of the mean label times (1 - learning rate)^(2k), so learning rate 1 reproduces all labels after one iteration.",
  "every consistent data set; fitting: finite labels, no contradictory examples, exact arithmetic, every iteration count and learning rate",
  "All data sets; the training error is given in closed form for every number of iterations.",
  [DT+"tree/tree_builders/regression_tree_builder.rs:build_regression_tree", DT+"split_finders/split_finder_variance.rs:find_best_split", DT+"utils/scorer.rs:calculate_overall_mean_squared_error", EN+"RegressionBoost/regression_boost_ensemble.rs:train"])
p("Predictions respect linear constraints on the labels",
  "With exact arithmetic, a linear inequality that holds for all training labels (a range for a target, a bound on a sum of targets) holds for the average label in every leaf of a regression tree, for every output of a gradient boosting tree, and for the predictions of a regression ensemble with one iteration and learning rate in [0, 1].  A linear equation (targets that add up to 1) carries over to all predictions of a regression ensemble, for every iteration count, depth and learning rate.  Inequalities do not carry over to longer ensembles, and in binary64 a leaf average can exceed all of its labels.",
  "every consistent data set with finite labels, every linear constraint, every row; exact arithmetic",
  "All constraints and all rows, seen or unseen in training.",
  [CR+"numerical_calculations.rs:calculate_average_f64_vector", DT+"tree/tree_builders/grad_boost/grad_boost_tree_builder.rs:build_grad_boost_regression_tree", EN+"RegressionBoost/regression_boost_ensemble.rs:predict"])

p("Predictions depend only on where a row lies among the training values",
  "Two rows that compare alike with every training value of every feature (the smallest value of a feature aside) take the same path through every tree, end in the same leaf and get identical predictions from all three ensembles.  So values between two training values are predicted alike, values beyond the largest training value like the largest one, values below the smallest one like the smallest one, and NaN in a row to be predicted acts as negative infinity.",
  "every consistent data set, configuration, iteration count and learning rate, every pair of rows, arbitrary rounding",
  "All pairs of rows, including values never seen in training.",
  [CR+"question.rs:solve", DT+"tree/tree_builders/regression_tree_builder.rs:build_regression_tree", DT+"split_finders/split_finder_variance.rs:find_best_split", EN+"RegressionBoost/regression_boost_ensemble.rs:predict", EN+"MultiClassBoosting/MultiClassBoost/multi_class_boost_ensemble.rs:predict", EN+"MultiClassBoosting/AMGBoost/amg_boost_ensemble.rs:predict"])
p("Size of trees and ensembles",
  "Every learned tree has exactly one leaf more than questions and no other nodes, at most one leaf per training example and at most 2^max_levels leaves; an ensemble of k iterations on n examples therefore has at most k * (2 * min(n, 2^max_levels) - 1) nodes.",
  "every consistent data set, configuration, iteration count and learning rate, arbitrary rounding",
  "Memory use is bounded for all inputs, not for the sampled ones.",
  [DT+"tree/node.rs:TreeNode", DT+"tree/tree_builders/regression_tree_builder.rs:build_regression_tree", DT+"tree/tree_builders/grad_boost/grad_boost_tree_builder.rs:build_grad_boost_regression_tree", EN+"boosting_loop.rs:boosting_loop"])

p("Repeating every example changes nothing",
  "With exact arithmetic, listing every training example k times in a row leaves the question and the gain of the split search unchanged; the regression tree asks the same questions, routes every row alike and has the same error, also on a repeated test set; the boosting trees and all three trained ensembles are equal.  If examples that share a value of a feature (other than its smallest value) have the same label, or for ensembles are copies of each other, the copies may stand in any order.  Otherwise a copy of the data set appended at its end need not leave the result unchanged, because the search considers thresholds inside groups of equal feature values.",
  "every consistent data set with finite labels (one-hot labels for the class ensembles), every number of copies, depth, iteration count and learning rate; exact arithmetic",
  "A relation between two complete training runs, for all data sets and numbers of copies.",
  [DT+"split_finders/split_finder_variance.rs:find_best_split", DT+"split_finders/threshold_finders/threshold_finder_variance.rs:determine_best_threshold", DT+"tree/tree_builders/regression_tree_builder.rs:build_regression_tree", DT+"utils/scorer.rs:calculate_overall_mean_squared_error", EN+"boosting_loop.rs:boosting_loop"])

p("Ensembles do not depend on the order of the training rows",
  "With exact arithmetic, on data in which examples that share a value of a feature (other than its smallest value) are copies of each other: training a RegressionBoostModel, MultiClassBoostModel or AMGBoostModel on the rows in another order returns the same model.  Without that restriction the claim is false of the code, even if such examples have the same label: for four concrete rows the opposite order changes a prediction.",
  "every consistent data set with finite labels (one-hot labels for the class ensembles), every permutation of its rows, depth, iteration count and learning rate; exact arithmetic",
  "A relation between two complete training runs, for all data sets and permutations.",
  [EN+"boosting_loop.rs:boosting_loop", EN+"RegressionBoost/regression_boost_ensemble.rs:train", EN+"MultiClassBoosting/MultiClassBoost/multi_class_boost_ensemble.rs:train", EN+"MultiClassBoosting/AMGBoost/amg_boost_ensemble.rs:train", DT+"split_finders/threshold_finders/threshold_finder_variance.rs:determine_best_threshold"])

p("Rounded averages are close to the exact mean",
  "In binary64, the average of n <= 2^24 label vectors whose entries are at most B in absolute value (2^-400 <= B <= 2^400) differs in every entry by at most 2^-50 * n * B from the exact mean.  This holds for the prediction of a regression tree for every row (the exact mean of the training labels whose rows take the same path) and for the output stored in every leaf of a regression boosting tree.  Without a bound on the labels the average can overflow to infinity.",
  "every consistent data set of binary64 numbers within the bounds, every configuration, every row and leaf",
  "All data sets: a bound on accumulated rounding errors cannot be sampled.",
  [CR+"numerical_calculations.rs:calculate_average_f64_vector", DT+"tree/tree_builders/regression_tree_builder.rs:build_regression_tree", DT+"tree/tree_builders/grad_boost/grad_boost_tree_builder.rs:build_grad_boost_regression_tree"])
p("The split search is near-optimal despite rounding",
  "In binary64, with n <= 2^24 rows, t <= 2^24 targets and labels up to B (2^-400 <= B <= 2^400), let tol = 2^-44 * t * (n + t) * B^2.  The reported gain is a number, not negative, at most the exact total variance plus tol, and no question reduces the exact variance by more than the gain plus tol.  If the reported threshold occurs once in its column, the gain is within tol of the exact variance reduction of the reported question, and no question is better by more than 2 tol.  Equal labels give a gain of at most tol.  The same holds at every position of a tree (regression, boosting, AMG and pre-sorted) for the examples that arrive there; a leaf above max_levels means that no question would reduce their variance by more than tol.  Outside the bounds it fails: labels 0 and 1e200 are not split.",
  "every consistent data set of binary64 numbers within the bounds, every question about a feature, every position of the tree",
  "All data sets and all competing questions; a bound on accumulated rounding errors cannot be sampled.",
  [DT+"split_finders/split_finder_variance.rs:find_best_split", DT+"split_finders/threshold_finders/threshold_finder_variance.rs:determine_best_threshold", DT+"utils/calculations/calculations.rs:calculate_variance_vector", DT+"tree/tree_builders/regression_tree_builder.rs:build_regression_tree"])
p("Equal small integer labels are never split, despite rounding",
  "In binary64, if all n label vectors are equal and have integer entries x with n * x^2 <= 2^53 (for example one-hot labels), the gain is zero and the tree is a single leaf.  A tree (regression, boosting, AMG or pre-sorted) for labels with such entries asks no question where all arriving examples have the same label.",
  "every consistent data set of binary64 numbers with such labels, every configuration and position",
  "All data sets; with other constant labels (0.1) the computed gain can be positive.",
  [DT+"split_finders/split_finder_variance.rs:find_best_split", DT+"tree/tree_builders/regression_tree_builder.rs:build_regression_tree", DT+"utils/calculations/calculations.rs:calculate_variance_vector"])

p("One boosting iteration is a single tree",
  "With exact arithmetic, an ensemble trained for one iteration contains one tree, and it asks exactly the questions of the regression tree grown with the same configuration.  A RegressionBoostModel then predicts lr * (average label in the row's leaf) + (1 - lr) * (average of all labels); with learning rate 1 it scores the same error as the tree on every test set.  For one-hot labels of t >= 2 classes and a positive learning rate, the multi-class score of a class is 1/t + lr * (t * f - 1) with f its frequency in the row's leaf, and MultiClassBoostModel, AMGBoostModel and predict_class on the tree predict the same class for every row, hence have the same accuracy.",
  "every consistent data set with finite (one-hot) labels, every configuration, learning rate, row and test set; exact arithmetic",
  "Relates four independent training routines for all data sets and all rows.",
  [EN+"boosting_loop.rs:boosting_loop", EN+"RegressionBoost/regression_boost_ensemble.rs:predict", EN+"MultiClassBoosting/MultiClassBoost/multi_class_boost_ensemble.rs:predict", EN+"MultiClassBoosting/AMGBoost/amg_boost_ensemble.rs:predict", DT+"tree/tree_builders/regression_tree_builder.rs:build_regression_tree"])
p("With two classes AMG boosting is multi-class boosting",
  "With exact arithmetic and one-hot labels of two classes, MultiClassBoostModel and AMGBoostModel trained with the same settings have trees with the same questions, give the same raw scores and the same predictions to every row, and score the same accuracy on every test set, for every number of iterations and every learning rate: the approximation of AMG boosting loses nothing.",
  "every consistent data set with one-hot labels of two classes, every configuration, iteration count, learning rate, row and test set; exact arithmetic",
  "A relation between two complete training runs of different algorithms, for all data sets.",
  [EN+"MultiClassBoosting/MultiClassBoost/multi_class_boost_ensemble.rs:train", EN+"MultiClassBoosting/AMGBoost/amg_boost_ensemble.rs:train", EN+"MultiClassBoosting/AMGBoost/amg_boost_ensemble.rs:predict"])
p("Settings that cannot learn anything",
  "If max_levels is 0 or all training rows agree in every feature, every tree is a single leaf and all three ensembles give the same prediction to all rows, whatever their values and their length; with exact arithmetic a RegressionBoostModel predicts the average label, for every iteration count and learning rate.  With exact arithmetic and learning rate 0, a RegressionBoostModel predicts the average label, and both class ensembles keep the score 1/t for every class and predict class 0 for every row.",
  "every consistent data set, configuration, iteration count and row (arbitrary rounding for the shape of the trees and the equality of predictions, exact arithmetic for their values)",
  "All data sets and all rows, including rows of wrong length.",
  [DT+"tree/tree_builders/regression_tree_builder.rs:build_regression_tree", DT+"tree/tree_builders/grad_boost/grad_boost_tree_builder.rs:build_grad_boost_regression_tree", EN+"boosting_loop.rs:boosting_loop", EN+"RegressionBoost/regression_boost_ensemble.rs:predict"])
p("Progress of regression boosting",
  "With exact arithmetic, one more iteration of a RegressionBoostModel lowers the error on the training set by exactly lr * (2 - lr) times the mean square of the outputs of the new tree at the training rows.  Hence, with a learning rate strictly between 0 and 2, if one iteration leaves the training error unchanged, no later iteration changes the prediction of any row: once training stalls it never resumes.  It can stall far from a perfect fit (exclusive or).",
  "every consistent data set with finite labels, every configuration, iteration count and row; exact arithmetic",
  "A statement about all continuations of a training run.",
  [EN+"boosting_loop.rs:boosting_loop", EN+"RegressionBoost/regression_boost_ensemble.rs:train", EN+"RegressionBoost/regression_boost_ensemble.rs:calculate_score"])

p("Scores are accurate despite rounding",
  "In binary64, with at most 2^24 rows and targets and labels and predictions up to B <= 2^400, the score of a regression ensemble differs from the exact mean squared error of its predictions by at most 2^-52 * (n + t + 4) times that error, plus 2^-1065 * (B + 1).  The score of a regression tree differs by at most 2^-46 * (n + m + t + 4) * B^2 from the exact mean squared error taken with the exact leaf means (n training rows, m test rows).  An accuracy on 1 to 2^53 rows is within 2^-52 of the fraction of correct rows.  With a label of 1e200 the squared error overflows to infinity.",
  "every test set and model within the bounds",
  "A bound on accumulated rounding errors cannot be sampled.",
  [DT+"utils/scorer.rs:calculate_overall_mean_squared_error", EN+"RegressionBoost/regression_boost_ensemble.rs:calculate_score", CR+"numerical_calculations.rs:mean_sum_of_squared_differences_between_f64_slices", DT+"utils/scorer.rs:calculate_accuracy"])
p("Predictions of ensembles are accurate despite rounding",
  "In binary64, if the initial guess and the weighted leaf outputs of the k <= 2^24 trees that a row reaches are numbers up to B (2^-400 <= B <= 2^400), every entry of the prediction of a regression ensemble and every raw score of a classification ensemble is within 2^-53 * k * (k + 4) * B of the exact sum guess + learning rate * (sum of the outputs).  A class whose exact raw score exceeds all others by more than twice this tolerance is the one predicted.",
  "every model and row within the bounds",
  "A bound on accumulated rounding errors cannot be sampled.",
  [EN+"common_boosting_functions.rs:predict_instance", EN+"MultiClassBoosting/AMGBoost/amg_boost_predict_functions.rs:construct_approximate_leaf_output", EN+"RegressionBoost/regression_boost_ensemble.rs:predict", EN+"MultiClassBoosting/MultiClassBoost/multi_class_boost_ensemble.rs:predict"])
p("Vector arithmetic",
  "Adding, subtracting, multiplying and dividing slices, and their mean squared difference, return exactly if the lengths agree and then combine the entries position by position; multiplying by a scalar never panics.  The sum of vectors is returned exactly if there is one and all have the same length.  The average of vectors is returned exactly if there is one and none is shorter than the first; surplus entries of later vectors are silently ignored.  Sums are taken in order.",
  "all vectors and lists of vectors, any arithmetic",
  "All lengths and contents, and the exact panic set.",
  [CR+"numerical_calculations.rs:add_f64_slices_as_vector", CR+"numerical_calculations.rs:subtract_f64_slices_as_vector", CR+"numerical_calculations.rs:multiply_f64_slices_as_vector", CR+"numerical_calculations.rs:divide_f64_slices_as_vector", CR+"numerical_calculations.rs:multiply_f64_slice_by_f64_scalar", CR+"numerical_calculations.rs:sum_of_f64_vectors", CR+"numerical_calculations.rs:calculate_average_f64_vector", CR+"numerical_calculations.rs:mean_sum_of_squared_differences_between_f64_slices"])

p("Classification boosting lowers the log loss when the learning rate is small",
  "Over the real numbers, for one-hot labels of two or more classes, any depth and any number n of iterations: if the non-negative learning rate is at most every soft-max probability, and at most every complementary probability, that the ensemble of n iterations gives on the training rows, one more iteration of MultiClassBoostModel or AMGBoostModel does not increase the log loss on the training set, and lowers it unless all scores stay the same.  The ensemble without trees has log loss n log t, and a learning rate of at most 1/t makes the first iteration safe.  With a large learning rate (10) an iteration can raise the log loss.",
  "every consistent data set with one-hot labels, every configuration, iteration count and learning rate meeting the bound; real arithmetic",
  "A statement about every training run with a transcendental loss function.",
  [EN+"boosting_loop.rs:boosting_loop", EN+"MultiClassBoosting/MultiClassBoost/multi_class_boost_ensemble.rs:train", EN+"MultiClassBoosting/AMGBoost/amg_boost_ensemble.rs:train", DT+"tree/tree_builders/grad_boost/grad_boost_leaf_output.rs:calculate_leaf_output_multi_class_loss"])

p("The order of the features does not matter when none are tied",
  "Reordering the feature columns consistently in training and in the rows to predict changes nothing, provided that at no node of the tree two features offer the same best gain: the best split asks about the same feature with the same threshold and gain, regression, gradient boosting and AMG trees give every row the same leaf, and all three ensembles, trained for any number of iterations, give every row the same prediction.  With tied features the first column wins and predictions do depend on the order of the columns.",
  "every consistent data set, every permutation of its columns, every configuration, iteration count, learning rate and row; any arithmetic",
  "All permutations and all data sets; unit tests fix one column order.",
  [DT+"split_finders/split_finder_variance.rs:find_best_split", DT+"tree/tree_builders/regression_tree_builder.rs:build_regression_tree", EN+"boosting_loop.rs:boosting_loop", EN+"RegressionBoost/regression_boost_ensemble.rs:train", EN+"MultiClassBoosting/MultiClassBoost/multi_class_boost_ensemble.rs:train", EN+"MultiClassBoosting/AMGBoost/amg_boost_ensemble.rs:train"])
p("A training standstill lasts",
  "Whatever the rounding: if one more iteration leaves the predictions (raw scores) of all training rows as they were, every further iteration adds that same tree again and leaves them as they were, for all three ensembles.  With exact arithmetic, one-hot labels and a learning rate other than zero, both classification ensembles then keep the raw scores of every row, seen or unseen.  In binary64 a learning rate as small as 2^-60 brings training to a standstill at once although the residuals are large.",
  "every data set with as many labels as rows, every configuration, iteration count, learning rate and number of further iterations; any arithmetic (exact arithmetic for rows outside the training set)",
  "A statement about all continuations of a training run.",
  [EN+"boosting_loop.rs:boosting_loop", EN+"RegressionBoost/regression_boost_ensemble.rs:train", EN+"MultiClassBoosting/MultiClassBoost/multi_class_boost_ensemble.rs:train", EN+"MultiClassBoosting/AMGBoost/amg_boost_ensemble.rs:train"])

p("What a prediction reads",
  "A prediction depends only on the features the trees ask the row about on its way: two rows that agree there end in the same leaf and get the same prediction (or the same panic).  A row lookup in a trained tree, and a prediction of a trained ensemble, returns exactly if the row has all the features it is asked about and panics with an index out of bounds otherwise; rows shorter than the training rows are silently accepted when their path does not ask for a missing feature.  Entries beyond the columns of the training data are never read.",
  "every consistent data set, every configuration, iteration count, learning rate, and all rows of any length; any arithmetic",
  "All rows of all lengths against all trees.",
  [DT+"utils/scorer.rs:find_leaf_node_for_data", EN+"common_boosting_functions.rs:predict_instance", EN+"RegressionBoost/regression_boost_ensemble.rs:predict", EN+"MultiClassBoosting/MultiClassBoost/multi_class_boost_ensemble.rs:predict", EN+"MultiClassBoosting/AMGBoost/amg_boost_ensemble.rs:predict"])
p("Every subtree is the tree of its own examples",
  "The subtree at any position of a trained regression, gradient boosting or AMG tree equals the tree that training returns for exactly the training examples routed to this position, in their order, with max_levels reduced by the depth of the position.  Two trees with the same examples at some positions and the same number of levels left have equal subtrees there, however different the remaining data.",
  "every consistent data set, configuration and position; every arithmetic with an order",
  "A statement about all positions of all trees.",
  [DT+"tree/tree_builders/regression_tree_builder.rs:build_regression_tree", DT+"tree/tree_builders/grad_boost/grad_boost_tree_builder.rs:build_grad_boost_regression_tree"])

p("Multi-class boosting collapses to NaN after overflow or a perfect fit",
  "Once a training row has a raw score whose exponential is not finite, all raw scores of all rows, seen or unseen, are NaN from two iterations later on, and the first class is predicted for every row, for every number of further iterations.  The same happens three iterations after all training rows of a leaf have the residual zero in some class (probability equal to the label after rounding): the leaf's output is then 0/0.  A concrete binary64 run on two separable rows classifies both correctly after 1 to 4 iterations, both wrongly after 5 and everything as the first class from 7 on.",
  "every consistent data set, configuration, iteration count, learning rate, number of further iterations and row; every arithmetic in which NaN spreads as in IEEE 754 (in particular binary64) and whose exponential keeps NaN",
  "A statement about all continuations of a training run; unit tests train a few iterations only.",
  [EN+"boosting_loop.rs:boosting_loop", EN+"MultiClassBoosting/MultiClassBoost/multi_class_boost_ensemble.rs:train", EN+"MultiClassBoosting/MultiClassBoost/multi_class_boost_ensemble.rs:predict", DT+"tree/tree_builders/grad_boost/grad_boost_leaf_output.rs:calculate_leaf_output_multi_class_loss"])

p("Regression boosting with rounding errors",
  "With binary64 numbers and a learning rate between 0 and 2, one more iteration of RegressionBoostModel increases the mean squared error of the predictions for the training set by at most 2^-39 n^2 t B^2, and the computed score by at most 2^-38 n t (n + t) B^2, for n rows, t targets and labels up to B (n and t up to 2^24, 2^-400 <= B <= 2^370, at most 2^41 / (n^2 t) iterations).  All predictions, for any row, are numbers: no overflow, no NaN.  Without the tolerance the claim is false: a concrete training set has a higher score after the first iteration.",
  "every consistent binary64 data set within the stated ranges, every configuration, iteration count, learning rate and row",
  "A statement about all training sets and about accumulated rounding errors over all iterations.",
  [EN+"boosting_loop.rs:boosting_loop", EN+"RegressionBoost/regression_boost_ensemble.rs:train", EN+"RegressionBoost/regression_boost_ensemble.rs:predict", EN+"RegressionBoost/regression_boost_ensemble.rs:calculate_score", DT+"tree/tree_builders/grad_boost/grad_boost_leaf_output.rs:calculate_leaf_output_squared_loss"])

p("Rounding does not change a tree without close calls",
  "If, at every position of the tree that exact arithmetic builds from the training data, the question asked reduces the variance of the labels by more than the tolerance 2^-44 t (n + t) B^2 and beats every other question by more than twice the tolerance, and its early leaves hold a single example or equal labels with small integer entries, then all four builders return the same tree in binary64: the same columns and thresholds at the same positions.  Every row then takes the same way, and the predictions differ from the exact ones by at most 2^-50 n B.  With a close call they can differ: a concrete binary64 tree asks about another feature than the exact one and predicts a different label.",
  "every consistent binary64 data set with n, t <= 2^24 and labels up to B between 2^-400 and 2^400 in which only the smallest value of a column is repeated where a question is asked; every configuration and row",
  "A statement about rounding in all trees over all data sets; a test compares one tree with one expected tree.",
  [DT+"tree/tree_builders/regression_tree_builder.rs:build_regression_tree", DT+"tree/tree_builders/grad_boost/grad_boost_tree_builder.rs:build_grad_boost_regression_tree", DT+"utils/scorer.rs:find_leaf_node_for_data"])

p("Infinite and NaN scores end the learning of AMG boosting, and a perfect fit destroys the predictions of a leaf",
  "If after n iterations of AMG boosting some training row has a score that is NaN or plus infinity, every later tree gives the same leaf to all rows, and rows with equal scores keep equal scores and predictions for good.  If the score is NaN, then after the next iteration the scores of every row are infinite or NaN, and no further iteration changes a prediction.  If all training rows of a leaf are fitted perfectly (probabilities equal to their labels), the next iteration gives every row of the leaf with finite scores the score minus infinity for the first class and plus infinity for the others: it is predicted as the second class, whatever its label.",
  "every consistent data set with at most 2^53 classes (at least two where a prediction is named), every configuration, number of iterations and row; every positive learning rate where infinite scores are named",
  "It is about all later iterations of all runs; a test sees one run, usually one that stops before it collapses.",
  [EN+"boosting_loop.rs:boosting_loop", EN+"MultiClassBoosting/AMGBoost/amg_boost_ensemble.rs:train", EN+"MultiClassBoosting/AMGBoost/amg_boost_ensemble.rs:predict", EN+"MultiClassBoosting/AMGBoost/amg_boost_executor_functions.rs:calculate_approximate_value", DT+"tree/tree_builders/grad_boost/grad_boost_leaf_output.rs:calculate_leaf_output_multi_class_loss"])

p("The training accuracy of a classification tree is the best its questions allow",
  "On a training set of one-hot labels the accuracy of the tree built on it is at least that of every rule that gives rows with the same answers the same class.  So it is at least the share of the most frequent class, raising max_levels never lowers it, and with exact arithmetic it is 1 when no two training examples contradict each other and max_levels is at least the number of rows minus one.",
  "every consistent data set with one-hot labels, fewer than 2^32 rows and at most 2^53 classes; every configuration; every rule; both with exact arithmetic and in binary64 (the last sentence: exact)",
  "It compares the tree with all competing rules and all depths; a test has only a few of them.",
  [DT+"utils/scorer.rs:calculate_accuracy", DT+"tree/tree_builders/regression_tree_builder.rs:build_regression_tree", DT+"tree/leaf.rs:RegressionLeaf"])

p("Features that the learned model does not use can be removed from the training data",
  "If a trained tree asks no question about some feature, training on the data without that feature gives the same tree: the same question at every position (up to the numbering of the features), the same leaves, and the same way for every row.  If no tree of a trained ensemble asks about the feature, the ensemble trained without it gives the same prediction for every row.",
  "every consistent data set, feature, tree kind, ensemble kind, configuration, number of iterations, learning rate and row; the arithmetic on the labels may round in any way",
  "It relates two training runs on different inputs for all data sets; a test compares a few pairs.",
  [DT+"tree/decision_trees.rs", DT+"tree/grad_boost_decision_trees.rs", DT+"tree/tree_builders/regression_tree_builder.rs:build_regression_tree", EN+"boosting_loop.rs:boosting_loop", EN+"RegressionBoost/regression_boost_ensemble.rs:train", EN+"MultiClassBoosting/MultiClassBoost/multi_class_boost_ensemble.rs:train", EN+"MultiClassBoosting/AMGBoost/amg_boost_ensemble.rs:train"])

p("Only the distances between label vectors matter to regression learners",
  "With exact arithmetic: if the squared distances between the label vectors of two training sets with the same rows are in one ratio, the trees ask the same question at every position and send every row the same way, even when the numbers of targets differ.  If the labels of a regression ensemble are changed by a similarity (a rotation, a change of units common to all targets, an embedding into more targets), every prediction changes by the same similarity.  In particular one more target that is constant, or listing all targets twice, changes no question and no prediction for the old targets.",
  "every consistent data set with finite labels, every second labelling with proportional distances, every similarity, configuration, number of iterations, learning rate and row",
  "It relates runs on different labels and numbers of targets for all data sets; tests compare a few.",
  [DT+"split_finders/split_finder_variance.rs", DT+"tree/tree_builders/regression_tree_builder.rs:build_regression_tree", EN+"boosting_loop.rs:boosting_loop", EN+"RegressionBoost/regression_boost_ensemble.rs:train", EN+"RegressionBoost/regression_boost_ensemble.rs:predict"])

p("A score does not depend on the order of the test examples",
  "The accuracy of a tree, a multi-class ensemble or an AMG ensemble on a test set is the same for every order of its examples; on two test sets one after the other the correct predictions and the rows add up.  With exact arithmetic the same holds of the mean squared error of a regression tree or ensemble, whose value on two test sets one after the other is the average of both values weighted with the numbers of rows.  In binary64 the mean squared error does depend on the order.",
  "every pair of test sets with the same examples, every pair of test sets with a score, every tree and ensemble of at most 2^53 test rows, infinities and NaN included for the order",
  "It quantifies over all permutations of all test sets; tests score a few files in one order.",
  [DT+"utils/scorer.rs:classification::calculate_accuracy", DT+"utils/scorer.rs:regression::calculate_overall_mean_squared_error", EN+"RegressionBoost/regression_boost_ensemble.rs:calculate_score", EN+"MultiClassBoosting/common_multi_class_boosting_functions.rs:calculate_accuracy_from_predictions"])

p("Labels outside the range of the split search are not learned",
  "In binary64: if a single label entry is at least 2^512 in absolute value, or if all label entries are at most 2^-565 in absolute value, every tree is a single leaf, however well a question would separate the labels, because the squares overflow or vanish.  If two labels of one target are at least 2^513 apart, no tree of a regression ensemble ever asks a question and the prediction is the same for all rows, whatever the number of iterations and the learning rate.",
  "every consistent data set with up to 2^53 rows (2^24 for small labels), every depth, number of iterations and learning rate",
  "It quantifies over all data sets and the whole binary64 range; tests use a few labels of ordinary size.",
  [DT+"utils/calculations/calculations.rs:calculate_variance", DT+"split_finders/split_finder_variance.rs", DT+"tree/tree_builders/regression_tree_builder.rs:build_regression_tree", EN+"RegressionBoost/regression_boost_ensemble.rs:train"])

p("Multiplying all labels by a power of two changes nothing but the scale, roundings included",
  "In binary64: if all labels are of ordinary size (zero, or between 2^-148 and 2^200 in absolute value) and every label is multiplied by the same power of two (2^-100 to 2^100), the split search reports the same question with a gain multiplied by exactly the square of that power; every tree learner asks the same questions and sends every row the same way; leaf averages, and the predictions of a regression ensemble whose residuals are of ordinary size, are exactly that power of two times as large.  No rounding differs.  (A factor that is not a power of two can change the chosen question.)",
  "every consistent data set of up to 2^24 rows and targets with labels of ordinary size, every power of two in that range, every depth, up to 2^20 iterations, every learning rate between 2^-52 and 1 in absolute value, or zero",
  "Rounding is decided bit by bit; tests compare a few data sets and cannot show that no rounding of any run differs.",
  [DT+"utils/calculations/calculations.rs:calculate_variance", DT+"split_finders/split_finder_variance.rs", DT+"tree/tree_builders/regression_tree_builder.rs:build_regression_tree", EN+"RegressionBoost/regression_boost_ensemble.rs:train"])

p("The sign of a target does not matter, roundings included",
  "In binary64: give any selection of the targets the opposite sign, in all labels.  The split search reports the same question with a gain of the same value; all tree learners ask the same questions and send every row the same way; leaf averages, leaf vectors of gradient boosting trees and predictions of regression ensembles have the opposite sign at exactly the selected targets and otherwise the same value; mean squared errors on correspondingly changed test sets are the same.  This includes labels that are infinite or NaN, and the sign of a zero label does not matter either.",
  "every consistent data set with any labels, every selection of targets, every depth, number of iterations and learning rate, every test set with enough columns",
  "It compares complete training runs bit by bit (up to the sign of zero) for all data sets.",
  [DT+"utils/calculations/calculations.rs:calculate_variance", DT+"split_finders/split_finder_variance.rs", DT+"tree/tree_builders/regression_tree_builder.rs:build_regression_tree", DT+"utils/scorer.rs:calculate_overall_mean_squared_error", EN+"RegressionBoost/regression_boost_ensemble.rs:train", EN+"RegressionBoost/regression_boost_ensemble.rs:predict"])

p("Exactly which tables can be trained on",
  "For a table of features with at least one column and a table of labels (the numbers of records may differ), each tree learner returns a tree if and only if there is a row, there are at least as many labels as rows, the configured number of targets is the number of label columns and, with two or more rows, no feature is NaN.  So missing labels are always noticed and surplus labels never.  The builder on sorted columns accepts the same tables, whatever the configured number of targets.  Training an ensemble with one or more iterations returns if and only if, moreover, the numbers of labels and rows are equal.  With a single row the features do not matter at all, NaN or not: the ensemble is the same.  The same as a statement about the two files that are read, from the bytes' fields to the model.",
  "every pair of tables, every configuration (also wrong ones), all three kinds of trees and ensembles, every pair of files with any number parser",
  "An 'if and only if' over all inputs: no test can show that no other input is accepted or rejected.",
  [CR+"data_reader.rs:read_csv_data_multi_target", DT+"split_finders/split_finder_variance.rs", DT+"tree/tree_builders/regression_tree_builder.rs:build_regression_tree", EN+"RegressionBoost/regression_boost_ensemble.rs:train"])

p("Exactly when the program runs to its end",
  "If the training features have at least one column and the test features have no fewer columns, the program runs to its end if and only if: all four files can be read; there are at least 11 training records with features and as many with labels; every training label has 10 entries; no training feature is NaN; there is a test label; there are no more test labels than test rows; and every test label has 10 entries.  Otherwise it panics.  So surplus test rows are silently not scored, and a surplus or missing training label is always noticed.",
  "every content of the four files (also unreadable ones), every number parser, every learning rate",
  "An 'if and only if' over all contents of four files: no test can show that no other content makes the program fail or succeed.",
  ["main/src/main.rs:main", CR+"data_reader.rs:read_csv_data_multi_target", EN+"RegressionBoost/regression_boost_ensemble.rs:train"])

p("A trend in the training data is a trend of the predictions",
  "With exact arithmetic: if a target (or a weighted sum of targets) never falls in the training data when a feature rises, then raising this feature of a row, and nothing else, never lowers the prediction of a regression tree for it, nor the output of a gradient boosting tree, nor the prediction of a regression ensemble with one iteration; for every depth, any number of other features and any row.  Longer ensembles can break the trend (three iterations on five rows), and so can binary64 rounding (a target that is 0.1 in all rows is predicted higher in a leaf of three rows than in a leaf of one).",
  "all training sets with finite labels, every depth, every feature and weighting with a trend, every pair of rows that differ in this feature",
  "Monotonicity of a prediction is a statement about all pairs of rows and all training sets; tests see finitely many of them.",
  [DT+"tree/tree_builders/regression_tree_builder.rs:build_regression_tree", DT+"split_finders/split_finder_variance.rs", EN+"RegressionBoost/regression_boost_ensemble.rs:train"])

p("Only classes of the training data are predicted",
  "On one-hot labels, the class predicted by a tree for any row, seen or unseen, is the label of a training example, whatever the rounding; indeed one in the same leaf.  With exact arithmetic and a positive learning rate the same holds for AMG boosting with any positive number of iterations and for multi-class boosting with one iteration: a class that no training example has gets the lowest score of all in AMG boosting, and a score that falls with every iteration in multi-class boosting.  Longer multi-class boosting can nevertheless predict a class that does not occur: three iterations with learning rate 3 do so for a training row of a table with five rows.",
  "all training sets with one-hot labels, every depth, every number of iterations, every positive learning rate, every row",
  "The classes predicted for all conceivable rows and all numbers of iterations are never all tried out.",
  [DT+"utils/scorer.rs:predict_class", EN+"MultiClassBoosting/AMGBoost/amg_boost_ensemble.rs:predict", EN+"MultiClassBoosting/MultiClassBoost/multi_class_boost_ensemble.rs:predict", DT+"tree/tree_builders/grad_boost/grad_boost_leaf_output.rs:calculate_leaf_output_multi_class_loss"])

p("Class probabilities and residuals are sound despite rounding",
  "In binary64, with any function for the exponential that is not negative, if the total of the exponentials of a row's scores is from 2^-1022 to 2^1022 (scores between about -708 and 708), every computed class probability is from 0 to 1, a class with a larger exponential has no smaller probability, each of n <= 2^24 probabilities differs from the exact share of its exponential by at most 2^-52 * (n + 2) times that share (plus 2^-1075), and the probabilities add up to 1 within 2^-52 * (n + 2) + 2^-1075 * n.  So the residual of a row is from 0 to 1 for its own class and from -1 to 0 for the others; the output of a leaf is never positive for a class that no training example in the leaf has and never negative for a class that all of them have; and with a learning rate that is not negative the score of a class that no training example has never rises above the initial guess.  Beyond this range a probability can exceed 1.",
  "every score vector in range; for leaves and scores every consistent training set with one-hot labels, configuration, number of iterations and row, if the scores of the training rows are in range while training",
  "The roundings of all score vectors and of all training runs cannot be enumerated.",
  [EN+"MultiClassBoosting/common_multi_class_boosting_functions.rs:calculate_probabilities_of_predictions", EN+"MultiClassBoosting/common_multi_class_boosting_functions.rs:calculate_residuals", DT+"tree/tree_builders/grad_boost/grad_boost_leaf_output.rs:calculate_leaf_output_multi_class_loss", EN+"MultiClassBoosting/MultiClassBoost/multi_class_boost_ensemble.rs:train"])

p("Deeper trees fit the training data no worse, up to rounding",
  "In binary64, for n <= 2^24 rows with t <= 2^24 targets and labels up to B in absolute value, allowing a regression tree more levels raises its score on its own training set by at most twice 2^-46 * (2n + t + 4) * B^2, and whatever the number of levels the score is at most the mean over the targets of the exact variance of the labels plus 2^-46 * (2n + t + 4) * B^2, although rounding can make the program choose any split.  The score can really rise: four rows with the label 0.1 score 0 without a question and more than 0 with one.",
  "every consistent training set with finite labels and 2^-400 <= B <= 2^400, and every two numbers of levels",
  "Roundings accumulate differently for every training set and depth.",
  [DT+"tree/tree_builders/regression_tree_builder.rs:build_regression_tree", DT+"utils/scorer.rs:calculate_overall_mean_squared_error"])

p("Small noise in the labels does not change a tree without close calls",
  "In exact arithmetic, let two training sets have the same rows, and labels up to B in absolute value that differ by at most eps per entry.  If wherever the tree for the first set asks a question only the smallest value of a column is repeated, the question removes more than 2*t*B*eps of the variance, and more than twice that much more than any other question, then the tree for the second set asks the same questions at the same positions, for every kind of tree.  If moreover every leaf above the depth limit holds one example, the second tree asks nothing else, every row takes the same way through both trees, and no entry of a prediction changes by more than eps.  Without the margin noise of any size can change the tree: for the labels 0, 1, 2 it decides which question is asked.",
  "every two consistent training sets with the same rows and finite labels, every kind of tree, every depth and every row, and for the close call every eps > 0",
  "Noise comes in every size and pattern, and the margin has to be enough for all of them.",
  [DT+"tree/tree_builders/regression_tree_builder.rs:build_regression_tree", DT+"split_finders/split_finder_variance.rs:find_best_split"])

p("The printed form of a tree determines its predictions",
  "With distinct feature names, two regression trees that print_tree_regression prints in the same way ask the same questions at the same positions and have the same leaves, so they find the same leaf for every row and have the same score on every test set, whatever training sets and configurations they come from.  Conversely trees with the same questions and leaves are printed in the same way.  With equal feature names this fails: two trees that ask about different features can be printed in the same way.",
  "every two proper trees, in particular all trained ones, every list of distinct names, every indentation, every row and test set, any number type",
  "The trees and their training sets are arbitrary; a test compares the printout of a few trees.",
  [DT+"tree/tree_print.rs:print_tree_regression", DT+"utils/scorer.rs:calculate_overall_mean_squared_error"])

p("The training error of a regression tree is the least its questions allow",
  "With exact arithmetic, consider any predictions for the training rows that are equal for rows of the same leaf.  Their mean squared error on the training data is the score of the tree plus the mean squared distance from the tree's predictions.  So no such predictions fit better, and only those of the tree fit as well.  In binary64, for n <= 2^24 rows with t <= 2^24 targets and labels up to B in absolute value, the score of the tree exceeds the exact error of such predictions by at most 2^-46 * (2n + t + 4) * B^2.  Predictions that differ within a leaf can fit better.",
  "every consistent training set with finite labels, every configuration, all predictions that are constant on the leaves, and in binary64 all B between 2^-400 and 2^400",
  "The competing predictions are arbitrary functions.",
  [DT+"tree/tree_builders/regression_tree_builder.rs:build_regression_tree", DT+"utils/scorer.rs:calculate_overall_mean_squared_error"])

p("Predictions of regression ensembles stay bounded",
  "With exact arithmetic and a learning rate from 0 to 2, let S be the sum of squared deviations of the training labels of a target from their mean.  After k iterations, (2 - rate) times the square of the distance of any prediction for this target from the mean label is at most k * rate * S, also for rows never seen in training.  At a training row the square of the distance between prediction and label is at most S whatever the number of iterations.  With a rate above 2 predictions can leave both bounds.",
  "every consistent training set with finite labels, every configuration, learning rate from 0 to 2, number of iterations and row",
  "Arbitrarily many iterations and arbitrary rows; overshooting needs adversarial data.",
  [EN+"boosting_loop.rs:boosting_loop", EN+"RegressionBoost/regression_boost_ensemble.rs:train", EN+"RegressionBoost/regression_boost_ensemble.rs:predict"])

p("For one-hot labels the split search maximises the decrease of the Gini impurity",
  "With exact arithmetic and one-hot labels, the gain reported by find_best_split is at most the Gini impurity of the classes (the share of pairs of examples, drawn with replacement, that have different classes) and at least the decrease of the impurity by any question.  If examples that share a value of a feature (other than its smallest) have the same class, a question with non-zero gain lowers the impurity by exactly the gain and no question lowers it more; otherwise it can report a decrease that it does not achieve.  The mean squared error of a tree on its training data is the mean impurity of the leaves, weighted with their sizes, divided by the number of classes.",
  "every consistent training set with one-hot labels, any number of classes, features and rows, and all questions",
  "Compares the search with all questions on all data sets.",
  [DT+"split_finders/split_finder_variance.rs:find_best_split", DT+"utils/scorer.rs:calculate_overall_mean_squared_error", CR+"data_reader.rs:create_multi_target_labels"])

p("Regression boosting exhausts what single questions explain",
  "With exact arithmetic, a learning rate strictly between 0 and 2, at least one level and features in which no value other than the smallest occurs twice: for every k >= 1 there is a number of iterations below k after which the residuals (labels minus predictions on the training rows) are such that no question reduces their variance by more than the variance of the labels divided by k * rate * (2 - rate).  With repeated feature values the learner can ask a useless question forever although a useful one exists.",
  "every consistent training set with finite labels and such features, every configuration, learning rate and k, and all questions",
  "A statement about all lengths of training and all questions.",
  [EN+"boosting_loop.rs:boosting_loop", EN+"RegressionBoost/regression_boost_ensemble.rs:train", DT+"split_finders/split_finder_variance.rs:find_best_split"])

p("Boosting with one question per tree converges to the best additive model",
  "With real arithmetic, trees of at most one question, a learning rate strictly between 0 and 2 and features in which no value other than the smallest occurs twice: for every choice of functions of the single features and every eps > 0 there is a number of iterations from which on the training error (the reported score) is at most eps above the mean squared error of the sum of these functions.  In particular, if the labels are such a sum, the training error tends to 0.  With repeated feature values the predictions can stay at the mean forever although the labels are such a sum.",
  "every consistent training set with finite labels and such features, every learning rate, all functions of the single features and every eps",
  "A limit statement over all numbers of iterations, compared with all additive functions.",
  [EN+"boosting_loop.rs:boosting_loop", EN+"RegressionBoost/regression_boost_ensemble.rs:train", EN+"RegressionBoost/regression_boost_ensemble.rs:calculate_score", DT+"split_finders/split_finder_variance.rs:find_best_split"])

p("Deep classification ensembles fit the training data",
  "With exact arithmetic and one-hot labels of t >= 2 classes: if no two of the N training examples contradict each other (equal features, different labels) and max_levels >= N - 1, then after n iterations of multi-class or AMG boosting the raw scores of a training row depend only on its class, t, n and the learning rate (two numbers given by an explicit recurrence).  With a positive learning rate and n >= 1 every training row is classified correctly and calculate_score on the training set is 1.  With the real exponential function, the training log loss after n iterations is at most N (t - 1) exp(-2 lr n (t - 1) / t) for multi-class and N (t - 1) exp(-lr n) for AMG boosting.",
  "every training set without contradictory examples, every number of iterations and every learning rate",
  "Quantifies over all training sets and all numbers of iterations; the bound tends to 0 only in the limit.",
  [EN+"boosting_loop.rs:boosting_loop", EN+"MultiClassBoosting/MultiClassBoost/multi_class_boost_ensemble.rs:train", EN+"MultiClassBoosting/MultiClassBoost/multi_class_boost_ensemble.rs:calculate_score", EN+"MultiClassBoosting/AMGBoost/amg_boost_ensemble.rs:train", EN+"MultiClassBoosting/AMGBoost/amg_boost_ensemble.rs:calculate_score"])

p("Every misclassified row costs at least ln 2 of log loss",
  "With real arithmetic and the real exponential function: for every multi-class or AMG model and every test set with N >= 1 rows, one-hot labels and finite raw scores, N * (1 - calculate_score) * ln 2 is at most the log loss of the scores.  So a log loss below ln 2 means that calculate_score is 1.  The predicted class is one with the highest soft-max probability, which is at least 1 / t.  The bound is attained by a model that has learnt nothing.",
  "every model, trained or not, and every test set with finite scores",
  "Quantifies over all models and test sets; relates two different measures of quality.",
  [EN+"MultiClassBoosting/MultiClassBoost/multi_class_boost_ensemble.rs:calculate_score", EN+"MultiClassBoosting/MultiClassBoost/multi_class_boost_ensemble.rs:predict", EN+"MultiClassBoosting/AMGBoost/amg_boost_ensemble.rs:calculate_score", EN+"MultiClassBoosting/AMGBoost/amg_boost_ensemble.rs:predict"])

p("What has been printed before a panic",
  "The program prints at most six lines: the 11th training label, the elapsed time, the mean squared error, its square root, the first test label and the first prediction.  It stops after 0, 1, 2, 4 or 6 lines, and after 6 if and only if it runs to its end.  If the training features have at least one column and the test features have no fewer: the first line is printed if and only if the training files can be read and hold a row and at least 11 labels; the second, if and only if moreover there are as many labels as rows, every label has 10 entries and no feature is NaN; the next two, if and only if moreover the test files can be read and hold a row, there are no more test labels than rows and every test label has 10 entries; the last two, if and only if moreover there is a test label.  print_tree_regression with too few feature names prints exactly the lines up to the first question about a feature without name, where it panics, and everything if there is no such question.",
  "every content of the four files, every tree and every list of feature names",
  "Quantifies over all file contents and all trees; the panics to be considered lie at any point of the run.",
  ["main/src/main.rs:main", DT+"tree/tree_print.rs:print_tree_regression"])

p("What every question contributes to the training error",
  "The score of a regression tree on its training data is the variance of the labels minus the sum of what its questions contribute, divided by the number of targets: a question contributes the reduction of the variance of the labels among the examples that are asked it, times the share of these examples in the data.  The contribution of a question is not negative and at most the gain that the split search reports for these examples (times their share); it is exactly that, and positive, if examples that share a value of a feature, other than its smallest, have the same label, and can be zero otherwise.  The contributions add up feature by feature, and a feature the tree does not ask about contributes nothing.  One more iteration of regression boosting lowers the training error by lr (2 - lr) times what the questions of the new tree contribute to the variance of the residuals.",
  "every consistent finite training set, every setting, every learning rate and number of iterations",
  "An identity over all data sets and trees of any size.",
  [DT+"utils/scorer.rs:calculate_overall_mean_squared_error", DT+"split_finders/split_finder_variance.rs:find_best_split", EN+"RegressionBoost/regression_boost_ensemble.rs:train"])

p("Training with a split finder of the caller",
  "The split finder in the configuration can be replaced by a function of the caller.  With the library's finder the trees and models are those of all other properties, and whatever the finder, multi-threading changes nothing.  A returned tree asks at every node the question that the finder answered on exactly the examples that arrive there, and has a leaf where the answer has gain zero or the depth limit is reached; every leaf holds exactly the examples that reach it, there is at least one, and every row with enough features reaches a leaf.  A tree is returned exactly if the finder answers wherever it is asked and each of its questions with a gain is about an existing feature and separates the examples; with a finder of which this is always true, no tree or ensemble training panics.  Whatever the finder, the training score of a returned tree is the variance of the labels minus the contributions of its questions, hence never above that of a single leaf, and boosting with a learning rate between 0 and 2 never increases the training error and keeps the mean of the predictions equal to the mean of the labels.  A finder that reports a gain for a question that does not separate makes training panic: the answer is used unchecked.",
  "every finder (a function that may panic), every consistent training set, every setting, every learning rate and number of iterations",
  "A quantification over all functions a caller may supply.",
  [DT+"split_finders/split_finder.rs:SplitFinder", DT+"tree/decision_trees.rs:TreeConfig", DT+"tree/tree_builders/regression_tree_builder.rs:build_regression_tree", DT+"tree/tree_builders/grad_boost/grad_boost_tree_builder.rs:build_grad_boost_regression_tree", EN+"RegressionBoost/regression_boost_ensemble.rs:train"])

p("What a split finder of the caller is asked",
  "Nothing is assumed about the answers of the finder, which may depend on state, and the schedule is arbitrary.  In every execution of a tree builder, finished or not, each call of the finder passes the number of targets and a well-formed part of the training data, no data set is passed twice, there are fewer than 2 to the power (depth limit + 1) and fewer than twice as many calls as rows, and the rows passed sum to at most rows times (depth limit + 1); every execution ends.  If a tree is returned, there was one call for each of its nodes, with exactly the examples that arrive there: without threads in preorder, with threads in an order where each node comes after the node above it, and every such order occurs in some schedule.  If the answers are those of a function, the result (tree, model or panic) is that of the function in every schedule; for a single tree there is always such a function, so all that holds for finders that are functions holds for the trees grown with any finder.  Without threads the behaviour of the finder determines calls and result even if it remembers the calls before; with threads it does not: a finder that counts its calls gives different trees in different schedules.  The ensembles call the finder tree after tree, with the labels minus the predictions of the trees before (for classification, minus the probabilities), and at most as often as there are iterations times calls for a tree.",
  "every behaviour of the finder (answers and panics, dependent on the calls before or not), every schedule, every consistent training set, every setting",
  "A quantification over all schedules and all behaviours of a function supplied by the caller.",
  [DT+"split_finders/split_finder.rs:SplitFinder", DT+"tree/tree_builders/regression_tree_builder.rs:build_regression_tree_using_multiple_threads", DT+"tree/tree_builders/regression_tree_builder.rs:build_regression_tree", DT+"tree/tree_builders/grad_boost/grad_boost_tree_builder.rs:build_grad_boost_regression_tree_using_multiple_threads", EN+"RegressionBoost/regression_boost_ensemble.rs:train"])

p("Averages and linear equations survive rounding",
  "The sums that exact arithmetic keeps (C36, C57, C41) are kept in binary64 up to explicit tolerances.  For n rows, t targets, labels up to B and a learning rate from 0 to 2, after k iterations of regression boosting the average of the predictions for the training rows is within 2^-45 (k+1) n^2 t B of the average of the labels in every target.  If all training labels satisfy a linear equation, such as shares that add up to a whole, then the prediction for every row satisfies it within 2^-43 (k+1)^2 n^2 t W B, where W is the sum of the absolute values of the coefficients.  If all labels satisfy a linear inequality, every leaf of a regression tree, and of one tree of regression boosting fitted to them, satisfies it within 2^-50 n W B.  The raw scores of an AMG ensemble of k trees add up to the total of the initial guess within 2^-53 t k (k+6) B, if guess and weighted outputs are at most B.  Without a tolerance all of this is false.",
  "every consistent training set with at most 2^24 rows and targets and labels far from the ends of the range of binary64, every row, every linear constraint, every learning rate from 0 to 2, every number of iterations k with n^2 t k at most 2^41; for AMG every model",
  "The errors of every addition in every iteration depend on the data and on the shape of the trees; a test sees one total.",
  [EN+"RegressionBoost/regression_boost_ensemble.rs:train", EN+"RegressionBoost/regression_boost_ensemble.rs:predict", EN+"MultiClassBoosting/AMGBoost/amg_boost_predict_functions.rs:predict_instance", CR+"numerical_calculations.rs:calculate_average_f64_vector"])

p("Leaf outputs and boosting loops of the caller",
  "The leaf output function and the boosting loop can be replaced by the caller.  Whatever the function, a tree asks the same questions as the regression tree for the same data and sends every row the same way, and each leaf stores what the function returns for exactly the training examples that reach it (an AMG tree: the largest entry and its position).  A tree is returned exactly if the regression tree is and the function returns for the data of every leaf; otherwise, on consistent data with the library's split finder, the panic is that of the function on the first leaf, yes-branches first.  Threads and schedule make no difference, and with the library's functions all this is the library's own training.  boosting_loop calls the caller's loop once, with the initial guess as the current label of every row and the caller's numbers unchanged, and returns its trees unchanged; if the loop adds its trees with update_dataset_labels, the current labels are to the last bit the predictions of the model, whatever the trees.  With exact arithmetic, a learning rate from 0 to 1 and a function that is not worse than zero on each leaf, such as any multiple of the mean from 0 to 2, no round increases the training error, whatever the split finder; with a worse function the error can grow.",
  "every data set, every split finder and every leaf output function (both may panic), every executor, every configuration and schedule, every list of trees; exact arithmetic for the training error",
  "The functions of the caller are not known when the library is tested; the claims hold for all of them.",
  [DT+"tree/tree_builders/grad_boost/grad_boost_leaf_output.rs:LeafOutputCalculator", DT+"tree/grad_boost_decision_trees.rs:GradBoostMultiTargetDecisionTree::new", DT+"tree/grad_boost_decision_trees.rs:AMGBoostTree::new", EN+"boosting_loop.rs:boosting_loop", EN+"boosting_types.rs:BoostingExecutor", EN+"common_boosting_functions.rs:update_dataset_labels"])

p("No prediction combines more features than max_levels",
  "If two rows end in the same leaf of a tree, every row that lies between them in every feature ends there too, and a row between two rows with the same leaves in all trees of an ensemble gets their prediction bit for bit.  Whatever number is attached to the leaves of a tree, more than max_levels different features have no joint effect on it: the difference made by changing one feature, the difference of this difference when a second one is changed, and so on, is zero after max_levels + 1 features.  With exact arithmetic this holds for every target of a regression ensemble and for every class score of a multi-class or AMG ensemble, whatever the number of iterations and the learning rate; with max_levels at most 1 a regression ensemble is a constant plus a sum of functions of single features.  In binary64, with a learning rate from 0 to 2, the joint effect of s > max_levels features on a regression ensemble of k trees is at most 2^s * 2^-46 * (k+1)^2 * n * t * B for n rows, t targets and labels up to B, and need not be zero.  With max_levels = 2 two features can have a joint effect.",
  "every consistent data set, configuration, number of iterations and learning rate (binary64: 0 to 2), every row and every change of features; any arithmetic for trees and leaves, exact or binary64 arithmetic for ensembles",
  "It speaks about all rows and all changes of any number of features at once.",
  [DT+"tree/tree_builders/regression_tree_builder.rs:build_regression_tree", DT+"tree/grad_boost_decision_trees.rs:GradBoostMultiTargetDecisionTree::new", DT+"tree/grad_boost_decision_trees.rs:AMGBoostTree::new", EN+"boosting_types.rs:BoostingExecutor"])

p("Predictions of regression learners are weighted sums of the training labels",
  "With exact arithmetic every prediction of a regression ensemble is a sum of the training labels with one weight per training row.  The weights are the same for all targets, add up to one, and follow from the questions of the trees, the training rows and the learning rate alone: two ensembles trained on the same rows that ask the same questions have the same weights, whatever their labels and numbers of targets.  So, as long as the questions stay the same, changing the label of one row moves every prediction by the weight of the row times the change, and mixing the labels of two data sets mixes the predictions likewise.  With one tree a training row weighs (1 - learning rate) / rows, and learning rate / companions more if it shares the leaf of the row to predict; n trees that all ask the same questions act as one tree with the learning rate 1 - (1 - learning rate)^n.  The average in a leaf of a regression tree weighs the training rows of the leaf equally and no others.",
  "every consistent data set with finite labels, configuration, number of iterations, learning rate and row to predict, and all pairs and triples of label tables for the same rows whose ensembles ask the same questions; exact arithmetic",
  "The weights describe how a prediction depends on all labels at once; a test sees the predictions for one table of labels.",
  [EN+"boosting_loop.rs:boosting_loop", EN+"RegressionBoost/regression_boost_ensemble.rs:train", EN+"RegressionBoost/regression_boost_ensemble.rs:predict", DT+"tree/tree_builders/regression_tree_builder.rs:build_regression_tree", DT+"tree/grad_boost_decision_trees.rs:GradBoostMultiTargetDecisionTree::new"])

p("Training on what is left continues the training",
  "With exact arithmetic, train a regression ensemble for n iterations, subtract its predictions for the training rows from the labels, and train a second ensemble for k iterations on the differences.  The second one starts from the guess 0, an ensemble trained for n + k iterations on the original labels consists of the trees of the first followed by those of the second, and its prediction for every row is the sum of the predictions of the two.",
  "every consistent data set with finite labels, configuration, learning rate, pair of iteration numbers and row to predict; exact arithmetic",
  "It relates three trainings on two data sets for any numbers of iterations.",
  [EN+"boosting_loop.rs:boosting_loop", EN+"RegressionBoost/regression_boost_ensemble.rs:train", EN+"RegressionBoost/regression_boost_ensemble.rs:predict"])

p("What a leaf output function of the caller is asked, and when",
  "A caller can pass a leaf output function, besides a split finder, to the two gradient boosting tree types; both may keep state and share it.  In every execution both get only well-formed parts of the training data, never the same part twice; the leaf output function is called only for data for which the finder has answered, at most 2^levels times, and with no more rows in all calls together than the data set has.  Every execution ends.  Without threads the calls follow the returned tree in preorder, at a leaf the finder before the leaf output function, which gets exactly the rows that reach the leaf and whose answer the leaf stores; with threads exactly the orders in which a node comes after the one above and a leaf output after the split of the same leaf can occur.  A panic of the function is never lost, and with the library's finder it is the only way to fail.  A finished execution has the result of functions without memory that give the same answers, and the questions depend on the finder alone.  With threads, a function that remembers its calls can give different trees in different schedules.",
  "every consistent data set, configuration, split finder, leaf output function, state they keep, and schedule",
  "It quantifies over all behaviours of two functions of the caller, including those with memory, and over all schedules.",
  [DT+"tree/grad_boost_decision_trees.rs:new", DT+"tree/tree_builders/grad_boost/grad_boost_tree_builder.rs:build_grad_boost_regression_tree", DT+"tree/tree_builders/grad_boost/grad_boost_tree_builder.rs:build_grad_boost_regression_tree_using_multiple_threads", DT+"tree/tree_builders/grad_boost/approximate_grad_boost_tree_builder.rs:build_approximate_grad_boost_regression_tree_using_multiple_threads"])

p("Only the ways in which questions can divide the training rows matter",
  "Describe the training rows by other features such that the questions about the new features divide the rows in the same ways as the questions about the old ones; this is so if every feature of either description orders the rows like some feature of the other or in the opposite order: features may be negated, repeated, reordered and rescaled monotonically.  In exact arithmetic, when rows that share a feature value (other than the smallest) share the label, the split search finds the same gain; and if no node has tied cuts, the trees put the training rows into the same groups, at the same depths, with the same leaf contents, although the questions differ and yes and no may be exchanged.  Regression, multi-class and AMG ensembles then predict the same for every training row.  Rows that were not trained on can get other predictions, because the threshold is the value at one end of the gap; and with tied cuts so can training rows.",
  "every consistent data set, second description, configuration, number of iterations and learning rate, exact arithmetic",
  "It quantifies over all data sets and all ways to describe them by other features, and compares whole training runs.",
  [DT+"split_finders/split_finder_variance.rs:find_best_split", DT+"utils/data_partitioner.rs:partition", DT+"tree/grad_boost_decision_trees.rs:new", EN+"boosting_loop.rs:boosting_loop", EN+"RegressionBoost/regression_boost_ensemble.rs:train"])

p("Every prediction of a model is its prediction for a row composed of training values",
  "For every row there is a row whose feature values all occur in the training data (each perhaps in another training row) that ends in the same leaf of every tree and gets identical predictions from all three ensembles, whatever the number of iterations and the learning rate.  So a requirement on the predictions holds for all rows if it holds for these finitely many.  An ensemble gives at most as many different predictions as the product, over the features, of the number of different training values, and at most b ^ n after n iterations, where b is the smaller of the number of training rows and 2 ^ max_levels.  With a single feature an ensemble predicts nothing that it does not predict for a training row; with two features it can.",
  "every consistent data set, configuration, number of iterations, learning rate and row to be predicted, arbitrary rounding",
  "Rows to be predicted are unlimited; that checking finitely many of them is enough is itself a statement about all of them.",
  ["common/src/question.rs:solve", DT+"split_finders/split_finder_variance.rs:find_best_split", EN+"RegressionBoost/regression_boost_ensemble.rs:predict", EN+"MultiClassBoosting/MultiClassBoost/multi_class_boost_ensemble.rs:predict", EN+"MultiClassBoosting/AMGBoost/amg_boost_ensemble.rs:predict"])

p("What a tree shared by all targets costs",
  "In exact arithmetic, when examples that share a feature value (other than the smallest) share the label: a regression tree with at least one level fits its training data at least as well as any predictions that depend on the answer to a single question.  The gain of the best question for all targets together is at least the gain of the best question for any single target and at most the sum of the gains of the best questions for the single targets.  Hence, if one tree with at most one question is trained for all targets and another tree with at least one level for every target alone, each of the latter fits its target on the training data at least as well as the shared tree, and so the mean of their errors is at most its error.  With two levels the shared tree can be better.",
  "every consistent data set with any number of targets and features, every configuration, question and prediction function, exact arithmetic",
  "It compares trees over all data sets with all alternatives of a kind; a test compares two runs.",
  [DT+"split_finders/split_finder_variance.rs:find_best_split", DT+"tree/decision_trees.rs:new", DT+"utils/scorer.rs:calculate_overall_mean_squared_error"])

p("How many models the labels can produce, and what they cannot all fit",
  "Fix the N feature rows of c features of a training set and let b be the smaller of N and 2^max_levels.  Whatever the labels, whatever the kind of tree and whatever the rounding, the learned tree sends all rows, seen or unseen, along the paths of one of at most (c*(N-1)+1)^(b-1) ways; the trees of an ensemble of n iterations together follow one of at most (c*(N-1)+1)^((b-1)*n) ways, all learning rates included.  Hence, of the tables of labels formed with k label vectors, trees reproduce at most (c*(N-1)+1)^(b-1) * k^b, whatever rule turns a leaf into a prediction, and ensembles at most (c*(N-1)+1)^((b-1)*n) * k^(b^n).  If this is less than k^N, there are labels that the model does not fit: predict_class misclassifies some training row, and an ensemble predicts some training label wrongly at every learning rate.",
  "every table of features, all labels, all learning rates, every configuration and iteration count, every arithmetic with a lawful order",
  "It counts models over all labels, infinitely many of them; a test trains on a few.",
  [DT+"tree/decision_trees.rs:new", DT+"tree/tree_builders/grad_boost/grad_boost_tree_builder.rs:build_grad_boost_regression_tree", DT+"split_finders/split_finder_variance.rs:find_best_split", EN+"RegressionBoost/regression_boost_ensemble.rs:train"])

p("Exactly when learning stops, and what deep trees learn from contradictory data",
  "In exact arithmetic, for every well-formed data set with finite labels: the split search reports the gain zero exactly if every training row that is not the smallest one in all features has the mean label.  Each of the four tree builders ends a branch exactly where max_levels is reached or this holds of the examples that arrive there, so no information in the features is given up early.  Hence a tree that may grow N-1 levels on N rows predicts for each training row the mean label of the rows with the same features, whatever ties, duplicates or contradictions the data hold; no predictions that treat equal rows alike have a smaller training error.  The training error of such a tree is zero exactly if no two training examples have the same features and different labels, and no shallower tree can reach zero otherwise.  With such trees, n iterations at learning rate r predict for each training row the mean label of its copies up to the fraction (1-r)^n of the way from the overall mean label, and score() of the training data is the unavoidable error plus (1-r)^(2n) times the mean squared distance of the two.",
  "every well-formed data set with finite labels, every tree configuration, every node of the tree, every number of iterations and every learning rate; exact arithmetic",
  "The claim is an equivalence over all data sets, including all patterns of ties and repeated rows; a test sees a few.",
  [DT+"split_finders/split_finder_variance.rs:find_best_split", DT+"tree/tree_builders/regression_tree_builder.rs:build_regression_tree", DT+"tree/tree_builders/grad_boost/grad_boost_tree_builder.rs:build_grad_boost_regression_tree", DT+"utils/scorer.rs:calculate_overall_mean_squared_error", EN+"RegressionBoost/regression_boost_ensemble.rs:train"])

p("Questions are asked only where the labels change",
  "In exact arithmetic, for every well-formed data set with finite labels and any ties: a question with a gain, reported by the split search or asked in a tree of any of the four builders, asks for a value of its feature that is not the smallest and at which the labels change: among the training examples that arrive there, one with this value has another label than one with this value or the next smaller value.  Hence, if there is one feature, the questions of a tree ask for different values among those at which the labels of the whole training data change, so the number of leaves exceeds the number of these values by at most one; the same holds of every tree of a regression ensemble, although it is fitted to residuals.  If the labels change at no more values than max_levels, allowing more levels changes neither the tree nor the ensemble, and both learn all that the feature tells: the mean label of the rows with the same value, with zero error if no examples contradict each other; in that case multi-class and AMG ensembles, too, give all training rows of a class the same scores, known in advance, and classify them correctly from the first iteration on.  Rows, seen or not, between whose values the labels do not change get the same predictions.",
  "every well-formed data set with finite labels, every tree configuration, every question of the tree, every number of iterations and every learning rate; the second half for data sets with one feature; exact arithmetic",
  "The claim excludes a kind of question for all data sets; a test sees the questions asked for a few.",
  [DT+"split_finders/split_finder_variance.rs:find_best_split", DT+"tree/tree_builders/regression_tree_builder.rs:build_regression_tree", DT+"tree/tree_builders/grad_boost/grad_boost_tree_builder.rs:build_grad_boost_regression_tree", EN+"RegressionBoost/regression_boost_ensemble.rs:train", EN+"RegressionBoost/regression_boost_ensemble.rs:predict"])

p("A rule of one question is learned at once",
  "In exact arithmetic, let some question about a feature determine the labels of a well-formed data set, and let examples that share a value of a feature, other than its smallest, have the same label.  Then the split search reports the whole variance of the labels as the gain, and a question that determines the labels, whatever the other features are.  The trees of all builders, if at least one level is allowed, have at most two leaves with one label each; every row, seen or not, reaches a leaf with the label of the training examples that answer the question of the tree as the row does; the training error is zero and the training accuracy one.  A regression ensemble of such trees comes as close to the training labels as one of trees of any depth: after k iterations the fraction (1 - lr)^k of the way from the mean is left.  Multi-class and AMG ensembles give all training rows of a class the same scores, known in advance, and classify all of them correctly from the first iteration on.",
  "every well-formed data set with finite labels whose ties agree, every question that determines its labels, every configuration with at least one level, every row long enough, every number of iterations and every learning rate (positive for the classification); exact arithmetic",
  "A test shows that one rule is found in one data set; the claim is about all rules, thresholds and other features that could distract from them.",
  [DT+"split_finders/split_finder_variance.rs:find_best_split", DT+"tree/tree_builders/regression_tree_builder.rs:build_regression_tree", DT+"tree/tree_builders/grad_boost/grad_boost_tree_builder.rs:build_grad_boost_regression_tree", EN+"RegressionBoost/regression_boost_ensemble.rs:train", EN+"MultiClassBoosting/MultiClassBoost/multi_class_boost_ensemble.rs:train", EN+"MultiClassBoosting/AMGBoost/amg_boost_ensemble.rs:train"])

p("Deep trees fit integer labels in binary64",
  "In binary64 arithmetic, let the labels of a well-formed data set with n rows and t targets be integers of at most b in absolute value with n^4 * t * (n + t) * b^2 < 2^46, as the one-hot labels of 400 rows of three classes are, and let rows with the same features have the same label.  Then rounding never hides that something can be gained: the trees of all builders, also of the one on pre-sorted features, ask a question exactly where the examples that arrive have different labels and the depth limit is not reached.  If n - 1 levels are allowed, the examples in a leaf have one label, the prediction of the regression tree for every training row is exactly its label, the computed training error is exactly zero, and with one-hot labels the computed training accuracy is exactly one.  Without a bound this fails: two rows with the labels 1000000000 and 1000000001 get the same prediction, however many levels are allowed.",
  "every well-formed data set with integer labels of that size and without contradictory examples, every configuration (at least n - 1 levels for the fit); binary64 arithmetic with either sign of the zero that starts a sum",
  "A test fits one data set with one rounding history; the claim is that no order of values, no number of rows and no cancellation within the bound makes the search overlook a gain.",
  [DT+"split_finders/split_finder_variance.rs:find_best_split", DT+"utils/calculations/calculations.rs:calculate_variance_vector", DT+"tree/tree_builders/regression_tree_builder.rs:build_regression_tree", DT+"tree/tree_builders/grad_boost/grad_boost_tree_builder.rs:build_grad_boost_regression_tree"])

p("A rule of one question is learned at once in binary64",
  "In binary64 arithmetic, let the labels of a well-formed data set with n rows and t targets be integers of at most b in absolute value with n * t * (n + t) * b^2 < 2^42, as the one-hot labels of a million rows of three classes are.  Let the answer to some question about a feature, with any threshold, determine the labels, and let rows with equal values of a feature, other than its smallest, have equal labels.  Then a gain is found exactly if two labels differ, and the question reported determines the labels, too.  The trees of all builders, also of the one on pre-sorted features, ask exactly one question if the labels differ and none if they do not, however many levels from one on are allowed, and each leaf has one label.  The prediction of the regression tree for every training row is exactly its label, the computed training error is exactly zero, and with one-hot labels the computed training accuracy is exactly one.  Without a bound this fails: for two rows with the labels 1000000000 and 1000000001 no gain is found.",
  "every well-formed data set with integer labels of that size that follow a rule of one question and have no contradictory ties, every configuration with at least one level; binary64 arithmetic with either sign of the zero that starts a sum",
  "A test learns one rule from one data set; the claim is that no number of rows within the bound, no position of the threshold and no useless feature lets rounding win over the rule, and that no further question is asked because of rounding.",
  [DT+"split_finders/split_finder_variance.rs:find_best_split", DT+"utils/calculations/calculations.rs:calculate_variance_vector", DT+"tree/tree_builders/regression_tree_builder.rs:build_regression_tree", DT+"tree/tree_builders/grad_boost/grad_boost_tree_builder.rs:build_grad_boost_regression_tree"])

p("With integer labels the order of the rows leaves no trace in binary64",
  "In binary64 arithmetic, let the labels of a well-formed data set with n rows be integers of at most b in absolute value, b >= 1, with n * b^2 <= 2^53, as one-hot labels always are and as labels up to 3000 are for a billion rows.  Let rows with equal values of a feature, other than its smallest, have equal labels.  Then the same rows in another order give the same feature, the same threshold and the same gain, by value.  The trees of all builders, also of the one on pre-sorted features, ask the same questions at the same positions and send every row the same way; leaves of regression trees at the same position hold the same examples up to order, and leaves of boosting trees that store averages store the same values and, in AMG trees, the same class.  The averages and the classes predicted by the regression tree are the same for every row with all the features, and so are its mean squared error and its accuracy on every test set.  With labels that are no integers this fails even without repeated values: with the labels 0.1, 0.7, 0.7, 0.1 the order of the rows decides which of two questions is asked.",
  "every pair of well-formed data sets with the same examples in any two orders, integer labels of that size and no contradictory ties, every configuration, every row and every test set; binary64 arithmetic with either sign of the zero that starts a sum",
  "A test shuffles one data set a few times; floating-point sums depend on their order in general, so only an argument about exactness shows that no permutation changes anything.",
  [DT+"split_finders/split_finder_variance.rs:find_best_split", DT+"utils/calculations/calculations.rs:calculate_variance_vector", DT+"tree/tree_builders/regression_tree_builder.rs:build_regression_tree", DT+"tree/tree_builders/grad_boost/grad_boost_tree_builder.rs:build_grad_boost_regression_tree", DT+"utils/scorer.rs:calculate_overall_mean_squared_error"])

p("With integer labels every average is the exact mean, rounded once",
  "In binary64 arithmetic, let n labels be integers of at most b in absolute value, b >= 1, with n * b^2 <= 2^53.  Then every entry of their computed average is finite, is the exact mean rounded once, so that no binary64 number is nearer to the exact mean, and lies between the entries of two of the labels.  This holds for the averages a regression tree predicts for a row, of the training labels that end in the same leaf, and for the averages stored in the leaves of regression boosting trees.  With up to 2^51 one-hot labels the averages order the classes exactly as the numbers of their examples do; an average is 0 exactly for a class without examples and 1 exactly for a class that has them all; and a boosting tree that stores one class per leaf and averages stores the first of the most frequent classes among the examples of the leaf.  With labels that are no integers the average of three labels 0.1 is larger than 0.1.",
  "every non-empty list of integer labels of that size and every well-formed data set with such labels, every configuration, every row, every leaf; binary64 arithmetic with either sign of the zero that starts a sum",
  "A test compares a few averages with a tolerance; that the nearest number is hit for every list of labels, and that classes are never tied or swapped by rounding, needs an argument about all sums and quotients.",
  [CR+"numerical_calculations.rs:calculate_average_f64_vector", DT+"tree/tree_builders/regression_tree_builder.rs:build_regression_tree", DT+"tree/tree_builders/grad_boost/grad_boost_tree_builder.rs:build_grad_boost_regression_tree"])

p("With integer labels trends and ranges survive rounding",
  "In binary64 arithmetic, let the labels of a well-formed data set with n rows be integers of at most b in absolute value, b >= 1, with n * b^2 <= 2^53.  If a target never falls in the training data when a feature rises, then raising this feature of a row, and nothing else, never lowers what a regression tree predicts for the target; if the target never rises, it never raises the prediction.  A lower or upper bound that holds for a target in all training labels holds for every prediction; a target that is the same in all training labels is predicted exactly; and a target that is never larger than another one in the training labels is never predicted larger.  The same holds of the outputs of a regression boosting tree trained on such labels.  This is for every depth, any number of features and any row, and without any tolerance; without integers rounding can break all of it (C90, C123).",
  "every well-formed data set with integer labels of that size, every feature, target, bound and configuration, every pair of rows; binary64 arithmetic with either sign of the zero that starts a sum",
  "A test probes a few rows of a few trees; whether the rounding of a mean in some leaf of some tree reverses a trend or leaves a range can only be excluded for all of them by proof.",
  [DT+"tree/tree_builders/regression_tree_builder.rs:build_regression_tree", DT+"tree/tree_builders/grad_boost/grad_boost_tree_builder.rs:build_grad_boost_regression_tree", DT+"utils/scorer.rs:calculate_average_label_vector", CR+"numerical_calculations.rs:calculate_average_f64_vector"])

p("What holds of integer labels in binary64 holds of fixed-point labels",
  "In binary64 arithmetic, let all labels of a well-formed data set with n <= 2^24 rows and at most 2^24 targets be integer multiples z * 2^k of the same power of two, |k| <= 100, with |z| <= b, b >= 1 and n * b^2 <= 2^53: ratings in steps of a half, say.  If rows with equal values of a feature, other than its smallest, have equal labels, the regression tree learned from the rows in any other order asks the same questions, sends every row the same way and makes the same predictions.  Every entry of a prediction lies between the entries of two training labels of the same leaf, so bounds that hold in all training labels hold for all predictions and a constant target is predicted exactly; a target that is never larger than another one in the training labels is never predicted larger; and if a target never falls (never rises) in the training data when a feature rises, raising this feature of a row, and nothing else, never lowers (never raises) the prediction.  With few and small labels (the bound of C120 for z) that do not contradict each other, a tree with enough levels predicts exactly the label of every training row; if one question decides the labels (and the bound of C121 holds for z), one level is enough.",
  "every well-formed data set with such labels, every power of two in that range, every configuration, every order of the rows, every row; binary64 arithmetic with either sign of the zero that starts a sum",
  "A test fixes the step, the labels and the rows; only a proof covers every power of two and every data set.",
  [DT+"split_finders/split_finder_variance.rs:find_best_split", DT+"tree/tree_builders/regression_tree_builder.rs:build_regression_tree", DT+"utils/scorer.rs:calculate_average_label_vector"])

p("A target that never varies, such as a class without examples, changes nothing in binary64",
  "In binary64 arithmetic, give all labels of a well-formed data set of n <= 2^53 rows one more target, at any position, with the same integer value x in all of them, where n * x^2 <= 2^53; the other labels may be any numbers, also infinities and NaN.  The split search reports the same question with the same gain; all tree learners ask the same questions and send every row the same way; the averages in the leaves, and all predictions of regression ensembles with a finite learning rate and any number of iterations, are exactly the old ones with one more entry x.  In particular, a further class without training examples, wherever it is put among the others, does not change which class the classification tree predicts for any row, nor its accuracy on any test set of the old classes.  With a further target of which all values are 0.1 this fails: roundings can make the tree ask another question.",
  "every well-formed data set, every integer value and position of the further target in that range, every configuration, number of iterations and finite learning rate, every row, every test set; binary64 arithmetic with either sign of the zero that starts a sum",
  "A test fixes the data, the value and the position; that roundings of the further target never tip a comparison needs an argument over all data sets.",
  [DT+"split_finders/split_finder_variance.rs:find_best_split", DT+"tree/tree_builders/regression_tree_builder.rs:build_regression_tree", DT+"utils/scorer.rs:calculate_average_label_vector", EN+"RegressionBoost/regression_boost_executor_functions.rs:execute_gradient_boosting_loop"])

p("With few integer labels rounding never prefers a worse question",
  "In binary64 arithmetic, let the labels of a well-formed data set be integers of at most b in absolute value, b >= 1, with n rows and t >= 1 targets such that n^5 * t * (n + t) * b^2 < 2^45 (150 rows of three classes, say).  If the split search reports the gain zero, no question reduces the exact variance of the labels at all; if it reports a question whose threshold occurs only once in its column, no question reduces the exact variance by more, without any tolerance.  All trees follow this rule at every node.  If, moreover, the examples do not contradict each other and exact arithmetic never has to choose between equally good questions (and within every column of the examples at a node only the smallest value is repeated), binary64 builds exactly the tree of exact arithmetic, and what a regression tree predicts for any row is what it would predict in exact arithmetic, rounded once; its class predictions are the same, and its accuracy on a test set is the exact one, rounded once.  Trees also follow the rule if the labels are such integers times a power of two between 2^-100 and 2^100, and regression trees are then those of exact arithmetic under the same conditions.  Between equally good questions rounding does choose: with the labels 0, 1, 1, 2 binary64 asks another question than exact arithmetic and predicts something else.",
  "every well-formed data set with such labels, every question, every configuration, all tree builders and leaf outputs, every node; binary64 arithmetic with either sign of the zero that starts a sum",
  "A test compares the question found with the best one of a few data sets; that rounding errors stay below the smallest possible difference of two gains needs a proof.",
  [DT+"split_finders/split_finder_variance.rs:find_best_split", DT+"tree/tree_builders/regression_tree_builder.rs:build_regression_tree", DT+"utils/calculations/calculations.rs:calculate_variance_vector"])

p("With few integer labels only the distances between the labels matter in binary64",
  "In binary64 arithmetic, let two well-formed data sets have the same features, and integer labels of at most b resp. b' in absolute value (b, b' >= 1), possibly with different numbers t, t' >= 1 of targets, such that n^5 * t * (n + t) * b^2 < 2^45 for both, n being the number of rows.  Let the Euclidean distances between any two label vectors of the first be proportional to those of the second, let the examples not contradict each other, and let exact arithmetic never have to choose between equally good questions (with repeated values within a column only at its minimum).  Then the trees of both data sets ask the same questions at every position and send every row the same way.  If the second labels are the images of the first under an affine map f that multiplies all distances by the same factor, then the regression trees predict, for every row, m and f(m) for some vector m, each entry rounded once.  In particular the order, the common unit and the zero points of the targets do not matter.  Between equally good questions they do: with the labels 0, 1, 1, 2 another question is asked than with 0, 3, 3, 6 or 1, 2, 2, 3.",
  "every pair of well-formed data sets with such labels, every configuration, all tree builders and leaf outputs, every position, every row with enough features; binary64 arithmetic with either sign of the zero that starts a sum",
  "Every intermediate result is rounded differently for the two data sets; a test compares a few pairs of data sets, not all labels that are equivalent up to a similarity.",
  [DT+"split_finders/split_finder_variance.rs:find_best_split", DT+"tree/tree_builders/regression_tree_builder.rs:build_regression_tree", DT+"utils/calculations/calculations.rs:calculate_variance_vector"])

p("Few classified rows are split by the exact Gini impurity in binary64",
  "In binary64 arithmetic, let the n rows of a well-formed data set be labelled with classes out of t >= 1, one-hot encoded, where n^5 * t * (n + t) < 2^45 (150 rows of three classes, say).  If the split search reports the gain zero, no question lowers the exact Gini impurity of the classes at all; if it reports a question whose threshold occurs only once in its column, no question lowers the exact impurity by more.  All tree builders follow this rule at every node for the examples that pass there: a leaf above the depth limit means that no question lowers the impurity of its classes, and a question with a threshold that occurs once lowers it as much as any.",
  "every well-formed data set with such labels, every question, every configuration, all tree builders and leaf outputs, every position; binary64 arithmetic with either sign of the zero that starts a sum",
  "The impurity does not occur in the code, which sums rounded variances; a test compares the two on a few data sets.",
  [DT+"split_finders/split_finder_variance.rs:find_best_split", DT+"tree/tree_builders/regression_tree_builder.rs:build_regression_tree"])

p("In binary64 an early leaf means that there is nothing left to learn",
  "In binary64 arithmetic, let the n labels of a well-formed data set be vectors of t integers up to b, where n^5 * t * (n + t) * b^2 < 2^45.  If the split search reports the gain zero, every example for whose row another row has a smaller value in some feature has exactly the mean label; rounding never hides a useful question.  All tree builders stop above the depth limit only where this holds for the examples that pass there, and every question that separates these examples leaves two groups with exactly the same mean of every target (also for labels that are such multiples of a power of two).  For one-hot labels, the examples at a leaf above the depth limit are all of one class, or all have the same features.",
  "every well-formed data set with such labels, every question, every configuration, all tree builders and leaf outputs, every leaf above the depth limit; binary64 arithmetic with either sign of the zero that starts a sum",
  "A test can check that a given tree has pure leaves; that rounding errors of the variances never make a useful split look useless is a statement about all data sets.",
  [DT+"split_finders/split_finder_variance.rs:find_best_split", DT+"tree/tree_builders/regression_tree_builder.rs:build_regression_tree"])

if __name__ == "__main__":
    with open("/verif/properties.jsonl", "w") as f:
        for x in P:
            f.write(json.dumps(x) + "\n")
    print(len(P))
