# Formal model of multi-target-decision-tree-learners

Lean 4.33.0 + single Mathlib modules.  The project is `/verif/lean`, modules under `Verif/`.

## 1. Shape of the model

* **Numbers.**  The Rust code computes with `f64`.  Every modelled function is generic in a type `F` with
  `[F64 F]` (`Verif/Num/F64.lean`): the operations the code uses (`+ - * /`, unary minus, `abs`, `exp`, the three IEEE
  comparison predicates, `usize as f64`, `f64 as usize`, the constants), *without any law*.  Theorems then come in strengths:
  1. **any arithmetic**: no law, or only the comparison laws `LawfulOrder` (comparisons are a total preorder on non-NaN
     values, NaN compares false, `t - INFINITY` is never positive).  Rounding is arbitrary, so these cover binary64.
  2. **binary64** (`Verif/Num/B64.lean`): an executable IEEE-754 binary64 (NaN, infinities, signed zeros, subnormals,
     round-to-nearest-even, overflow), proved to satisfy the laws; `exp` is a parameter (the standard does not fix it).
  3. **exact arithmetic** (`Verif/Num/Ext.lean`): `Ext K` = an ordered field `K` plus NaN and both infinities, IEEE rules for the
     special values and for division by zero, no rounding and one zero.  Used for the claims that are statements of
     algebra (variance identity, optimality, monotone training error).  What it cannot exhibit: rounding, overflow.
* **Panics.**  A panic is an explicit value: all functions live in `R := Except Panic` with the kind of panic
  (index out of bounds, failed assertion, unwrap of None, arithmetic overflow, failed cast of a file).
* **Mutation and loops.**  `&mut` becomes a returned value, `for` loops become `List.foldlM`/`List.mapM` over ranges with the
  same indexing (and therefore the same panics) as the code.
* **Threads.**  `rayon::join` and `par_iter().map().collect()` are modelled twice: by their result (`R` level) and by a
  small-step nondeterministic semantics (`Verif/Model/Par.lean`): tasks fork, any enabled subtask may step, a parallel
  iterator may split at any point.  Preservation + termination + progress give the "for every schedule" theorems.
* **Trees.**  `TreeNode` keeps the four fields of the Rust struct with their `Option`s, so malformed nodes and the
  `unwrap` panics of the traversal exist in the model.

## 2. Files

See section 7 for the list.  Model definitions are in `Verif/Model/*`, the arithmetics in `Verif/Num/*`, independent
specifications in `Verif/Spec/*`, helper lemmas in `Verif/Lemmas/*`, the property theorems with their examples in
`Verif/Props/*` (named `Cnn_...`, together with short private lemmas).  `Verif/Applied/*` applies 244 of the theorems to concrete data
sets, trees and ensembles with every hypothesis discharged, so none of their hypothesis lists is contradictory; for the others
(binary64 and real arithmetic, main, schedules) the examples stand beside the theorems.

## 3. Plan per property

| id | modelled by | strength | how it is proved |
|----|-------------|----------|------------------|
| C01 | `createFeatureColumns` | any arithmetic | `mapM` over ranges; exact panic set |
| C02 | `parseDataIntoFeaturesAndLabels` | any | list induction |
| C03 | `createMultiTargetLabels` | any + cast rules of B64/Ext | induction; panic set |
| C04 | `readCsv...` over records (CSV syntax is a parameter) | any | composition of C01-C03 |
| C05 | `getSortedFeatureTupleVector` | LawfulOrder | insertion sort + uniqueness of sorted permutations |
| C06 | `partition` | any | fold = filter |
| C07 | `newPartition` | LawfulOrder | mark arrays vs sorted prefix |
| C08 | `newPartition` | LawfulOrder | negation with witness, exact behaviour, partial claim |
| C09 | `calculateVarianceVector` | exact | field algebra |
| C10 | `findBestSplit` | LawfulOrder | invariant of the scan: threshold differs from the minimum |
| C11,C12,C13 | `findBestSplit` | exact | trackers = prefix/suffix statistics; negation by witness for duplicates |
| C14 | `findBestSplit` | LawfulOrder | fold invariant |
| C15 | `findBestSplit`, tree builder | exact; B64 witness | C09 + evaluation in the kernel |
| C16 | `findBestSplit` | laws on NaN/inf, Ext and B64 | NaN propagation |
| C17,C18,C19,C20,C21,C24 | tree builders | LawfulOrder / any | induction on remaining levels |
| C22,C46 | task programs | any | step preserves the denotation |
| C23,C30 | both builders | LawfulOrder | same scanned sequence of (value,label) pairs |
| C25 | builder + scorer | exact | splitting does not increase within-group squares |
| C26 | builder | LawfulOrder | simulation |
| C27,C28,C29 | scorers | any / counting laws / B64, Ext | fold invariants |
| C31,C32,C33,C42,C43 | boosting loop | any / LawfulOrder | loop invariant |
| C34,C35,C36 | boosting loop | exact | leaf means are projections |
| C37,C38 | softmax, leaf outputs | exact over the reals | `Real.exp` |
| C39,C40,C41 | predictions | any / LawfulOrder / exact | fold invariants |
| C44,C45 | builder | any / LawfulOrder | first failing step |
| C47 | `printTree` | any | tree induction |
| C48 | tree builders | LawfulOrder | induction on remaining levels |
| C49 | `findBestSplit` | exact | scan = first maximum over the cuts of the ordered rows |
| C50 | readers, `getFeatureNames` | any | case analysis on the file, `mapM` = pointwise relation |
| C51 | `calculateOverallMse`, `regressionScore` | any (tree: LawfulOrder) | loop = fold over `mapM` |
| C52 | `mainProgram` | LawfulOrder | C42 (totality) + C50 + C51; panics from C44, C50 |
| C53 | split search, trees, regression ensemble, scores | exact | C49 determines the split; cuts keep their order under an affine change; simulation |
| C54 | multi-class and AMG ensembles | exact | C53 on the residuals, softmax commutes with reordering; AMG: witness |
| C55 | split search, trees, ensembles | LawfulOrder | equal losses for equally ordered columns, ties go to the earlier column; simulation |
| C56 | trees, regression ensemble, scores | LawfulOrder (depth), exact | each question removes an example; no gain forces the mean label on every row that is not the smallest of each feature (C117), and the remaining rows are copies of one another; loop invariant |
| C57 | trees, regression ensemble | exact; B64 witness | averages respect half-spaces; loop invariant for equations; witnesses |
| C58 | trees, ensembles | LawfulOrder | thresholds are training values other than the smallest (C10, C48); equal answers, equal paths |
| C59 | trees, ensembles | LawfulOrder | tree induction, C20, C18 |
| C60 | split search, trees, scores, training loops | exact arithmetic | convexity of the within-group error inside a run of copies; tree induction; twin run of the loop |
| C61 | training loops | exact arithmetic; witness for the limits | sorted columns of permuted rows agree beyond the smallest value; scores are functions of the row |
| C62 | `calculate_average_f64_vector`, tree builders | binary64, bounded labels; witness for the bound | error of each rounded operation, induction over the rows |
| C63 | split search, tree builders | binary64, bounded labels; witness for the bound | the running sums stay near the exact sums of C09; then as C11 and C12 with tolerances, and C48 for trees |
| C64 | split search, tree builders | binary64 | the running sums are integers below 2^53, so nothing is rounded |
| C65 | training loops, `predict_class`, scores | exact arithmetic | first residuals are the labels minus one vector, so C53 gives the same questions; closed form of the leaves |
| C66 | class training loops | exact arithmetic | twin run: the scores of both ensembles stay equal, leaf outputs for two classes are opposite numbers |
| C67 | tree builders, training loops | LawfulOrder; exact for the values | thresholds are inner values (C58), so no question; residuals add up to zero |
| C68 | regression training loop | exact arithmetic | closed form of the error per leaf; zero outputs leave the residuals and hence all later trees as they are |
| C69 | scorers | binary64, bounded labels and predictions; witness for the bound | all terms of a sum of squares are positive, so errors are relative; C51 gives the sums, C62 the leaf means |
| C70 | prediction of ensembles | binary64, bounded guess and outputs | C39 gives the sums; induction over the trees |
| C71 | vector arithmetic of `common` | any arithmetic | loop invariants |
| C72 | both classification ensembles | real numbers, small learning rate | explicit iteration (C54), convexity bound of log-sum-exp per leaf |
| C73 | best split, trees and ensembles under a permutation of the columns | any `F64` with a lawful order | maximum over columns with a unique winner does not depend on their order; induction on the tree and the loop |
| C74 | training loops of all ensembles | any `F64` (classification rows outside the training set: exact) | the loop is a function of the training scores; equal scores give the same tree again |
| C75 | `find_leaf_node_for_data`, prediction of all ensembles | any `F64` | induction on the tree along the path of the row |
| C76 | tree builders | `LawfulOrder` | induction on the tree: the builder only sees the examples of the branch and the remaining levels |
| C77 | training and prediction of `MultiClassBoostModel` | any `F64` in which NaN spreads (`LawfulPoison`; instances for exact numbers and binary64), `exp NaN` NaN | NaN residual gives a single leaf that is NaN in that class; one tree later all classes are NaN, and NaN is never removed from a score |
| C78 | training, prediction and score of `RegressionBoostModel` | binary64 (`B64`), exact values of the inputs | induction over the iterations with the sum of the squared residuals as potential: within a leaf subtracting `lr` times the mean does not increase it (`group_energy`), the rounding of residual, leaf average and update adds at most `205 n u D^2` per entry (`entry_energy`), and the total stays below `D^2/4`, which bounds all numbers; the score by C69 |
| C79 | the four tree builders, tree prediction | binary64 (`B64`) against the model at exact rationals, run on the exact values of the same data (`DataSet.exact`) | induction over the levels: the split search in binary64 is within twice the tolerance of the best question (C63) and the margin leaves only one; one example cannot be separated (C10), equal small integers have gain zero (C64); filtering commutes with taking exact values (`exact_restrict`); predictions by C62 |
| C80 | AMG boosting | any number type whose NaN and infinities behave as in IEEE arithmetic (`LawfulInfinity`; instances for exact numbers and binary64), with the exponential of NaN and infinity not finite | plus infinity and NaN absorb sums, so the softmax has a NaN, the residuals have a NaN and no split has a gain (C48); with all outputs NaN the largest-value search returns minus infinity for class 0, whose share for the other classes is plus infinity; induction over the iterations |
| C81 | accuracy of a tree on its training set | any number type with ordered counts (`LawfulShare`: the quotient of counts by a fixed count is monotone; instances for exact numbers and binary64) | the accuracy is a count over a count (C28), the prediction is the majority class of the leaf (C27), so leaf by leaf no rule has more hits; a shallower tree is the deeper one cut off, so its predictions are such a rule; pure leaves from C56 |
| C82 | split search, tree builders, boosting loop | any number type with lawful comparisons | the chosen column is the first of maximal gain, and it stays that when another column is removed; induction over the tree; in a run both data sets keep the same working labels, iteration by iteration |
| C83 | split search, tree builders, regression boosting | exact arithmetic | the summed variance of a group of label vectors is half the mean squared distance of its pairs, so all gains change by one factor; induction over the tree and, with residuals and means commuting with affine maps, over the iterations |
| C84 | scores of trees and ensembles | any arithmetic that counts to 2^53 (accuracy), exact arithmetic with infinities and NaN (mean squared error), binary64 (violation) | scores as counts or sums over the (prediction, label) pairs (C28, C51), which a permutation of the examples permutes; addition with infinities and NaN is commutative and associative |
| C85 | split search, tree builders, regression boosting | binary64 | an overflowed sum of squares stays infinite or NaN in the right tracker of the scan, so no loss is below infinity; with faint labels all computed variances are zero (sums stay below 2^25 units, a representable bound, by monotone rounding); for ensembles, residuals of two labels far apart cannot both be small, by strong induction over the trees |
| C86 | split search, tree builders, regression boosting | binary64 | rounding commutes with multiplication by a power of two away from the subnormal range (`roundQ_scale`); every intermediate value is a multiple of a grid unit above 2^-1074 and below 2^1000, tracked through each operation by the relation `Sc`; the scan, the trees and the residual loop are then related step by step |
| C87 | split search, tree builders, leaf outputs, regression boosting, mean squared errors | binary64 | rounding to nearest commutes with negation; the relation "same value or opposite value" is kept by every operation, for division because both runs divide by the identical count or denominator; the scan, the trees and the residual loop are related step by step |
| C88 | split search, partition, tree builders, boosting loops, readers | LawfulOrder (LawfulCount for classification ensembles; LawfulEmpty, the variance of no labels is NaN, for a single row with a NaN) | success of the split search forces the conditions (every row index is looked up among the labels); conversely the split search is total with surplus labels, and partitioning drops them, so below the root the data are well-formed; an ensemble looks up a row for every label; for a single row the run on the actual features is the run on a row of zeros, because every tree is one leaf; for the sorted columns the search at the root is the same search and surplus labels are never indexed |
| C89 | `main` with readers, training, scoring and prediction | LawfulOrder | C88 for the training files (first the numbers of rows and labels, then NaN and targets), C42 for the width of predictions, C51 (exact) for the score; conversely C52 |
| C90 | tree builders, traversal, regression boosting | exact numbers; counterexamples with three iterations and with binary64 | two rows that differ in one feature part at a question about this feature, which separates the training rows of the two leaves, so every label of one leaf is at most every label of the other |
| C91 | trees, AMG and multi-class boosting, prediction | any arithmetic for trees, exact numbers for ensembles; counterexample in binary64 with an exponential of eleven digits | the residuals of a class that does not occur are all negative, and residuals add up to zero over the classes, so in every leaf another class has a positive value; AMG gives all classes but this one the same value |
| C92 | class probabilities, residuals, multi-class leaf outputs and scores | binary64 with any exponential that is not negative | each exponential is at most the rounded total s because rounding is monotone; times the rounded 1/s it is at most 1 + 2^-53, which rounds to 1; residuals in [-1, 1] make the denominators of leaf outputs sums of numbers that are not negative; relative errors of sums of positive numbers |
| C93 | regression trees of different depths on one training set, scorer | binary64 | the route of a shallower tree is a prefix of the route of a deeper one bit for bit, so the leaves refine one another; the exact error of leaf means falls under refinement; scores follow exact errors by C69 |
| C94 | regression, boosting and AMG trees, trees on sorted features, leaf averages | exact (any ordered field) | the variance a cut removes is n*m/(n+m)^2 times the squared distance of the means, summed over the targets, so it moves by at most 2 t B eps; by induction on the depth the optimal question stays the same; means move by at most eps |
| C95 | `printTreeRegression`, lookup, scorer | any | the printed lines are a prefix code: by induction on the tree, equal lines followed by anything split at the same place |
| C96 | regression trees, leaf averages, scorer | exact (any ordered field), binary64 | in every leaf the squared distance of a constant from the labels is that of the mean plus the squared distance of the two, summed over leaves; binary64 through the accuracy of scores of C69 |
| C97 | regression boosting: training, prediction | exact (any ordered field) | each target alone: a tree lowers the sum of squared residuals by `lr (2 - lr)` times the sum of its squared outputs, which contains the square of its output at any row since leaves are not empty; induction over the loop, then the square of a sum of k outputs is at most k times the sum of squares |
| C98 | split search, regression trees, scorer on one-hot labels | exact (any ordered field) | the total variance is half the mean squared distance of pairs (C83), and two different one-hot vectors have squared distance 2; then C11, C12 and the score as a sum over leaves |
| C99 | regression boosting, split search | exact (any ordered field) | the squared outputs of a tree add up to at least the number of rows times the variance reduction of its first question, which is optimal (C12); by C68 these sums add up to at most the sum of squares of the labels, so one of k is small |
| C100 | regression boosting, split search | exact (reals) | residuals that no question explains well are nearly orthogonal to every function that is constant on both sides of a question, so to every sum of functions of single features and to the predictions so far; the squared sizes of the trees have a finite sum (C68), so the bound becomes small |
| C101 | classification boosting, tree growth | exact; reals for the log loss | a leaf of a deep tree holds equal residuals (C56), so its value is an explicit function of one residual vector; induction on the iterations with scores that have one value for the own class and one for all others |
| C102 | classification prediction and score | reals | the score of a wrongly predicted class is no smaller than that of the true class, so the true class has at most half of the soft-max total |
| C103 | `mainOut`, `printTreeOut` | any | a writer of lines on top of the panic monad; case analysis along the program with the acceptance conditions of C50, C51, C88 and C42; induction on the tree for the printer |
| C104 | `regressionTreeNew`, `findBestSplit`, `calculateOverallMse`, `regressionTrain` | exact | induction on the tree: the squared deviations from the leaf means lose at every node what its question contributes; C11, C12 and C48 for the reported gains; C68 for boosting |
| C105 | `SplitFinder`, `regressionTreeNewWith`, `gradBoostTreeNewWith`, `amgTreeNewWith`, `regressionTrainWith`, `multiClassTrainWith`, `amgTrainWith` | any; exact for the training errors | an inductive relation for the trees the recursion returns, with the converse of the partition lemma; the credit identity of C104 for any tree |
| C106 | `treeAsking`, `regressionTrainAsking`, `multiClassTrainAsking`, `amgTrainAsking` with a step relation that records the calls | any | an inductive relation for the finished executions (calls interleaved, result), from inversion lemmas for sequencing and `join`; every execution can be finished |
| C107 | averages, linear equations and inequalities, totals of AMG scores | binary64 | the sums of the residuals after each iteration, weighted by any coefficients: exact means of groups do not increase their squares, each iteration adds the rounding errors of C78 |
| C108 | caller's leaf output function and boosting loop | any, exact for errors | the builder with any leaf function is the regression tree with the function applied to its leaves in order; labels after any sequence of updates by induction over the trees; convexity of the squared error on each leaf |
| C109 | joint effects of features | any for trees, exact and binary64 for ensembles | induction over the tree: one question removes at most one feature from the list of changes; joint effects of sums; in binary64 the predictions are followed along the trees and compared with the sum of the outputs |
| C110 | weights of training labels | exact | loop invariant: the raw score of every row is the weighted sum with the weights of the specification; route equality from equal questions carries the weights to other labels |
| C111 | continued training | exact | the two loops run in step: the working predictions of the long training are those of the first plus those of the second, so both fit the same residuals |
| C112 | `treeCalling` with a step relation that records the calls of both functions | any | as C106, with two kinds of calls; results with memory are those of the functions read off the record, because no data set is passed twice |
| C113 | `findBestSplit`, the tree builders and the boosting loop on two descriptions of the same rows | exact | the gain is the largest variance reduction over all cuts (C12), which depends only on the cuts; induction over the tree with two data sets, exchanging yes and no where needed; twin runs of the loop |
| C114 | trees, ensembles | LawfulOrder | the largest training value up to the value of the row, or the smallest one, answers every question alike (C58); counting lists of values and lists of leaves |
| C115 | `findBestSplit`, the regression tree builder and its scorer on all targets and on single targets | exact | variance reductions add up over the targets; the first question has the largest (C12) and later ones do not hurt (C104); group means are best (C96) |
| C116 | `treeOf` (all builders) over all labels for fixed rows, the ensembles' trees | any lawful order | induction over `max_levels`: every question is one of the `c (N - 1)` inner training values and the two halves share the rows; labels that are fitted are constant on the groups, counted by groups and values; pigeonhole |
| C117 | `findBestSplit`, all builders, `calculateOverallMse`, `regressionTrain` | exact | a cut without gain forces the mean label on every row that some row undercuts (C56's scan argument, now as an equivalence); the remaining rows are copies of each other, so the mean of the copies is the mean of the leaf; least squares over the groups of copies; induction over the iterations |
| C118 | `findBestSplit`, all builders, `regressionTrain`, `regressionPredict` | exact | along a run of equal labels the gain is a convex function of the position of the cut, so the first best cut is at the end of a run; for one feature, the label changes of the two parts are label changes of the whole, on different sides of the threshold; predictions that change only where the labels change have residuals that do so, too: induction over the iterations |
| C119 | `findBestSplit`, all builders, the three ensembles, scores | exact | a question lowers the variance by all of it exactly if it determines the labels; the reported gain is the largest reduction and, where ties agree, that of the reported question; both parts then have no variance; what an ensemble fits next is a function of the labels, so every tree of it sorts the rows by their labels |
| C120 | `findBestSplit`, all builders, leaf averages, `calculateOverallMse`, `calculateAccuracy` | binary64 | n^2 times the product of the two sizes times the gain of a cut of integer labels is an integer, so a positive gain is at least 4/n^4; the computed gain is within the tolerance of C63 of the gain of every cut considered, so it is zero only if the exact gain is; then C56; the sums of equal integers are exact (C64) |
| C121 | `findBestSplit`, all builders, leaf averages, `calculateOverallMse`, `calculateAccuracy` | binary64 | two different integer labels add at least 1/2 to the squared deviations of their side, so a cut whose loss is below 1/(2n) has one label on each side; the question of the rule has loss zero and the computed gain is within the tolerance of C63, so the cut reported is such a cut; with agreeing ties its question decides the labels; the sums of equal integers are exact (C64), so the sides are not split again (C48) |
| C122 | `findBestSplit`, all builders, leaf averages, `predictClass`, `calculateOverallMse`, `calculateAccuracy` | binary64 | by induction along the scan the sums and the sums of squares in both trackers are exactly those of the labels on their side, since integers up to 2^53 are not rounded; under the condition on ties the two scans have the same labels on each side of every cut they consider, up to order, so the losses, gains and comparisons agree by value; induction over the tree with permuted examples on both sides of the same question |
| C123 | `calculateAverageVector`, `regressionTreeNew`, `gradBoostTreeNew`, `amgTreeNew` | binary64 | the sums are exact integers (C122), the number of labels is exact, so the one division rounds the exact mean; rounding is monotone and keeps labels, so the result stays between two of them; different shares of up to 2^51 examples differ by more than twice the rounding error |
| C124 | `regressionTreeNew`, `gradBoostTreeNew`, `findLeafNodeForData`, `calculateAverageLabelVector` | binary64 | two rows that differ in one feature end in the same leaf or part at a question about it (C90), so every label of one leaf is at most every label of the other; a mean that is rounded once lies between two of its labels (C123), so the predictions are ordered by transitivity; for two targets rounding is monotone |
| C125 | `regressionTreeNew`, `findLeafNodeForData`, `calculateAverageLabelVector` | binary64 | multiplying labels by a power of two changes nothing but the scale of the averages, roundings included (C86); so the tree on the labels and the tree on the integers z ask the same questions, and C120 to C124 for the integers carry over |
| C126 | `findBestSplit`, all tree learners, `regressionTrain`, `regressionPredict`, `predictClass`, `calculateAccuracy` | binary64 | the sums, sums of squares and means of the further target are exact and its variance is exactly zero in every part; adding zero changes no loss; its residuals are zero; by induction over tree and iterations |
| C127 | `findBestSplit`, all tree learners | binary64 | the exact gains of two questions on n integer labels differ by nothing or by at least 4 / n^5, because both are fractions with known denominators; the tolerance of C63 is smaller than half of that; without exact ties C79 applies |
| C128 | `findBestSplit`, all tree learners, predictions of regression trees | binary64 | by C83 the exact trees of both data sets agree; contradictions and exact ties carry over because exact gains are proportional; C127 for each of the two data sets |
| C129 | `findBestSplit`, all tree learners | binary64 | for one-hot labels the variance reduction is the decrease of the Gini impurity (C98); C127 for the labels of the examples at every node |
| C130 | `findBestSplit`, all tree learners | binary64 | the computed gain bounds every cut of the sorted rows up to the tolerance of C63, and cuts of few integer labels gain nothing or more than that; so the exact gain is zero, and C117 applies; equal means from C127 |

## 4. What is modelled and what is not

Modelled, function by function (the comment of every definition cites file and lines):

| code | module |
|------|--------|
| `common`: data sets, readers, record parsing, one-hot labels, column views, sorting, `Question`, vector arithmetic | `Model/Common` |
| `multi-target-decision-tree`: variance, threshold and split finder, both partitioners, the four builders (single and multi-threaded), leaf outputs, lookups, class prediction, scorers, printing | `Model/Tree`, `Model/Par` |
| `multi-target-grad-boost`: boosting loop, the three ensembles with their executors and predictors, softmax, residuals, scores | `Model/Boost`, `Model/Par` |
| builders and training functions with any function in the public pointer of `SplitFinder` | `Model/Custom` |
| the same with a finder of any behaviour, and the record of its calls | `Model/Ask` |
| the builders of boosted trees with any function in the public pointer of `LeafOutputCalculator` | `Model/Own` |
| the same with a finder and a leaf output function of any behaviour, and the record of their calls | `Model/Dialog` |
| `main/src/main.rs` | `Model/Boost` (`mainProgram`), `Model/Output` (`mainOut`) |
| the lines printed by `print_tree_regression` and `main` before a panic | `Model/Output` |

Not modelled:

* the `csv` crate: splitting a file into fields and parsing a field as a number.  A file is a parameter: unreadable, or a
  header and records whose fields are numbers or not;
* file system, number formatting, wall-clock timing, the value of the square root printed by `main` (a parameter), benches, tests, memory use, stack
  depth, machine integers (`usize` and `u32` are `Nat`; `f64 as usize` saturates as in Rust, with no upper limit in exact arithmetic);
* the value of `exp` in binary64 (a parameter of `B64`), and the sign and payload of NaN;
* a split finder of the caller that never returns, and effects of such a finder other than its answers (`Model/Custom` covers every replacement of the public function pointer in `SplitFinder` by a function, `Model/Ask` every replacement that answers or panics; the other theorems are about the pointer that the only constructor sets);
* a leaf output function of the caller that never returns, and effects of such a function other than its answers and the state it shares with the split finder (`Model/Own` takes a function that returns or panics, `Model/Dialog` one of any behaviour);
* work stealing itself: `rayon` appears as a nondeterministic scheduler over forked tasks.

## 5. Trusted base

* Lean 4.33.0's kernel and the axioms listed in section 8 (only `propext`, `Classical.choice`, `Quot.sound`).  No axiom is
  added, no `sorry`, no `native_decide`, no `bv_decide`.  Examples use `decide +kernel`, which the kernel evaluates.
* Mathlib's definitions that occur in statements: lists, ordered fields, rationals, reals, permutations.
* That the model says what the code does.  It was written by reading the code; sections 1 and 4 list the differences.
* For the claims about binary64: that `Verif/Num/B64.lean` is IEEE-754 binary64.  It is compared with the hardware by
  `tools/b64_conformance.py` on operand pairs that include special values, subnormals and rounding ties; that is a test.

## 6. Wrong programs

`seeded/LOG.jsonl` has one line per edited model.  The method, applied in a scratch copy:

1. make one edit, for instance a wrong boundary, a missed case, a swapped argument or a dropped update;
2. rebuild all modules, carrying on after failures.  A theorem whose proof fails stays in the scratch copy as unproved, and
   every theorem that depends on it, directly or not, is counted as failed as well;
3. independently, run a battery of evaluations of the English claims on sample inputs, written without the theorems.  It
   tells which claims the edit makes false (`claims_broken_on_samples`);
4. a claim that is broken on a sample while all its theorems still prove is a weak theorem and gets tightened.

## 7. Files

| directory | modules |
|-----------|---------|
| `Num` | `F64` interface and laws, `Ext` exact arithmetic, `ExtLaws`, `Real`, `Round` and `B64` binary64, `Error` its rounding errors |
| `Model` | `Prelude` panics and loops, `Common`, `Tree`, `Boost`, `Par`, `Output`, `Custom`, `Ask` |
| `Spec` | vocabulary of the statements: `Data`, `Tree`, `Par`, `Score`, `Exact`, `Rescale`, `Special`, `Greedy`, `Cut`, `Leaf`, `Files`, `Mse`, `Relabel`, `Redundant`, `Fit`, `Hull`, `Place`, `Size`, `Repeat`, `Ties`, `Rounding`, `RawScore`, `LogLoss`, `FeatureOrder`, `Reads`, `Poison`, `ClearCut`, `Infinity`, `Accuracy`, `Distance`, `TestSet`, `Range`, `PowerScale`, `Mirror`, `Accept`, `Empty`, `Trend`, `Probability`, `Noise`, `Gini`, `Additive`, `DeepClass`, `Credit`, `Custom`, `Ask`, `Boundary`, `Cuts`, `Dialog`, `Own`, `Interact`, `Weights`, `Grid`, `Share`, `Stop`, `Rule`, `NearFit`, `NearRule`, `NearPerm`, `NearMean`, `NearTrend`, `FixedPoint`, `ConstTarget`, `NearBest`, `NearGini`, `LeafMeaning` |
| `Lemmas` | proofs shared by several properties |
| `Props` | `Data` C01-C08, `Tree` C10 C14 C17-C24 C30 C46, `Exact` C09 C11-C13 C15, `Special` C16, `ExactTree` C25 C29, `Rescale` C26, `Score` C27 C28 C39 C43, `Boost` C31-C33 C40 C42, `ExactBoost` C34-C36, `ExactClass` C37 C38 C41, `Reject` C44 C45, `Print` C47, `Growth` C48 C49, `Files` C50, `Mse` C51, `Main` C52, `Relabel` C53, `ClassOrder` C54, `Redundant` C55, `FullFit` C56, `Hull` C57, `Place` C58, `Size` C59, `Repeat` C60, `Ties` C12 C13 C60 C61, `RawScore` C39, `Rounding` C62-C64, `NearScore` C69, `NearRaw` C70, `Vector` C71, `LogLoss` C72, `FeatureOrder` C73, `Standstill` C74, `Reads` C75, `Local` C76, `Collapse` C77, `NearBoost` C78, `ClearCut` C79, `AmgCollapse` C80, `Accuracy` C81, `Unused` C82, `Distance` C83, `TestSet` C84, `Range` C85, `PowerScale` C86, `Mirror` C87, `Accept` `SingleRow` `SingleRowBoost` `SortedAccept` C88, `MainExact` C89, `Trend` C90, `Absent` C91, `RoundClass` C92, `NearDepth` C93, `Noise` C94, `PrintBack` C95, `LeastSquares` C96, `Bounded` C97, `Gini` C98, `Exhaust` C99, `Additive` C100, `DeepClass` C101, `Mistakes` C102, `Output` C103, `Credit` C104, `Custom` C105, `Ask` C106, `NearLinear` C107, `Own` C108, `Interact`, `InteractNear` C109, `Weights` C110, `Continue` C111, `Dialog` C112, `Cuts` C113, `Grid` C114, `Share` C115, `Capacity` C116, `Stop` C117, `Boundary` C118, `Rule` C119, `NearFit` C120, `NearRule` C121, `NearPerm` C122, `NearMean` C123, `NearTrend` C124, `FixedPoint` C125, `ConstTarget` C126, `NearBest` `FixedBest` C127, `NearDistance` C128, `NearGini` C129, `LeafMeaning` C130, `SingleTree` C65, `TwoClasses` C66, `Degenerate` C67, `Progress` C68, `Binary64` the claims that rounding breaks, `Sample` data sets for the examples |

Findings about the code that the proofs brought up:

* `partition` returns (false part, true part) but `new_partition` returns (true part, false part).
* `new_partition` sends every row to the true side if no row satisfies the question (C08); tree building never gets there.
* `previous_feature_val` is never updated, so thresholds inside a group of equal values are considered (C12, C13, C49).
* The tree on sorted features ignores `number_of_classes` (C44).
* In binary64 constant labels can be split, a variance can be negative and a leaf average can exceed all labels (C15, C09, C57).
* Labels of size 1e200 overflow the sums of squares, and the tree then asks no question at all (C63).
* Negative and NaN class labels silently become class 0 (C03).
* The multi-target reader does not compare the number of labels with the number of rows; the tree scorer ignores extra
  label entries and the ensemble scorer ignores rows without labels (C50, C51).
* An AMG ensemble depends on the order in which the classes are listed (C54).
* Regression ensembles can leave the range of the labels from the second iteration on (C57).
* Appending a copy of the data set can change the questions, because of the thresholds inside groups of equal values (C60).
* Two orders of the same rows can give different ensembles, even if rows that share a feature value have the same label (C61).
* A learning rate above the class probabilities can make classification boosting worse on its own training set: the Newton-like leaf output is not bounded by a line search (C72).
* Which of several equally good features a tree asks about depends on the order of the columns in the file, and predictions with it (C73, `C73_violated_by_ties`).
* A learning rate below the rounding unit relative to the initial guess (for instance `2^-60`) makes training stand still from the first iteration on, silently (C74).
* Rows shorter than the training rows are accepted silently when their path through the trees does not ask for a missing column, and panic otherwise (C75).
* Multi-class boosting destroys itself on data it fits well: on separable rows the gap between the scores grows by about the learning rate per iteration (the Newton step tends to `(t-1)/t`), so after about `37 / learning_rate` iterations a probability rounds to 1, the residuals of the leaf to 0, and its output is `0/0`.  Two iterations later every score of every row is NaN and everything is predicted as the first class, without an error (C77).  Scores above 709 overflow `exp` with the same effect.
* Rounding can change which question a tree asks when two questions are equally good: `C79_violated_by_close_call` is a data set where exact arithmetic asks about the first feature and binary64 about the second, with different predictions. C79 says when this cannot happen.
* AMG boosting destroys what it has learned (C80): a leaf that fits its rows perfectly has the output `0 / 0` in all classes, the search for the largest entry then returns minus infinity for class 0, and its rows are all predicted as the second class. `apart_amg_collapses` is a run of two rows that is right after one iteration, half wrong after two and stays at the first class for both rows after three.
* C84 (the order of the test examples) holds for the mean squared error with exact arithmetic only: in binary64 an outlier at the front or at the back of the file gives different errors (`C84_violated_by_rounding`).
* Labels of 2^512 or more, or all below 2^-565, are silently not learned: every tree is a single leaf (C85). C53 (units do not matter) holds for exact arithmetic only; with rounding it holds for factors that are powers of two (C86), and a factor of 3 can change the chosen question (`Props/PowerScale`, last example).
* C88: a single tree learner silently accepts a label file with more records than the feature file. The surplus labels count in the totals of the first split search, so they change the first question (`surplus4` in `Props/Accept.lean`); afterwards they are dropped. Ensembles panic on such files.
* C90: an ensemble can break a trend that the training data and every tree fitted to them have: on five rows whose label rises with a feature, three iterations with learning rate 1 predict less for a row when this feature is raised (`trend5` in `Props/Trend.lean`).
* C91: multi-class boosting can predict a class that no training example has: three iterations with learning rate 3 on five rows do so for a training row (`odd5` in `Props/Absent.lean`).  The step of a leaf divides by the sum of `|r| (1 - |r|)`, so it overshoots for classes of which the scores are sure, and all classes that do occur can end up below the score of one that does not.
* C35 (one more iteration never increases the training error) holds for exact arithmetic only. With binary64 the score can rise by a few units in the last place, also at the first iteration (`C78_violated_without_tolerance`); C78 bounds the rise.
* `calculate_average_f64_vector` silently ignores surplus entries of later vectors, while `sum_of_f64_vectors` rejects them (C71).
* Regression boosting can stall far from a perfect fit, and then never resumes (exclusive or, C68).

## 8. Axioms of each theorem

<!-- generated by tools/axioms.py -->

* **propext** (6 theorems):
  `C03_oneHot_entries`, `C58_negInfinity`, `C71_scalar`, `C95_same_print`, `C106_ends`, `C108_executor_empty`
* **propext, Quot.sound** (40 theorems):
  `C05_panics_iff`, `C06_partition`, `C14_gain_nonneg`, `C18_zero_levels`, `C22_switch_irrelevant`, `C27_unique`,
  `C27_no_classes`, `C29_tree_not_negative`, `C29_ensemble_not_negative`, `C39_multiClass_one_hot`, `C39_amg_one_hot`,
  `C39_unique`, `C43_batch`, `C43_scores`, `C44_sorted_ignores`, `C46_switch_irrelevant`, `C47_succeeds_iff`,
  `C49_cut_is_question`, `C50_content_unique`, `C50_feature_names`, `C58_outside`, `C71_elementwise`,
  `C71_squared_differences`, `C71_sum`, `C75_reads`, `C75_ensembles`, `C103_print`, `C103_print_complete`,
  `C103_main_lines`, `C105_library_finder`, `C105_threads`, `C106_pure`, `C106_deterministic`,
  `C108_library_functions`, `C108_schedules`, `C108_tree`, `C112_ends`, `C112_pure`, `C112_deterministic`,
  `C113_orders`
* **propext, Classical.choice, Quot.sound** (505 theorems): all the others.
