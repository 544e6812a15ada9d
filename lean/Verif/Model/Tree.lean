import Verif.Model.Common
/-!
# The `multi-target-decision-tree` crate

Models /repo/multi-target-decision-tree/src (split finders, calculations, partitioner, tree types, builders, scorers,
printer).
-/

namespace Verif

variable {F : Type} [F64 F]

/-! ## utils/calculations/calculations.rs -/

/-- utils/calculations/calculations.rs:2-6 `struct MultiTargetLabelMetrics`. -/
structure LabelMetrics (F : Type) where
  sumOfLabels : List F
  sumOfSquaredLabels : List F
  meanOfLabels : List F
  deriving Repr, DecidableEq

/-- utils/calculations/calculations.rs:8-27 `calculate_loss_vector`. -/
def calculateLossVector (leftVariance rightVariance : List F) (leftSize rightSize : F) : R (List F) := do
  let totalSize := leftSize +. rightSize
  let leftWeight := leftSize /. totalSize
  let rightWeight := rightSize /. totalSize
  assertEq leftVariance.length rightVariance.length
  pure (List.zipWith (fun l r => (leftWeight *. l) +. (rightWeight *. r)) leftVariance rightVariance)

/-- utils/calculations/calculations.rs:46-49 `calculate_variance`. -/
def calculateVariance (meanSquared squareSum numberOfLabels : F) : F :=
  let numerator := squareSum -. (numberOfLabels *. meanSquared)
  numerator /. numberOfLabels

/-- utils/calculations/calculations.rs:29-44 `calculate_variance_vector`. -/
def calculateVarianceVector (m : LabelMetrics F) (numberOfLabels : F) (numberOfTargets : Nat) : R (List F) :=
  forRange numberOfTargets (fun i result => do
    let mean ← idx m.meanOfLabels i
    let squareSum ← idx m.sumOfSquaredLabels i
    let meanSquared := mean *. mean
    let variance := calculateVariance meanSquared squareSum numberOfLabels
    setIdx result i variance) (List.replicate numberOfTargets F64.zero)

/-- utils/calculations/calculations.rs:100-110 `get_label_sum_vectors` (and 85-98, the same loop over label references):
returns (sums, sums of squares). -/
def getLabelSumVectors (labels : List (List F)) (numberOfTargets : Nat) : R (List F × List F) :=
  labels.foldlM (fun acc labelVector =>
    forEnum labelVector (fun i labelValue (acc : List F × List F) => do
      let s ← idx acc.1 i
      let sums ← setIdx acc.1 i (s +. labelValue)
      let q ← idx acc.2 i
      let squares ← setIdx acc.2 i (q +. labelValue *. labelValue)
      pure (sums, squares)) acc)
    (List.replicate numberOfTargets F64.zero, List.replicate numberOfTargets F64.zero)

/-- utils/calculations/calculations.rs:112-122 `get_mean_of_labels_vector`. -/
def getMeanOfLabelsVector (numberOfLabels : F) (numberOfTargets : Nat) (sums : List F) : R (List F) :=
  forEnum sums (fun i s mean => setIdx mean i (s /. numberOfLabels))
    (List.replicate numberOfTargets F64.zero)

/-- utils/calculations/calculations.rs:51-66 `get_multi_target_label_metrics` (and 68-83, the same on label references). -/
def getLabelMetrics (labels : List (List F)) (numberOfTargets : Nat) : R (LabelMetrics F) := do
  let (sums, squares) ← getLabelSumVectors labels numberOfTargets
  let numberOfLabels : F := F64.ofNat labels.length
  let mean ← getMeanOfLabelsVector numberOfLabels numberOfTargets sums
  pure { sumOfLabels := sums, sumOfSquaredLabels := squares, meanOfLabels := mean }

/-! ## split_finders/threshold_finders/threshold_finder_variance.rs -/

/-- threshold_finder_variance.rs:7-10 `struct VarianceValueTrackerMultiTarget`. -/
structure Tracker (F : Type) where
  numberOfLabels : F
  metrics : LabelMetrics F
  deriving Repr, DecidableEq

/-- threshold_finder_variance.rs:166-180 `update_left_value_tracker`. -/
def updateLeftTracker (t : Tracker F) (labelVector : List F) (numberOfTargets : Nat) : R (Tracker F) := do
  let n := t.numberOfLabels +. F64.one
  let metrics ← forRange numberOfTargets (fun i (m : LabelMetrics F) => do
    let labelValue ← idx labelVector i
    let q ← idx m.sumOfSquaredLabels i
    let squares ← setIdx m.sumOfSquaredLabels i (q +. labelValue *. labelValue)
    let s ← idx m.sumOfLabels i
    let sums ← setIdx m.sumOfLabels i (s +. labelValue)
    let s' ← idx sums i
    let means ← setIdx m.meanOfLabels i (s' /. n)
    pure { sumOfLabels := sums, sumOfSquaredLabels := squares, meanOfLabels := means }) t.metrics
  pure { numberOfLabels := n, metrics := metrics }

/-- threshold_finder_variance.rs:182-197 `update_right_value_tracker`. -/
def updateRightTracker (t : Tracker F) (labelVector : List F) (numberOfTargets : Nat) : R (Tracker F) := do
  let n := t.numberOfLabels -. F64.one
  let metrics ← forRange numberOfTargets (fun i (m : LabelMetrics F) => do
    let labelValue ← idx labelVector i
    let q ← idx m.sumOfSquaredLabels i
    let squares ← setIdx m.sumOfSquaredLabels i (q -. labelValue *. labelValue)
    let s ← idx m.sumOfLabels i
    let sums ← setIdx m.sumOfLabels i (s -. labelValue)
    let s' ← idx sums i
    let means ← setIdx m.meanOfLabels i (s' /. n)
    pure { sumOfLabels := sums, sumOfSquaredLabels := squares, meanOfLabels := means }) t.metrics
  pure { numberOfLabels := n, metrics := metrics }

/-- The three mutable variables of the scan over the sorted feature values. -/
structure ScanState (F : Type) where
  best : BestThresholdResult F
  left : Tracker F
  right : Tracker F
  deriving Repr, DecidableEq

/-- threshold_finder_variance.rs:55-78 (and 132-155): the loss of the split "rows before this one / this row and the
rest", recorded when strictly smaller than the best so far. -/
def considerThreshold (s : ScanState F) (featureValue : F) (numberOfTargets : Nat) : R (ScanState F) := do
  let leftVariance ← calculateVarianceVector s.left.metrics s.left.numberOfLabels numberOfTargets
  let rightVariance ← calculateVarianceVector s.right.metrics s.right.numberOfLabels numberOfTargets
  let splitVariance ← calculateLossVector leftVariance rightVariance s.left.numberOfLabels s.right.numberOfLabels
  let splitVarianceSum := fsum splitVariance
  if splitVarianceSum <. s.best.loss then
    pure { s with best := { loss := splitVarianceSum, thresholdValue := featureValue } }
  else pure s

/-- threshold_finder_variance.rs:50-85 (and 127-162), the body of `for_each`.  `previousFeatureVal` is the captured variable
that the code never updates. -/
def scanStep (labels : List (List F)) (previousFeatureVal : F) (numberOfTargets : Nat)
    (s : ScanState F) (tuple : F × Nat) : R (ScanState F) := do
  let featureValue := tuple.1
  let s ← if !(featureValue ==. previousFeatureVal) then considerThreshold s featureValue numberOfTargets
    else pure s
  let labelVector ← idx labels tuple.2
  let left ← updateLeftTracker s.left labelVector numberOfTargets
  let right ← updateRightTracker s.right labelVector numberOfTargets
  pure { best := s.best, left := left, right := right }

/-- threshold_finder_variance.rs:19-46 (and 96-123), the initial values. -/
def initialScanState (numberOfLabels : Nat) (total : LabelMetrics F) (numberOfTargets : Nat) : ScanState F :=
  { best := { loss := F64.infinity, thresholdValue := F64.zero }
    left := {
      numberOfLabels := F64.zero
      metrics := {
        sumOfSquaredLabels := List.replicate numberOfTargets F64.zero
        sumOfLabels := List.replicate numberOfTargets F64.zero
        meanOfLabels := List.replicate numberOfTargets F64.zero } }
    right := {
      numberOfLabels := F64.ofNat numberOfLabels
      metrics := {
        sumOfSquaredLabels := total.sumOfSquaredLabels
        sumOfLabels := total.sumOfLabels
        meanOfLabels := total.meanOfLabels } } }

/-- threshold_finder_variance.rs:89-164 `determine_best_threshold_new`. -/
def determineBestThresholdNew (numberOfLabelsInSubset : Nat) (allLabels : List (List F))
    (featureColumn : List (F × Nat)) (total : LabelMetrics F) (numberOfTargets : Nat) :
    R (BestThresholdResult F) := do
  let previousFeatureVal := (← idx featureColumn 0).1
  let final ← featureColumn.foldlM (scanStep allLabels previousFeatureVal numberOfTargets)
    (initialScanState numberOfLabelsInSubset total numberOfTargets)
  pure final.best

/-- threshold_finder_variance.rs:12-87 `determine_best_threshold` (the same scan after sorting the column). -/
def determineBestThreshold (numberOfLabels : Nat) (labels : List (List F))
    (featureColumn : List F) (total : LabelMetrics F) (numberOfTargets : Nat) :
    R (BestThresholdResult F) := do
  let sortedFeatureData ← getSortedFeatureTupleVector featureColumn
  let previousFeatureVal := (← idx sortedFeatureData 0).1
  let final ← sortedFeatureData.foldlM (scanStep labels previousFeatureVal numberOfTargets)
    (initialScanState numberOfLabels total numberOfTargets)
  pure final.best

/-! ## split_finders/split_finder_variance.rs -/

/-- split_finder_variance.rs:113-124 `get_total_variance_sum`. -/
def getTotalVarianceSum (total : LabelMetrics F) (numberOfLabels : F) (numberOfTargets : Nat) : R F := do
  let v ← calculateVarianceVector total numberOfLabels numberOfTargets
  pure (fsum v)

/-- split_finder_variance.rs:45-53 (and 97-105): pick the first column with the strictly largest gain. -/
def selectBestColumn (numberOfCols : Nat) (totalVarianceSum : F) (results : List (BestThresholdResult F)) :
    R (BestSplitResult F) :=
  forRange numberOfCols (fun i (best : BestSplitResult F) => do
    let r ← idx results i
    let informationGain := totalVarianceSum -. r.loss
    if informationGain >. best.gain then
      pure { gain := informationGain, question := { column := castU32 i, value := r.thresholdValue } }
    else pure best)
    { gain := F64.zero, question := { column := 0, value := F64.zero } }

/-- split_finder_variance.rs:13-59 `find_best_split` (the `par_iter().map().collect()` by its result; its parallel
execution is in `Verif/Model/Par.lean`). -/
def findBestSplit (data : DataSet F) (numberOfTargets : Nat) : R (BestSplitResult F) := do
  let numberOfLabels := data.labels.length
  let total ← getLabelMetrics data.labels numberOfTargets
  let totalVarianceSum ← getTotalVarianceSum total (F64.ofNat numberOfLabels) numberOfTargets
  let numberOfCols := (← idx data.featureRows 0).length
  let results ← data.featureColumns.mapM (fun featureColumn =>
    determineBestThreshold numberOfLabels data.labels featureColumn total numberOfTargets)
  assertEq results.length numberOfCols
  selectBestColumn numberOfCols totalVarianceSum results

/-- split_finder_variance.rs:61-111 `find_best_split_new_partition`. -/
def findBestSplitNewPartition (data : SortedDataSet F) (allLabels : List (List F)) (numberOfTargets : Nat)
    (numberOfCols : Nat) : R (BestSplitResult F) := do
  let numberOfLabelsInSubset := data.labels.length
  let total ← getLabelMetrics data.labels numberOfTargets
  let totalVarianceSum ← getTotalVarianceSum total (F64.ofNat numberOfLabelsInSubset) numberOfTargets
  let results ← data.sortedFeatureColumns.mapM (fun featureColumn =>
    determineBestThresholdNew numberOfLabelsInSubset allLabels featureColumn total numberOfTargets)
  assertEq results.length numberOfCols
  selectBestColumn numberOfCols totalVarianceSum results

/-! ## utils/data_partitioner.rs -/

/-- The four vectors filled by the loop of `partition`. -/
structure PartitionAcc (F : Type) where
  trueRows : List (List F)
  falseRows : List (List F)
  trueLabels : List (List F)
  falseLabels : List (List F)

/-- utils/data_partitioner.rs:5-45 `partition`: returns `(false_data, true_data)`. -/
def partition (data : DataSet F) (question : Question F) : R (DataSet F × DataSet F) := do
  let acc ← (data.featureRows.zip data.labels).foldlM (fun (acc : PartitionAcc F) p => do
      if ← question.solve p.1 then
        pure { acc with trueRows := acc.trueRows ++ [p.1], trueLabels := acc.trueLabels ++ [p.2] }
      else
        pure { acc with falseRows := acc.falseRows ++ [p.1], falseLabels := acc.falseLabels ++ [p.2] })
    { trueRows := [], falseRows := [], trueLabels := [], falseLabels := [] }
  let falseColumns ← createFeatureColumns acc.falseRows
  let trueColumns ← createFeatureColumns acc.trueRows
  let falseData : DataSet F :=
    { featureRows := acc.falseRows, featureColumns := falseColumns, labels := acc.falseLabels }
  let trueData : DataSet F :=
    { featureRows := acc.trueRows, featureColumns := trueColumns, labels := acc.trueLabels }
  pure (falseData, trueData)

/-! ## tree/leaf.rs, tree/node.rs -/

/-- tree/leaf.rs:13-16 `struct RegressionLeaf`. -/
structure RegressionLeaf (F : Type) where
  data : Option (DataSet F)

/-- tree/leaf.rs:18-21 `struct RegressionLeafNewPartition`. -/
structure RegressionLeafNewPartition (F : Type) where
  data : Option (SortedDataSet F)

/-- tree/leaf.rs:23-26 `struct GradBoostLeaf`. -/
structure GradBoostLeaf (F : Type) where
  leafOutput : Option (List F)

/-- tree/leaf.rs:28-32 `struct AMGBoostLeaf`. -/
structure AMGBoostLeaf (F : Type) where
  maxValue : Option F
  cls : Option Nat

/-- tree/node.rs:6-11 `struct TreeNode<L>`: question, true branch, false branch, leaf. -/
inductive TreeNode (F L : Type) where
  | mk (question : Question F) (trueBranch : Option (TreeNode F L)) (falseBranch : Option (TreeNode F L))
      (leaf : Option L)

namespace TreeNode
variable {L : Type}

/-- tree/node.rs:7 field `question`. -/
def question : TreeNode F L → Question F
  | .mk q _ _ _ => q

/-- tree/node.rs:8 field `true_branch`. -/
def trueBranch : TreeNode F L → Option (TreeNode F L)
  | .mk _ t _ _ => t

/-- tree/node.rs:9 field `false_branch`. -/
def falseBranch : TreeNode F L → Option (TreeNode F L)
  | .mk _ _ f _ => f

/-- tree/node.rs:10 field `leaf`. -/
def leaf : TreeNode F L → Option L
  | .mk _ _ _ l => l

/-- tree/node.rs:14-25 `TreeNode::new`. -/
def new (q : Question F) (trueBranch falseBranch : TreeNode F L) : TreeNode F L :=
  .mk q (some trueBranch) (some falseBranch) none

/-- tree/node.rs:27-34 `TreeNode::leaf_node`. -/
def leafNode (q : Question F) (leaf : L) : TreeNode F L :=
  .mk q none none (some leaf)

/-- tree/node.rs:36-38 `is_leaf_node`. -/
def isLeafNode (n : TreeNode F L) : Bool :=
  n.trueBranch.isNone && n.falseBranch.isNone

end TreeNode

/-- utils/scorer.rs:140-152 `find_leaf_node_for_data` (the same code is in
multi-target-grad-boost/src/tree_traverse.rs:3-15). -/
def findLeafNodeForData {L : Type} (featureRow : List F) : TreeNode F L → R L
  | .mk q trueBranch falseBranch leaf =>
    if !(trueBranch.isNone && falseBranch.isNone) then do
      if ← q.solve featureRow then
        match trueBranch with
        | some t => findLeafNodeForData featureRow t
        | none => .error .unwrapNone
      else
        match falseBranch with
        | some f => findLeafNodeForData featureRow f
        | none => .error .unwrapNone
    else unwrap leaf

/-! ## tree/decision_trees.rs and tree/tree_builders -/

/-- tree/decision_trees.rs:13-18 `struct TreeConfig`.  `split_finder` is taken to be `SplitFinder::new(SplitMetric::Variance)`,
whose function pointer is `find_best_split` (split_finders/split_finder.rs:16-22), so the model calls `findBestSplit`
directly; `Verif/Model/Custom.lean` models a caller that overwrites this public field. -/
structure TreeConfig where
  useMultiThreading : Bool
  numberOfClasses : Nat
  maxLevels : Nat
  deriving Repr, DecidableEq

/-- The Rust recursion has no case for `current_level > max_levels`: it would run on (and `current_level + 1` finally overflow
`u32`).  All callers start at level 0 and stop at `current_level == max_levels`, so this is unreachable
(the `build..._fuel` equations in `Verif/Lemmas/Build.lean`, which do not mention it); the model reports it as overflow. -/
def levelOverrun {α : Type} : R α := .error .overflow

/-- tree_builders/regression_tree_builder.rs:15-39 `build_regression_tree`. -/
def buildRegressionTree (cfg : TreeConfig) (data : DataSet F) (currentLevel : Nat) :
    R (TreeNode F (RegressionLeaf F)) := do
  let splitResult ← findBestSplit data cfg.numberOfClasses
  if (splitResult.gain ==. F64.zero) || currentLevel == cfg.maxLevels then
    pure (TreeNode.leafNode splitResult.question { data := some data })
  else if _h : currentLevel < cfg.maxLevels then
    let partitionedData ← partition data splitResult.question
    let leftData := partitionedData.2
    let rightData := partitionedData.1
    let leftTree ← buildRegressionTree cfg leftData (currentLevel + 1)
    let rightTree ← buildRegressionTree cfg rightData (currentLevel + 1)
    pure (TreeNode.new splitResult.question leftTree rightTree)
  else levelOverrun
termination_by cfg.maxLevels - currentLevel

/-- tree_builders/regression_tree_builder.rs:41-77 `build_regression_tree_new_partition`. -/
def buildRegressionTreeNewPartition (cfg : TreeConfig) (allLabels : List (List F)) (data : SortedDataSet F)
    (currentLevel : Nat) : R (TreeNode F (RegressionLeafNewPartition F)) := do
  let numberOfCols := data.sortedFeatureColumns.length
  let numberOfTargets := castU32 (← idx data.labels 0).length
  let splitResult ← findBestSplitNewPartition data allLabels numberOfTargets numberOfCols
  if (splitResult.gain ==. F64.zero) || currentLevel == cfg.maxLevels then
    pure (TreeNode.leafNode splitResult.question { data := some data })
  else if _h : currentLevel < cfg.maxLevels then
    let partitionedData ←
      newPartition data splitResult.question.column splitResult.question.value allLabels
    let leftData := partitionedData.1
    let rightData := partitionedData.2
    let leftTree ← buildRegressionTreeNewPartition cfg allLabels leftData (currentLevel + 1)
    let rightTree ← buildRegressionTreeNewPartition cfg allLabels rightData (currentLevel + 1)
    pure (TreeNode.new splitResult.question leftTree rightTree)
  else levelOverrun
termination_by cfg.maxLevels - currentLevel

/-- `rayon::join(a, b)` by its result: both closures run, a panic of the first has priority (rayon documentation).  Its parallel
execution is in `Verif/Model/Par.lean`. -/
def join {α β : Type} (a : R α) (b : R β) : R (α × β) := do
  let x ← a
  let y ← b
  pure (x, y)

/-- tree_builders/regression_tree_builder.rs:79-117 `build_regression_tree_using_multiple_threads`. -/
def buildRegressionTreeMT (cfg : TreeConfig) (data : DataSet F) (currentLevel : Nat) :
    R (TreeNode F (RegressionLeaf F)) := do
  let splitResult ← findBestSplit data cfg.numberOfClasses
  if (splitResult.gain ==. F64.zero) || currentLevel == cfg.maxLevels then
    pure (TreeNode.leafNode splitResult.question { data := some data })
  else if _h : currentLevel < cfg.maxLevels then
    let partitionedData ← partition data splitResult.question
    let leftData := partitionedData.2
    let rightData := partitionedData.1
    let (leftTree, rightTree) ← join
      (buildRegressionTreeMT cfg leftData (currentLevel + 1))
      (buildRegressionTreeMT cfg rightData (currentLevel + 1))
    pure (TreeNode.new splitResult.question leftTree rightTree)
  else levelOverrun
termination_by cfg.maxLevels - currentLevel

/-- tree/decision_trees.rs:30-43 `RegressionMultiTargetDecisionTree::new` (the struct with its single field `root`
is identified with the root). -/
def regressionTreeNew (data : DataSet F) (cfg : TreeConfig) : R (TreeNode F (RegressionLeaf F)) :=
  match cfg.useMultiThreading with
  | true => buildRegressionTreeMT cfg data 0
  | false => buildRegressionTree cfg data 0

/-- tree/decision_trees.rs:45-57 `RegressionMultiTargetDecisionTreeNewPartition::new`. -/
def regressionTreeNewPartitionNew (data : SortedDataSet F) (cfg : TreeConfig) :
    R (TreeNode F (RegressionLeafNewPartition F)) :=
  buildRegressionTreeNewPartition cfg data.labels data 0

/-! ## tree/tree_builders/grad_boost -/

/-- grad_boost/grad_boost_leaf_output.rs:10-13 `enum LeafOutputType`. -/
inductive LeafOutputType where
  | regression
  | multiClassClassification
  deriving DecidableEq, Repr

/-- grad_boost/grad_boost_leaf_output.rs:34-37 `calculate_leaf_output_squared_loss`. -/
def calculateLeafOutputSquaredLoss (leafData : DataSet F) : R (List F) :=
  calculateAverageVector leafData.labels

/-- grad_boost/grad_boost_leaf_output.rs:49-63 `calculate_denominator_term_for_leaf_output`. -/
def calculateDenominatorTerm (vv : List (List F)) : R (List F) := do
  let innerLength := (← idx vv 0).length
  vv.foldlM (fun sumVector inner => do
    let term := inner.map (fun element =>
      let elementAbs := F64.abs element
      elementAbs *. (F64.one -. elementAbs))
    addSlices sumVector term) (List.replicate innerLength F64.zero)

/-- grad_boost/grad_boost_leaf_output.rs:39-47 `calculate_leaf_output_multi_class_loss`. -/
def calculateLeafOutputMultiClassLoss (leafData : DataSet F) : R (List F) := do
  let numerator ← sumOfVectors leafData.labels
  let denominator ← calculateDenominatorTerm leafData.labels
  let numeratorOverDenominator ← divideSlices numerator denominator
  let numberOfClasses : F := F64.ofNat (← idx leafData.labels 0).length
  let scalar := (numberOfClasses -. F64.one) /. numberOfClasses
  pure (multiplyByScalar scalar numeratorOverDenominator)

/-- grad_boost/grad_boost_leaf_output.rs:22-32 `LeafOutputCalculator::new`: the function pointer. -/
def LeafOutputType.calculate : LeafOutputType → DataSet F → R (List F)
  | .regression => calculateLeafOutputSquaredLoss
  | .multiClassClassification => calculateLeafOutputMultiClassLoss

/-- grad_boost/grad_boost_tree_builder.rs:8-46 `build_grad_boost_regression_tree`. -/
def buildGradBoostTree (cfg : TreeConfig) (leafCalc : LeafOutputType) (data : DataSet F) (currentLevel : Nat) :
    R (TreeNode F (GradBoostLeaf F)) := do
  let splitResult ← findBestSplit data cfg.numberOfClasses
  if (splitResult.gain ==. F64.zero) || currentLevel == cfg.maxLevels then
    let leafOutput ← leafCalc.calculate data
    pure (TreeNode.leafNode splitResult.question { leafOutput := some leafOutput })
  else if _h : currentLevel < cfg.maxLevels then
    let partitionedData ← partition data splitResult.question
    let leftData := partitionedData.2
    let rightData := partitionedData.1
    let leftTree ← buildGradBoostTree cfg leafCalc leftData (currentLevel + 1)
    let rightTree ← buildGradBoostTree cfg leafCalc rightData (currentLevel + 1)
    pure (TreeNode.new splitResult.question leftTree rightTree)
  else levelOverrun
termination_by cfg.maxLevels - currentLevel

/-- grad_boost/grad_boost_tree_builder.rs:48-92 `build_grad_boost_regression_tree_using_multiple_threads`. -/
def buildGradBoostTreeMT (cfg : TreeConfig) (leafCalc : LeafOutputType) (data : DataSet F) (currentLevel : Nat) :
    R (TreeNode F (GradBoostLeaf F)) := do
  let splitResult ← findBestSplit data cfg.numberOfClasses
  if (splitResult.gain ==. F64.zero) || currentLevel == cfg.maxLevels then
    let leafOutput ← leafCalc.calculate data
    pure (TreeNode.leafNode splitResult.question { leafOutput := some leafOutput })
  else if _h : currentLevel < cfg.maxLevels then
    let partitionedData ← partition data splitResult.question
    let leftData := partitionedData.2
    let rightData := partitionedData.1
    let (leftTree, rightTree) ← join
      (buildGradBoostTreeMT cfg leafCalc leftData (currentLevel + 1))
      (buildGradBoostTreeMT cfg leafCalc rightData (currentLevel + 1))
    pure (TreeNode.new splitResult.question leftTree rightTree)
  else levelOverrun
termination_by cfg.maxLevels - currentLevel

/-- tree/grad_boost_decision_trees.rs:23-48 `GradBoostMultiTargetDecisionTree::new`. -/
def gradBoostTreeNew (data : DataSet F) (cfg : TreeConfig) (leafCalc : LeafOutputType) :
    R (TreeNode F (GradBoostLeaf F)) :=
  match cfg.useMultiThreading with
  | true => buildGradBoostTreeMT cfg leafCalc data 0
  | false => buildGradBoostTree cfg leafCalc data 0

/-- grad_boost/approximate_grad_boost_tree_builder.rs:97-107 `find_max_value_and_index_from_vector`: returns
`(max_seen, max_index)`. -/
def findMaxValueAndIndex (numbers : List F) : F × Nat :=
  numbers.zipIdx.foldl (fun (acc : F × Nat) p => if p.1 >. acc.1 then (p.1, p.2) else acc)
    (F64.negInfinity, 0)

/-- grad_boost/approximate_grad_boost_tree_builder.rs:7-47 `build_approximate_grad_boost_regression_tree`. -/
def buildAmgTree (cfg : TreeConfig) (leafCalc : LeafOutputType) (data : DataSet F) (currentLevel : Nat) :
    R (TreeNode F (AMGBoostLeaf F)) := do
  let splitResult ← findBestSplit data cfg.numberOfClasses
  if (splitResult.gain ==. F64.zero) || currentLevel == cfg.maxLevels then
    let leafOutput ← leafCalc.calculate data
    let (maxValue, cls) := findMaxValueAndIndex leafOutput
    pure (TreeNode.leafNode splitResult.question { maxValue := some maxValue, cls := some cls })
  else if _h : currentLevel < cfg.maxLevels then
    let partitionedData ← partition data splitResult.question
    let leftData := partitionedData.2
    let rightData := partitionedData.1
    let leftTree ← buildAmgTree cfg leafCalc leftData (currentLevel + 1)
    let rightTree ← buildAmgTree cfg leafCalc rightData (currentLevel + 1)
    pure (TreeNode.new splitResult.question leftTree rightTree)
  else levelOverrun
termination_by cfg.maxLevels - currentLevel

/-- grad_boost/approximate_grad_boost_tree_builder.rs:49-95
`build_approximate_grad_boost_regression_tree_using_multiple_threads`. -/
def buildAmgTreeMT (cfg : TreeConfig) (leafCalc : LeafOutputType) (data : DataSet F) (currentLevel : Nat) :
    R (TreeNode F (AMGBoostLeaf F)) := do
  let splitResult ← findBestSplit data cfg.numberOfClasses
  if (splitResult.gain ==. F64.zero) || currentLevel == cfg.maxLevels then
    let leafOutput ← leafCalc.calculate data
    let (maxValue, cls) := findMaxValueAndIndex leafOutput
    pure (TreeNode.leafNode splitResult.question { maxValue := some maxValue, cls := some cls })
  else if _h : currentLevel < cfg.maxLevels then
    let partitionedData ← partition data splitResult.question
    let leftData := partitionedData.2
    let rightData := partitionedData.1
    let (leftTree, rightTree) ← join
      (buildAmgTreeMT cfg leafCalc leftData (currentLevel + 1))
      (buildAmgTreeMT cfg leafCalc rightData (currentLevel + 1))
    pure (TreeNode.new splitResult.question leftTree rightTree)
  else levelOverrun
termination_by cfg.maxLevels - currentLevel

/-- tree/grad_boost_decision_trees.rs:56-81 `AMGBoostTree::new`. -/
def amgTreeNew (data : DataSet F) (cfg : TreeConfig) (leafCalc : LeafOutputType) :
    R (TreeNode F (AMGBoostLeaf F)) :=
  match cfg.useMultiThreading with
  | true => buildAmgTreeMT cfg leafCalc data 0
  | false => buildAmgTree cfg leafCalc data 0

/-! ## utils/scorer.rs, utils/class_counter.rs -/

/-- utils/scorer.rs:49-62 `get_class_counts_multi_target` with utils/class_counter.rs:6-12 (`counts : Vec<u32>`). -/
def getClassCounts (labels : List (List F)) (numberOfClasses : Nat) : R (List Nat) :=
  labels.foldlM (fun counts labelVector =>
    forRange labelVector.length (fun i counts => do
      if (← idx labelVector i) ==. F64.one then
        let c ← idx counts i
        setIdx counts i (← incrU32 c)
      else pure counts) counts)
    (List.replicate numberOfClasses 0)

/-- utils/scorer.rs:29-47 `predict_class` (the class index is an `f64` in the code, kept here). -/
def predictClass (featureRow : List F) (node : TreeNode F (RegressionLeaf F)) : R (List F) := do
  let leaf ← findLeafNodeForData featureRow node
  let labels := (← unwrap leaf.data).labels
  let numberOfClasses := (← idx labels 0).length
  let counts ← getClassCounts labels numberOfClasses
  let (_, maxClass, _) := counts.foldl (fun (acc : Nat × F × F) count =>
      let (max, maxClass, index) := acc
      let (max, maxClass) := if count > max then (count, index) else (max, maxClass)
      (max, maxClass, index +. F64.one)) (0, F64.zero, F64.zero)
  setIdx (List.replicate numberOfClasses F64.zero) (F64.toUsize maxClass) F64.one

/-- utils/scorer.rs:11-27 `classification::calculate_accuracy`. -/
def calculateAccuracy (testData : DataSet F) (treeRoot : TreeNode F (RegressionLeaf F)) : R F := do
  let accuracy ← forRange testData.featureRows.length (fun i (accuracy : F) => do
    let prediction ← predictClass (← idx testData.featureRows i) treeRoot
    let actual ← idx testData.labels i
    if vecEq prediction actual then pure (accuracy +. F64.one) else pure accuracy) F64.zero
  pure (accuracy /. F64.ofNat testData.featureRows.length)

/-- utils/scorer.rs:112-125 `calculate_average_label_vector` on the labels (and 93-104, the same loop inlined for sorted data
sets). -/
def calculateAverageLabelVector (labels : List (List F)) : R (List F) := do
  let labelLength := (← idx labels 0).length
  let average ← forRange labels.length (fun i average =>
    forRange labelLength (fun j average => do
      let cur ← idx average j
      let x ← idx (← idx labels i) j
      setIdx average j (cur +. x)) average)
    (List.replicate labelLength F64.zero)
  forRange labelLength (fun j average => do
    let cur ← idx average j
    setIdx average j (cur /. F64.ofNat labels.length)) average

/-- utils/scorer.rs:127-137 `mean_sum_of_squared_differences_between_vectors`. -/
def meanSumOfSquaredDifferencesVectors (prediction actual : List F) : R F := do
  let s ← forRange prediction.length (fun i (s : F) => do
    let error := (← idx prediction i) -. (← idx actual i)
    pure (s +. square error)) F64.zero
  pure (s /. F64.ofNat prediction.length)

/-- utils/scorer.rs:70-82 `regression::calculate_overall_mean_squared_error`. -/
def calculateOverallMse (testData : DataSet F) (treeRoot : TreeNode F (RegressionLeaf F)) : R F := do
  let total ← forRange testData.featureRows.length (fun i (total : F) => do
    let leaf ← findLeafNodeForData (← idx testData.featureRows i) treeRoot
    let prediction ← calculateAverageLabelVector (← unwrap leaf.data).labels
    let actual ← idx testData.labels i
    let e ← meanSumOfSquaredDifferencesVectors prediction actual
    pure (total +. e)) F64.zero
  pure (total /. F64.ofNat testData.featureRows.length)

/-- utils/scorer.rs:84-110 `regression::calculate_overall_mean_squared_error_new_partition`. -/
def calculateOverallMseNewPartition (testData : DataSet F)
    (treeRoot : TreeNode F (RegressionLeafNewPartition F)) : R F := do
  let total ← forRange testData.featureRows.length (fun i (total : F) => do
    let leaf ← findLeafNodeForData (← idx testData.featureRows i) treeRoot
    let prediction ← calculateAverageLabelVector (← unwrap leaf.data).labels
    let actual ← idx testData.labels i
    let e ← meanSumOfSquaredDifferencesVectors prediction actual
    pure (total +. e)) F64.zero
  pure (total /. F64.ofNat testData.featureRows.length)

/-! ## tree/tree_print.rs -/

/-- The lines written by `print_tree_regression`.  Formatting of numbers and of `Debug` output is left to the reader:
a line keeps what is formatted. -/
inductive PrintLine (F : Type) where
  /-- tree_print.rs:10 `println!("{} Predict:{:?}", spacing, leaf_ref.data)` -/
  | predict (spacing : String) (data : Option (DataSet F))
  /-- tree_print.rs:13-21 `println!("{} {:?}", spacing, "Is {name} >= {value}")`, question.rs:19-21 -/
  | question (spacing : String) (featureName : String) (value : F)
  /-- tree_print.rs:22 -/
  | trueMarker (spacing : String)
  /-- tree_print.rs:29 -/
  | falseMarker (spacing : String)

/-- tree/tree_print.rs:3-35 `print_tree_regression`: the lines printed, or a panic (for the lines printed before a panic
see `printTreeOut` in `Verif/Model/Output.lean`). -/
def printTreeRegression (featureNames : List String) :
    TreeNode F (RegressionLeaf F) → String → R (List (PrintLine F))
  | .mk q trueBranch falseBranch leaf, spacing =>
    match leaf with
    | some l => .ok [.predict spacing l.data]
    | none => do
      let name ← idx featureNames q.column
      let t ← match trueBranch with
        | some t => printTreeRegression featureNames t (spacing ++ "    ")
        | none => .error .unwrapNone
      let f ← match falseBranch with
        | some f => printTreeRegression featureNames f (spacing ++ "    ")
        | none => .error .unwrapNone
      pure ([.question spacing name q.value, .trueMarker spacing] ++ t ++ [.falseMarker spacing] ++ f)

end Verif
