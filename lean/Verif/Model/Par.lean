import Verif.Model.Boost
/-!
# Parallel execution

`rayon::join` and `par_iter().map(f).collect()` as programs with a nondeterministic small-step semantics.  Every interleaving
of the steps of the two sides of a `join`, and every way rayon may split a parallel iterator, is an execution.  The jobs share
no mutable memory (the closures capture `&` references and moved values; Rust's borrow checker enforces it), so a job's
sequential code is one step-free computation.
-/

namespace Verif

/-- A program built from rayon's `join` and parallel map. -/
inductive Job : Type → Type 1 where
  /-- finished with a value or a panic -/
  | done {α : Type} (r : R α) : Job α
  /-- `rayon::join(l, r)`, then `k` with both results -/
  | fork {α β γ : Type} (l : Job β) (r : Job γ) (k : β → γ → Job α) : Job α
  /-- `xs.par_iter().map(f).collect::<Vec<_>>()`, then `k` with the collected vector -/
  | pmap {α β γ : Type} (xs : List β) (f : β → Job γ) (k : List γ → Job α) : Job α

namespace Job

/-- Sequential composition. -/
def bind {α β : Type} : Job α → (α → Job β) → Job β
  | .done (.ok a), k => k a
  | .done (.error e), _ => .done (.error e)
  | .fork l r k', k => .fork l r (fun a b => bind (k' a b) k)
  | .pmap xs f k', k => .pmap xs f (fun ys => bind (k' ys) k)

/-- Sequential code that returns or panics. -/
def lift {α : Type} (r : R α) : Job α := .done r

/-- A value. -/
def ret {α : Type} (a : α) : Job α := .done (.ok a)

/-- The elements of a parallel iterator processed by one worker, in order. -/
def seqMap {β γ : Type} (f : β → Job γ) : List β → Job (List γ)
  | [] => ret []
  | x :: xs => bind (f x) (fun y => bind (seqMap f xs) (fun ys => ret (y :: ys)))

/-- One step of some worker. -/
inductive Step : {α : Type} → Job α → Job α → Prop where
  /-- a step of the first closure of a `join` -/
  | left {α β γ : Type} {l l' : Job β} {r : Job γ} {k : β → γ → Job α} :
      Step l l' → Step (.fork l r k) (.fork l' r k)
  /-- a step of the second closure of a `join` -/
  | right {α β γ : Type} {l : Job β} {r r' : Job γ} {k : β → γ → Job α} :
      Step r r' → Step (.fork l r k) (.fork l r' k)
  /-- both closures returned -/
  | joinOk {α β γ : Type} {a : β} {b : γ} {k : β → γ → Job α} :
      Step (.fork (.done (.ok a)) (.done (.ok b)) k) (k a b)
  /-- the first closure panicked: after the second has finished, its panic is propagated (rayon-core `join`) -/
  | joinPanicLeft {α β γ : Type} {e : Panic} {r : R γ} {k : β → γ → Job α} :
      Step (.fork (.done (.error e)) (.done r) k) (.done (.error e))
  /-- only the second closure panicked -/
  | joinPanicRight {α β γ : Type} {a : β} {e : Panic} {k : β → γ → Job α} :
      Step (.fork (.done (.ok a)) (.done (.error e)) k) (.done (.error e))
  /-- rayon splits a parallel iterator anywhere and joins the halves, concatenating the results -/
  | split {α β γ : Type} {xs ys : List β} {f : β → Job γ} {k : List γ → Job α} :
      xs ≠ [] → ys ≠ [] →
      Step (.pmap (xs ++ ys) f k) (.fork (.pmap xs f ret) (.pmap ys f ret) (fun a b => k (a ++ b)))
  /-- rayon decides not to split: one worker processes the elements in order -/
  | sequential {α β γ : Type} {xs : List β} {f : β → Job γ} {k : List γ → Job α} :
      Step (.pmap xs f k) (bind (seqMap f xs) k)

/-- Any number of steps: a schedule. -/
inductive Steps : {α : Type} → Job α → Job α → Prop where
  | refl {α : Type} {t : Job α} : Steps t t
  | step {α : Type} {t t' t'' : Job α} : Step t t' → Steps t' t'' → Steps t t''

end Job

/-! ## The parallel program fragments of /repo -/

section
variable {F : Type} [F64 F]
open Job

/-- split_finder_variance.rs:13-59 `find_best_split` with its `par_iter` (lines 29-41). -/
def findBestSplitTask (data : DataSet F) (numberOfTargets : Nat) : Job (BestSplitResult F) :=
  let numberOfLabels := data.labels.length
  bind (lift (getLabelMetrics data.labels numberOfTargets)) fun total =>
  bind (lift (getTotalVarianceSum total (F64.ofNat numberOfLabels) numberOfTargets)) fun totalVarianceSum =>
  bind (lift (idx data.featureRows 0)) fun first =>
  let numberOfCols := first.length
  .pmap data.featureColumns
    (fun featureColumn =>
      lift (determineBestThreshold numberOfLabels data.labels featureColumn total numberOfTargets))
    fun results =>
  bind (lift (assertEq results.length numberOfCols)) fun _ =>
  lift (selectBestColumn numberOfCols totalVarianceSum results)

/-- split_finder_variance.rs:61-111 `find_best_split_new_partition` with its `par_iter` (lines 81-93). -/
def findBestSplitNewPartitionTask (data : SortedDataSet F) (allLabels : List (List F)) (numberOfTargets : Nat)
    (numberOfCols : Nat) : Job (BestSplitResult F) :=
  let numberOfLabelsInSubset := data.labels.length
  bind (lift (getLabelMetrics data.labels numberOfTargets)) fun total =>
  bind (lift (getTotalVarianceSum total (F64.ofNat numberOfLabelsInSubset) numberOfTargets)) fun totalVarianceSum =>
  .pmap data.sortedFeatureColumns
    (fun featureColumn =>
      lift (determineBestThresholdNew numberOfLabelsInSubset allLabels featureColumn total numberOfTargets))
    fun results =>
  bind (lift (assertEq results.length numberOfCols)) fun _ =>
  lift (selectBestColumn numberOfCols totalVarianceSum results)

/-- common/src/data_processor.rs:26-59 `new_partition` with the `par_iter` of `collect_partitioned_feature_columns`
(lines 118-135). -/
def newPartitionTask (dataset : SortedDataSet F) (splitColumn : Nat) (splitValue : F) (allLabels : List (List F)) :
    Job (SortedDataSet F × SortedDataSet F) :=
  bind (lift (collectIndicesForPartitioning dataset splitColumn splitValue allLabels.length)) fun indices =>
  bind (lift (collectPartitionedLabels indices.1 indices.2 allLabels)) fun labels =>
  .pmap dataset.sortedFeatureColumns (fun column => lift (splitSortedColumn indices.1 column)) fun pairs =>
  ret ({ labels := labels.1, sortedFeatureColumns := pairs.map Prod.fst },
       { labels := labels.2, sortedFeatureColumns := pairs.map Prod.snd })

/-- regression_tree_builder.rs:15-39 `build_regression_tree` (its only parallelism is inside the split finder). -/
def buildRegressionTreeTask (cfg : TreeConfig) (data : DataSet F) (currentLevel : Nat) :
    Job (TreeNode F (RegressionLeaf F)) :=
  bind (findBestSplitTask data cfg.numberOfClasses) fun splitResult =>
  if (splitResult.gain ==. F64.zero) || currentLevel == cfg.maxLevels then
    ret (TreeNode.leafNode splitResult.question { data := some data })
  else if _h : currentLevel < cfg.maxLevels then
    bind (lift (partition data splitResult.question)) fun partitionedData =>
    bind (buildRegressionTreeTask cfg partitionedData.2 (currentLevel + 1)) fun leftTree =>
    bind (buildRegressionTreeTask cfg partitionedData.1 (currentLevel + 1)) fun rightTree =>
    ret (TreeNode.new splitResult.question leftTree rightTree)
  else lift levelOverrun
termination_by cfg.maxLevels - currentLevel

/-- regression_tree_builder.rs:79-117 `build_regression_tree_using_multiple_threads` with its `rayon::join`. -/
def buildRegressionTreeMTTask (cfg : TreeConfig) (data : DataSet F) (currentLevel : Nat) :
    Job (TreeNode F (RegressionLeaf F)) :=
  bind (findBestSplitTask data cfg.numberOfClasses) fun splitResult =>
  if (splitResult.gain ==. F64.zero) || currentLevel == cfg.maxLevels then
    ret (TreeNode.leafNode splitResult.question { data := some data })
  else if _h : currentLevel < cfg.maxLevels then
    bind (lift (partition data splitResult.question)) fun partitionedData =>
    .fork
      (buildRegressionTreeMTTask cfg partitionedData.2 (currentLevel + 1))
      (buildRegressionTreeMTTask cfg partitionedData.1 (currentLevel + 1))
      fun leftTree rightTree => ret (TreeNode.new splitResult.question leftTree rightTree)
  else lift levelOverrun
termination_by cfg.maxLevels - currentLevel

/-- decision_trees.rs:30-43 `RegressionMultiTargetDecisionTree::new`. -/
def regressionTreeNewTask (data : DataSet F) (cfg : TreeConfig) : Job (TreeNode F (RegressionLeaf F)) :=
  match cfg.useMultiThreading with
  | true => buildRegressionTreeMTTask cfg data 0
  | false => buildRegressionTreeTask cfg data 0

/-- regression_tree_builder.rs:41-77 `build_regression_tree_new_partition`. -/
def buildRegressionTreeNewPartitionTask (cfg : TreeConfig) (allLabels : List (List F)) (data : SortedDataSet F)
    (currentLevel : Nat) : Job (TreeNode F (RegressionLeafNewPartition F)) :=
  let numberOfCols := data.sortedFeatureColumns.length
  bind (lift (idx data.labels 0)) fun firstLabel =>
  let numberOfTargets := castU32 firstLabel.length
  bind (findBestSplitNewPartitionTask data allLabels numberOfTargets numberOfCols) fun splitResult =>
  if (splitResult.gain ==. F64.zero) || currentLevel == cfg.maxLevels then
    ret (TreeNode.leafNode splitResult.question { data := some data })
  else if _h : currentLevel < cfg.maxLevels then
    bind (newPartitionTask data splitResult.question.column splitResult.question.value allLabels) fun partitionedData =>
    bind (buildRegressionTreeNewPartitionTask cfg allLabels partitionedData.1 (currentLevel + 1)) fun leftTree =>
    bind (buildRegressionTreeNewPartitionTask cfg allLabels partitionedData.2 (currentLevel + 1)) fun rightTree =>
    ret (TreeNode.new splitResult.question leftTree rightTree)
  else lift levelOverrun
termination_by cfg.maxLevels - currentLevel

/-- decision_trees.rs:45-57 `RegressionMultiTargetDecisionTreeNewPartition::new`. -/
def regressionTreeNewPartitionNewTask (data : SortedDataSet F) (cfg : TreeConfig) :
    Job (TreeNode F (RegressionLeafNewPartition F)) :=
  buildRegressionTreeNewPartitionTask cfg data.labels data 0

/-- grad_boost_tree_builder.rs:8-46 `build_grad_boost_regression_tree`. -/
def buildGradBoostTreeTask (cfg : TreeConfig) (leafCalc : LeafOutputType) (data : DataSet F) (currentLevel : Nat) :
    Job (TreeNode F (GradBoostLeaf F)) :=
  bind (findBestSplitTask data cfg.numberOfClasses) fun splitResult =>
  if (splitResult.gain ==. F64.zero) || currentLevel == cfg.maxLevels then
    bind (lift (leafCalc.calculate data)) fun leafOutput =>
    ret (TreeNode.leafNode splitResult.question { leafOutput := some leafOutput })
  else if _h : currentLevel < cfg.maxLevels then
    bind (lift (partition data splitResult.question)) fun partitionedData =>
    bind (buildGradBoostTreeTask cfg leafCalc partitionedData.2 (currentLevel + 1)) fun leftTree =>
    bind (buildGradBoostTreeTask cfg leafCalc partitionedData.1 (currentLevel + 1)) fun rightTree =>
    ret (TreeNode.new splitResult.question leftTree rightTree)
  else lift levelOverrun
termination_by cfg.maxLevels - currentLevel

/-- grad_boost_tree_builder.rs:48-92 `build_grad_boost_regression_tree_using_multiple_threads`. -/
def buildGradBoostTreeMTTask (cfg : TreeConfig) (leafCalc : LeafOutputType) (data : DataSet F) (currentLevel : Nat) :
    Job (TreeNode F (GradBoostLeaf F)) :=
  bind (findBestSplitTask data cfg.numberOfClasses) fun splitResult =>
  if (splitResult.gain ==. F64.zero) || currentLevel == cfg.maxLevels then
    bind (lift (leafCalc.calculate data)) fun leafOutput =>
    ret (TreeNode.leafNode splitResult.question { leafOutput := some leafOutput })
  else if _h : currentLevel < cfg.maxLevels then
    bind (lift (partition data splitResult.question)) fun partitionedData =>
    .fork
      (buildGradBoostTreeMTTask cfg leafCalc partitionedData.2 (currentLevel + 1))
      (buildGradBoostTreeMTTask cfg leafCalc partitionedData.1 (currentLevel + 1))
      fun leftTree rightTree => ret (TreeNode.new splitResult.question leftTree rightTree)
  else lift levelOverrun
termination_by cfg.maxLevels - currentLevel

/-- grad_boost_decision_trees.rs:23-48 `GradBoostMultiTargetDecisionTree::new`. -/
def gradBoostTreeNewTask (data : DataSet F) (cfg : TreeConfig) (leafCalc : LeafOutputType) :
    Job (TreeNode F (GradBoostLeaf F)) :=
  match cfg.useMultiThreading with
  | true => buildGradBoostTreeMTTask cfg leafCalc data 0
  | false => buildGradBoostTreeTask cfg leafCalc data 0

/-- approximate_grad_boost_tree_builder.rs:7-47 `build_approximate_grad_boost_regression_tree`. -/
def buildAmgTreeTask (cfg : TreeConfig) (leafCalc : LeafOutputType) (data : DataSet F) (currentLevel : Nat) :
    Job (TreeNode F (AMGBoostLeaf F)) :=
  bind (findBestSplitTask data cfg.numberOfClasses) fun splitResult =>
  if (splitResult.gain ==. F64.zero) || currentLevel == cfg.maxLevels then
    bind (lift (leafCalc.calculate data)) fun leafOutput =>
    ret (TreeNode.leafNode splitResult.question
      { maxValue := some (findMaxValueAndIndex leafOutput).1, cls := some (findMaxValueAndIndex leafOutput).2 })
  else if _h : currentLevel < cfg.maxLevels then
    bind (lift (partition data splitResult.question)) fun partitionedData =>
    bind (buildAmgTreeTask cfg leafCalc partitionedData.2 (currentLevel + 1)) fun leftTree =>
    bind (buildAmgTreeTask cfg leafCalc partitionedData.1 (currentLevel + 1)) fun rightTree =>
    ret (TreeNode.new splitResult.question leftTree rightTree)
  else lift levelOverrun
termination_by cfg.maxLevels - currentLevel

/-- approximate_grad_boost_tree_builder.rs:49-95
`build_approximate_grad_boost_regression_tree_using_multiple_threads`. -/
def buildAmgTreeMTTask (cfg : TreeConfig) (leafCalc : LeafOutputType) (data : DataSet F) (currentLevel : Nat) :
    Job (TreeNode F (AMGBoostLeaf F)) :=
  bind (findBestSplitTask data cfg.numberOfClasses) fun splitResult =>
  if (splitResult.gain ==. F64.zero) || currentLevel == cfg.maxLevels then
    bind (lift (leafCalc.calculate data)) fun leafOutput =>
    ret (TreeNode.leafNode splitResult.question
      { maxValue := some (findMaxValueAndIndex leafOutput).1, cls := some (findMaxValueAndIndex leafOutput).2 })
  else if _h : currentLevel < cfg.maxLevels then
    bind (lift (partition data splitResult.question)) fun partitionedData =>
    .fork
      (buildAmgTreeMTTask cfg leafCalc partitionedData.2 (currentLevel + 1))
      (buildAmgTreeMTTask cfg leafCalc partitionedData.1 (currentLevel + 1))
      fun leftTree rightTree => ret (TreeNode.new splitResult.question leftTree rightTree)
  else lift levelOverrun
termination_by cfg.maxLevels - currentLevel

/-- grad_boost_decision_trees.rs:56-81 `AMGBoostTree::new`. -/
def amgTreeNewTask (data : DataSet F) (cfg : TreeConfig) (leafCalc : LeafOutputType) :
    Job (TreeNode F (AMGBoostLeaf F)) :=
  match cfg.useMultiThreading with
  | true => buildAmgTreeMTTask cfg leafCalc data 0
  | false => buildAmgTreeTask cfg leafCalc data 0

/-- regression_boost_executor_functions.rs:42-54 `calculate_residuals` with its `par_iter`. -/
def regressionResidualsTask (t : TrainingData F) : Job (List (List F)) :=
  .pmap (List.range t.size) (fun i => lift (do
    let trueLabel ← idx t.data.labels i
    let currentLabel ← idx t.mutableLabels i
    subtractSlices trueLabel currentLabel)) ret

/-- common_multi_class_boosting_functions.rs:44-58 `calculate_residuals` with its `par_iter`. -/
def multiClassResidualsTask (t : TrainingData F) : Job (List (List F)) :=
  .pmap (List.range t.size) (fun i => lift (do
    let trueLabel ← idx t.data.labels i
    let currentLabel ← idx t.mutableLabels i
    subtractSlices trueLabel (calculateProbabilities currentLabel))) ret

/-- `for _i in 0..n { s = body(s) }` around parallel code. -/
def loopTask {σ : Type} (body : σ → Job σ) : Nat → σ → Job σ
  | 0, s => ret s
  | n + 1, s => bind (body s) (loopTask body n)

/-- regression_boost_executor_functions.rs:27-37, one iteration. -/
def regressionIterationTask (cfg : TreeConfig) (learningRate : F)
    (s : TrainingData F × List (TreeNode F (GradBoostLeaf F))) :
    Job (TrainingData F × List (TreeNode F (GradBoostLeaf F))) :=
  bind (regressionResidualsTask s.1) fun residuals =>
  bind (gradBoostTreeNewTask { s.1.data with labels := residuals } cfg .regression) fun residualTree =>
  bind (lift (updateDatasetLabels s.1 residualTree learningRate)) fun t =>
  ret (t, s.2 ++ [residualTree])

/-- multi_class_boost_executor_functions.rs:27-37, one iteration. -/
def multiClassIterationTask (cfg : TreeConfig) (learningRate : F)
    (s : TrainingData F × List (TreeNode F (GradBoostLeaf F))) :
    Job (TrainingData F × List (TreeNode F (GradBoostLeaf F))) :=
  bind (multiClassResidualsTask s.1) fun residuals =>
  bind (gradBoostTreeNewTask { s.1.data with labels := residuals } cfg .multiClassClassification) fun residualTree =>
  bind (lift (updateDatasetLabels s.1 residualTree learningRate)) fun t =>
  ret (t, s.2 ++ [residualTree])

/-- amg_boost_executor_functions.rs:28-34, one iteration. -/
def amgIterationTask (cfg : TreeConfig) (learningRate : F)
    (s : TrainingData F × List (TreeNode F (AMGBoostLeaf F))) :
    Job (TrainingData F × List (TreeNode F (AMGBoostLeaf F))) :=
  bind (multiClassResidualsTask s.1) fun residuals =>
  bind (amgTreeNewTask { s.1.data with labels := residuals } cfg .multiClassClassification) fun residualTree =>
  bind (lift (amgUpdateDatasetLabels s.1 residualTree learningRate)) fun t =>
  ret (t, s.2 ++ [residualTree])

/-- boosting_loop.rs:11-38 `boosting_loop` around a parallel iteration. -/
def boostingLoopTask {L : Type} (data : DataSet F) (numberOfIterations : Nat) (learningRate : F)
    (ensembleType : BoostingEnsembleType)
    (iteration : TrainingData F × List (TreeNode F L) → Job (TrainingData F × List (TreeNode F L))) :
    Job (BoostModel F L) :=
  let trainingData : TrainingData F := { data := data, mutableLabels := data.labels, size := data.labels.length }
  bind (lift (determineInitialGuess trainingData ensembleType)) fun initialGuess =>
  bind (lift (updateLabelsWithInitialGuess trainingData.mutableLabels initialGuess)) fun mutableLabels =>
  bind (loopTask iteration numberOfIterations ({ trainingData with mutableLabels := mutableLabels }, []))
    fun final =>
  ret { trees := final.2, initialGuess := initialGuess, learningRate := learningRate }

/-- regression_boost_ensemble.rs:19-41 `RegressionBoostModel::train`. -/
def regressionTrainTask (data : DataSet F) (cfg : TreeConfig) (n : Nat) (lr : F) :
    Job (BoostModel F (GradBoostLeaf F)) :=
  boostingLoopTask data n lr .regressionBoost (regressionIterationTask cfg lr)

/-- multi_class_boost_ensemble.rs:19-41 `MultiClassBoostModel::train`. -/
def multiClassTrainTask (data : DataSet F) (cfg : TreeConfig) (n : Nat) (lr : F) :
    Job (BoostModel F (GradBoostLeaf F)) :=
  boostingLoopTask data n lr .multiClassBoost (multiClassIterationTask cfg lr)

/-- amg_boost_ensemble.rs:22-44 `AMGBoostModel::train`. -/
def amgTrainTask (data : DataSet F) (cfg : TreeConfig) (n : Nat) (lr : F) :
    Job (BoostModel F (AMGBoostLeaf F)) :=
  boostingLoopTask data n lr .amgBoost (amgIterationTask cfg lr)

end

end Verif
