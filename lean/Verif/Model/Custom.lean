import Verif.Model.Boost
/-!
# Training with a split finder of the caller

`TreeConfig::split_finder` is a public field, and so is the function pointer in it: a caller can replace `find_best_split` by a
function of their own.  `Verif/Model/Tree.lean` and `Verif/Model/Boost.lean` fix the pointer to `find_best_split`; here the builders and the
training functions are given with any pointer.  The pointer is taken to be a function of its arguments (which may panic): one that
remembers the calls before is in `Verif/Model/Ask.lean`.
-/

namespace Verif

variable {F : Type} [F64 F]

/-- split_finders/split_finder.rs:11-14 `SplitFinder`, without the private and unused `split_metric`. -/
structure SplitFinder (F : Type) where
  findBestSplit : DataSet F → Nat → R (BestSplitResult F)

/-- split_finders/split_finder.rs:17-22 `SplitFinder::new`, for its only metric. -/
def SplitFinder.new : SplitFinder F := { findBestSplit := Verif.findBestSplit }

/-- tree/decision_trees.rs:13-18 `struct TreeConfig`, with the field `split_finder`. -/
structure CustomConfig (F : Type) extends TreeConfig where
  splitFinder : SplitFinder F

/-! ## tree_builders/regression_tree_builder.rs -/

/-- tree_builders/regression_tree_builder.rs:15-39 `build_regression_tree`. -/
def buildRegressionTreeWith (cfg : CustomConfig F) (data : DataSet F) (currentLevel : Nat) :
    R (TreeNode F (RegressionLeaf F)) := do
  let splitResult ← cfg.splitFinder.findBestSplit data cfg.numberOfClasses
  if (splitResult.gain ==. F64.zero) || currentLevel == cfg.maxLevels then
    pure (TreeNode.leafNode splitResult.question { data := some data })
  else if _h : currentLevel < cfg.maxLevels then
    let partitionedData ← partition data splitResult.question
    let leftData := partitionedData.2
    let rightData := partitionedData.1
    let leftTree ← buildRegressionTreeWith cfg leftData (currentLevel + 1)
    let rightTree ← buildRegressionTreeWith cfg rightData (currentLevel + 1)
    pure (TreeNode.new splitResult.question leftTree rightTree)
  else levelOverrun
termination_by cfg.maxLevels - currentLevel

/-- tree_builders/regression_tree_builder.rs:79-117 `build_regression_tree_using_multiple_threads`. -/
def buildRegressionTreeMTWith (cfg : CustomConfig F) (data : DataSet F) (currentLevel : Nat) :
    R (TreeNode F (RegressionLeaf F)) := do
  let splitResult ← cfg.splitFinder.findBestSplit data cfg.numberOfClasses
  if (splitResult.gain ==. F64.zero) || currentLevel == cfg.maxLevels then
    pure (TreeNode.leafNode splitResult.question { data := some data })
  else if _h : currentLevel < cfg.maxLevels then
    let partitionedData ← partition data splitResult.question
    let leftData := partitionedData.2
    let rightData := partitionedData.1
    let (leftTree, rightTree) ← join
      (buildRegressionTreeMTWith cfg leftData (currentLevel + 1))
      (buildRegressionTreeMTWith cfg rightData (currentLevel + 1))
    pure (TreeNode.new splitResult.question leftTree rightTree)
  else levelOverrun
termination_by cfg.maxLevels - currentLevel

/-- tree/decision_trees.rs:30-43 `RegressionMultiTargetDecisionTree::new`. -/
def regressionTreeNewWith (data : DataSet F) (cfg : CustomConfig F) : R (TreeNode F (RegressionLeaf F)) :=
  match cfg.useMultiThreading with
  | true => buildRegressionTreeMTWith cfg data 0
  | false => buildRegressionTreeWith cfg data 0

/-! ## tree_builders/grad_boost -/

/-- grad_boost/grad_boost_tree_builder.rs:8-46 `build_grad_boost_regression_tree`. -/
def buildGradBoostTreeWith (cfg : CustomConfig F) (leafCalc : LeafOutputType) (data : DataSet F) (currentLevel : Nat) :
    R (TreeNode F (GradBoostLeaf F)) := do
  let splitResult ← cfg.splitFinder.findBestSplit data cfg.numberOfClasses
  if (splitResult.gain ==. F64.zero) || currentLevel == cfg.maxLevels then
    let leafOutput ← leafCalc.calculate data
    pure (TreeNode.leafNode splitResult.question { leafOutput := some leafOutput })
  else if _h : currentLevel < cfg.maxLevels then
    let partitionedData ← partition data splitResult.question
    let leftData := partitionedData.2
    let rightData := partitionedData.1
    let leftTree ← buildGradBoostTreeWith cfg leafCalc leftData (currentLevel + 1)
    let rightTree ← buildGradBoostTreeWith cfg leafCalc rightData (currentLevel + 1)
    pure (TreeNode.new splitResult.question leftTree rightTree)
  else levelOverrun
termination_by cfg.maxLevels - currentLevel

/-- grad_boost/grad_boost_tree_builder.rs:48-92 `build_grad_boost_regression_tree_using_multiple_threads`. -/
def buildGradBoostTreeMTWith (cfg : CustomConfig F) (leafCalc : LeafOutputType) (data : DataSet F) (currentLevel : Nat) :
    R (TreeNode F (GradBoostLeaf F)) := do
  let splitResult ← cfg.splitFinder.findBestSplit data cfg.numberOfClasses
  if (splitResult.gain ==. F64.zero) || currentLevel == cfg.maxLevels then
    let leafOutput ← leafCalc.calculate data
    pure (TreeNode.leafNode splitResult.question { leafOutput := some leafOutput })
  else if _h : currentLevel < cfg.maxLevels then
    let partitionedData ← partition data splitResult.question
    let leftData := partitionedData.2
    let rightData := partitionedData.1
    let (leftTree, rightTree) ← join
      (buildGradBoostTreeMTWith cfg leafCalc leftData (currentLevel + 1))
      (buildGradBoostTreeMTWith cfg leafCalc rightData (currentLevel + 1))
    pure (TreeNode.new splitResult.question leftTree rightTree)
  else levelOverrun
termination_by cfg.maxLevels - currentLevel

/-- tree/grad_boost_decision_trees.rs:23-48 `GradBoostMultiTargetDecisionTree::new`. -/
def gradBoostTreeNewWith (data : DataSet F) (cfg : CustomConfig F) (leafCalc : LeafOutputType) :
    R (TreeNode F (GradBoostLeaf F)) :=
  match cfg.useMultiThreading with
  | true => buildGradBoostTreeMTWith cfg leafCalc data 0
  | false => buildGradBoostTreeWith cfg leafCalc data 0

/-- grad_boost/approximate_grad_boost_tree_builder.rs:7-47 `build_approximate_grad_boost_regression_tree`. -/
def buildAmgTreeWith (cfg : CustomConfig F) (leafCalc : LeafOutputType) (data : DataSet F) (currentLevel : Nat) :
    R (TreeNode F (AMGBoostLeaf F)) := do
  let splitResult ← cfg.splitFinder.findBestSplit data cfg.numberOfClasses
  if (splitResult.gain ==. F64.zero) || currentLevel == cfg.maxLevels then
    let leafOutput ← leafCalc.calculate data
    let (maxValue, cls) := findMaxValueAndIndex leafOutput
    pure (TreeNode.leafNode splitResult.question { maxValue := some maxValue, cls := some cls })
  else if _h : currentLevel < cfg.maxLevels then
    let partitionedData ← partition data splitResult.question
    let leftData := partitionedData.2
    let rightData := partitionedData.1
    let leftTree ← buildAmgTreeWith cfg leafCalc leftData (currentLevel + 1)
    let rightTree ← buildAmgTreeWith cfg leafCalc rightData (currentLevel + 1)
    pure (TreeNode.new splitResult.question leftTree rightTree)
  else levelOverrun
termination_by cfg.maxLevels - currentLevel

/-- grad_boost/approximate_grad_boost_tree_builder.rs:49-95
`build_approximate_grad_boost_regression_tree_using_multiple_threads`. -/
def buildAmgTreeMTWith (cfg : CustomConfig F) (leafCalc : LeafOutputType) (data : DataSet F) (currentLevel : Nat) :
    R (TreeNode F (AMGBoostLeaf F)) := do
  let splitResult ← cfg.splitFinder.findBestSplit data cfg.numberOfClasses
  if (splitResult.gain ==. F64.zero) || currentLevel == cfg.maxLevels then
    let leafOutput ← leafCalc.calculate data
    let (maxValue, cls) := findMaxValueAndIndex leafOutput
    pure (TreeNode.leafNode splitResult.question { maxValue := some maxValue, cls := some cls })
  else if _h : currentLevel < cfg.maxLevels then
    let partitionedData ← partition data splitResult.question
    let leftData := partitionedData.2
    let rightData := partitionedData.1
    let (leftTree, rightTree) ← join
      (buildAmgTreeMTWith cfg leafCalc leftData (currentLevel + 1))
      (buildAmgTreeMTWith cfg leafCalc rightData (currentLevel + 1))
    pure (TreeNode.new splitResult.question leftTree rightTree)
  else levelOverrun
termination_by cfg.maxLevels - currentLevel

/-- tree/grad_boost_decision_trees.rs:56-81 `AMGBoostTree::new`. -/
def amgTreeNewWith (data : DataSet F) (cfg : CustomConfig F) (leafCalc : LeafOutputType) :
    R (TreeNode F (AMGBoostLeaf F)) :=
  match cfg.useMultiThreading with
  | true => buildAmgTreeMTWith cfg leafCalc data 0
  | false => buildAmgTreeWith cfg leafCalc data 0

/-! ## the three ensembles -/

/-- regression_boost_executor_functions.rs:18-40 `execute_gradient_boosting_loop`. -/
def regressionLoopWith (splitFinder : SplitFinder F) (t : TrainingData F) (numberOfIterations : Nat) (cfg : TreeConfig) (learningRate : F) :
    R (TrainingData F × List (TreeNode F (GradBoostLeaf F))) :=
  forRange numberOfIterations (fun _ s => do
    let (t, trees) := s
    let residuals ← regressionResiduals t
    let learnerData := { t.data with labels := residuals }
    let residualTree ← gradBoostTreeNewWith learnerData { cfg with splitFinder := splitFinder } .regression
    let t ← updateDatasetLabels t residualTree learningRate
    pure (t, trees ++ [residualTree])) (t, [])

/-- regression_boost_ensemble.rs:19-41 `RegressionBoostModel::train`. -/
def regressionTrainWith (data : DataSet F) (cfg : CustomConfig F) (numberOfIterations : Nat) (learningRate : F) :
    R (BoostModel F (GradBoostLeaf F)) := do
  let r ← boostingLoop data cfg.toTreeConfig numberOfIterations learningRate
    { ensembleType := .regressionBoost, loopExecutor := regressionLoopWith cfg.splitFinder }
  pure r.2

/-- multi_class_boost_executor_functions.rs:17-40 `execute_gradient_boosting_loop`. -/
def multiClassLoopWith (splitFinder : SplitFinder F) (t : TrainingData F) (numberOfIterations : Nat) (cfg : TreeConfig) (learningRate : F) :
    R (TrainingData F × List (TreeNode F (GradBoostLeaf F))) :=
  forRange numberOfIterations (fun _ s => do
    let (t, trees) := s
    let residuals ← multiClassResiduals t
    let learnerData := { t.data with labels := residuals }
    let residualTree ← gradBoostTreeNewWith learnerData { cfg with splitFinder := splitFinder } .multiClassClassification
    let t ← updateDatasetLabels t residualTree learningRate
    pure (t, trees ++ [residualTree])) (t, [])

/-- multi_class_boost_ensemble.rs:19-41 `MultiClassBoostModel::train`. -/
def multiClassTrainWith (data : DataSet F) (cfg : CustomConfig F) (numberOfIterations : Nat) (learningRate : F) :
    R (BoostModel F (GradBoostLeaf F)) := do
  let r ← boostingLoop data cfg.toTreeConfig numberOfIterations learningRate
    { ensembleType := .multiClassBoost, loopExecutor := multiClassLoopWith cfg.splitFinder }
  pure r.2

/-- amg_boost_executor_functions.rs:17-37 `execute_gradient_boosting_loop`. -/
def amgLoopWith (splitFinder : SplitFinder F) (t : TrainingData F) (numberOfIterations : Nat) (cfg : TreeConfig) (learningRate : F) :
    R (TrainingData F × List (TreeNode F (AMGBoostLeaf F))) :=
  forRange numberOfIterations (fun _ s => do
    let (t, trees) := s
    let residuals ← multiClassResiduals t
    let learnerData := { t.data with labels := residuals }
    let residualTree ← amgTreeNewWith learnerData { cfg with splitFinder := splitFinder } .multiClassClassification
    let t ← amgUpdateDatasetLabels t residualTree learningRate
    pure (t, trees ++ [residualTree])) (t, [])

/-- amg_boost_ensemble.rs:22-44 `AMGBoostModel::train`. -/
def amgTrainWith (data : DataSet F) (cfg : CustomConfig F) (numberOfIterations : Nat) (learningRate : F) :
    R (BoostModel F (AMGBoostLeaf F)) := do
  let r ← boostingLoop data cfg.toTreeConfig numberOfIterations learningRate
    { ensembleType := .amgBoost, loopExecutor := amgLoopWith cfg.splitFinder }
  pure r.2

end Verif
