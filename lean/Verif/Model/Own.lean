import Verif.Model.Ask
/-!
# Trees with a leaf output function of the caller

`LeafOutputCalculator` has a public function pointer that a caller can replace, and `GradBoostMultiTargetDecisionTree::new` and
`AMGBoostTree::new`, which take one, are public.  The split finder is that of the caller, too (`Verif/Model/Custom.lean`).  Here the function is
taken to be a function of the data it gets, or to panic.  A `BoostingExecutor` of the caller is already covered by `boostingLoop`, which takes
any.
-/

namespace Verif

variable {F : Type} [F64 F]

/-- grad_boost/grad_boost_leaf_output.rs:15-20 `LeafOutputCalculator`; the private field `leaf_output_type` is never read. -/
structure LeafOutputCalculator (F : Type) where
  calculate : DataSet F → R (List F)

/-- grad_boost/grad_boost_leaf_output.rs:22-32 `LeafOutputCalculator::new`. -/
def LeafOutputCalculator.new (leafOutputType : LeafOutputType) : LeafOutputCalculator F :=
  { calculate := leafOutputType.calculate }

/-- grad_boost/grad_boost_tree_builder.rs:8-46 `build_grad_boost_regression_tree`. -/
def buildGradBoostTreeOwn (cfg : CustomConfig F) (leafCalc : LeafOutputCalculator F) (data : DataSet F) (currentLevel : Nat) :
    R (TreeNode F (GradBoostLeaf F)) := do
  let splitResult ← cfg.splitFinder.findBestSplit data cfg.numberOfClasses
  if (splitResult.gain ==. F64.zero) || currentLevel == cfg.maxLevels then
    let leafOutput ← leafCalc.calculate data
    pure (TreeNode.leafNode splitResult.question { leafOutput := some leafOutput })
  else if _h : currentLevel < cfg.maxLevels then
    let partitionedData ← partition data splitResult.question
    let leftData := partitionedData.2
    let rightData := partitionedData.1
    let leftTree ← buildGradBoostTreeOwn cfg leafCalc leftData (currentLevel + 1)
    let rightTree ← buildGradBoostTreeOwn cfg leafCalc rightData (currentLevel + 1)
    pure (TreeNode.new splitResult.question leftTree rightTree)
  else levelOverrun
termination_by cfg.maxLevels - currentLevel

/-- grad_boost/grad_boost_tree_builder.rs:48-92 `build_grad_boost_regression_tree_using_multiple_threads`. -/
def buildGradBoostTreeMTOwn (cfg : CustomConfig F) (leafCalc : LeafOutputCalculator F) (data : DataSet F) (currentLevel : Nat) :
    R (TreeNode F (GradBoostLeaf F)) := do
  let splitResult ← cfg.splitFinder.findBestSplit data cfg.numberOfClasses
  if (splitResult.gain ==. F64.zero) || currentLevel == cfg.maxLevels then
    let leafOutput ← leafCalc.calculate data
    pure (TreeNode.leafNode splitResult.question { leafOutput := some leafOutput })
  else if _h : currentLevel < cfg.maxLevels then
    let partitionedData ← partition data splitResult.question
    let leftData := partitionedData.2
    let rightData := partitionedData.1
    let (leftTree, rightTree) ← join
      (buildGradBoostTreeMTOwn cfg leafCalc leftData (currentLevel + 1))
      (buildGradBoostTreeMTOwn cfg leafCalc rightData (currentLevel + 1))
    pure (TreeNode.new splitResult.question leftTree rightTree)
  else levelOverrun
termination_by cfg.maxLevels - currentLevel

/-- tree/grad_boost_decision_trees.rs:23-48 `GradBoostMultiTargetDecisionTree::new`. -/
def gradBoostTreeNewOwn (data : DataSet F) (cfg : CustomConfig F) (leafCalc : LeafOutputCalculator F) :
    R (TreeNode F (GradBoostLeaf F)) :=
  match cfg.useMultiThreading with
  | true => buildGradBoostTreeMTOwn cfg leafCalc data 0
  | false => buildGradBoostTreeOwn cfg leafCalc data 0

/-- grad_boost/approximate_grad_boost_tree_builder.rs:7-47 `build_approximate_grad_boost_regression_tree`. -/
def buildAmgTreeOwn (cfg : CustomConfig F) (leafCalc : LeafOutputCalculator F) (data : DataSet F) (currentLevel : Nat) :
    R (TreeNode F (AMGBoostLeaf F)) := do
  let splitResult ← cfg.splitFinder.findBestSplit data cfg.numberOfClasses
  if (splitResult.gain ==. F64.zero) || currentLevel == cfg.maxLevels then
    let leafOutput ← leafCalc.calculate data
    let (maxValue, cls) := findMaxValueAndIndex leafOutput
    pure (TreeNode.leafNode splitResult.question { maxValue := some maxValue, cls := some cls })
  else if _h : currentLevel < cfg.maxLevels then
    let partitionedData ← partition data splitResult.question
    let leftData := partitionedData.2
    let rightData := partitionedData.1
    let leftTree ← buildAmgTreeOwn cfg leafCalc leftData (currentLevel + 1)
    let rightTree ← buildAmgTreeOwn cfg leafCalc rightData (currentLevel + 1)
    pure (TreeNode.new splitResult.question leftTree rightTree)
  else levelOverrun
termination_by cfg.maxLevels - currentLevel

/-- grad_boost/approximate_grad_boost_tree_builder.rs:49-95
`build_approximate_grad_boost_regression_tree_using_multiple_threads`. -/
def buildAmgTreeMTOwn (cfg : CustomConfig F) (leafCalc : LeafOutputCalculator F) (data : DataSet F) (currentLevel : Nat) :
    R (TreeNode F (AMGBoostLeaf F)) := do
  let splitResult ← cfg.splitFinder.findBestSplit data cfg.numberOfClasses
  if (splitResult.gain ==. F64.zero) || currentLevel == cfg.maxLevels then
    let leafOutput ← leafCalc.calculate data
    let (maxValue, cls) := findMaxValueAndIndex leafOutput
    pure (TreeNode.leafNode splitResult.question { maxValue := some maxValue, cls := some cls })
  else if _h : currentLevel < cfg.maxLevels then
    let partitionedData ← partition data splitResult.question
    let leftData := partitionedData.2
    let rightData := partitionedData.1
    let (leftTree, rightTree) ← join
      (buildAmgTreeMTOwn cfg leafCalc leftData (currentLevel + 1))
      (buildAmgTreeMTOwn cfg leafCalc rightData (currentLevel + 1))
    pure (TreeNode.new splitResult.question leftTree rightTree)
  else levelOverrun
termination_by cfg.maxLevels - currentLevel

/-- tree/grad_boost_decision_trees.rs:56-81 `AMGBoostTree::new`. -/
def amgTreeNewOwn (data : DataSet F) (cfg : CustomConfig F) (leafCalc : LeafOutputCalculator F) :
    R (TreeNode F (AMGBoostLeaf F)) :=
  match cfg.useMultiThreading with
  | true => buildAmgTreeMTOwn cfg leafCalc data 0
  | false => buildAmgTreeOwn cfg leafCalc data 0

/-- grad_boost/grad_boost_tree_builder.rs:18-25: the leaf of a tree of a gradient boosting ensemble. -/
def leafOfGradBoostOwn (leafCalc : LeafOutputCalculator F) (data : DataSet F) : R (GradBoostLeaf F) := do
  let leafOutput ← leafCalc.calculate data
  pure { leafOutput := some leafOutput }

/-- grad_boost/approximate_grad_boost_tree_builder.rs:17-26: the leaf of an AMG tree. -/
def leafOfAmgOwn (leafCalc : LeafOutputCalculator F) (data : DataSet F) : R (AMGBoostLeaf F) := do
  let leafOutput ← leafCalc.calculate data
  let (maxValue, cls) := findMaxValueAndIndex leafOutput
  pure { maxValue := some maxValue, cls := some cls }

end Verif
