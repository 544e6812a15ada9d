import Verif.Model.Custom
/-!
# What a split finder of the caller sees

`Verif/Model/Custom.lean` takes the split finder of the caller to be a function.  A function pointer can also refer to global state (a
counter, a cache, a log), and then its answers depend on the calls before, which in multi-threaded training come in an order that the
scheduler decides.  Here tree building is a program that asks: nothing is assumed about the answers, and an execution records the calls.
The calls of different threads may overlap in time; the record lists them in the order in which they are answered.
-/

namespace Verif

/-- A program that calls the split finder. -/
inductive Prog (F : Type) : Type → Type 1 where
  /-- finished with a value or a panic -/
  | done {α : Type} (r : R α) : Prog F α
  /-- a call of `(tree_config.split_finder.find_best_split)(&data, t)`, then `k` with the answer -/
  | ask {α : Type} (data : DataSet F) (t : Nat) (k : BestSplitResult F → Prog F α) : Prog F α
  /-- `rayon::join(l, r)`, then `k` with both results -/
  | fork {α β γ : Type} (l : Prog F β) (r : Prog F γ) (k : β → γ → Prog F α) : Prog F α

/-- A call of the split finder with its answer, which may be a panic. -/
structure Call (F : Type) where
  data : DataSet F
  targets : Nat
  answer : R (BestSplitResult F)

namespace Prog

variable {F : Type}

/-- Sequential composition. -/
def bind {α β : Type} : Prog F α → (α → Prog F β) → Prog F β
  | .done (.ok a), k => k a
  | .done (.error e), _ => .done (.error e)
  | .ask d t k', k => .ask d t (fun s => bind (k' s) k)
  | .fork l r k', k => .fork l r (fun a b => bind (k' a b) k)

/-- Sequential code that returns or panics. -/
def lift {α : Type} (r : R α) : Prog F α := .done r

/-- A value. -/
def ret {α : Type} (a : α) : Prog F α := .done (.ok a)

/-- One step of some worker, with the calls (one or none) it makes. -/
inductive Step : {α : Type} → Prog F α → List (Call F) → Prog F α → Prop where
  /-- the finder answers -/
  | answer {α : Type} {d : DataSet F} {t : Nat} {k : BestSplitResult F → Prog F α} (s : BestSplitResult F) :
      Step (.ask d t k) [⟨d, t, .ok s⟩] (k s)
  /-- the finder panics -/
  | panic {α : Type} {d : DataSet F} {t : Nat} {k : BestSplitResult F → Prog F α} (e : Panic) :
      Step (.ask d t k) [⟨d, t, .error e⟩] (.done (.error e))
  /-- a step of the first closure of a `join` -/
  | left {α β γ : Type} {l l' : Prog F β} {r : Prog F γ} {k : β → γ → Prog F α} {cs : List (Call F)} :
      Step l cs l' → Step (.fork l r k) cs (.fork l' r k)
  /-- a step of the second closure of a `join` -/
  | right {α β γ : Type} {l : Prog F β} {r r' : Prog F γ} {k : β → γ → Prog F α} {cs : List (Call F)} :
      Step r cs r' → Step (.fork l r k) cs (.fork l r' k)
  /-- both closures returned -/
  | joinOk {α β γ : Type} {a : β} {b : γ} {k : β → γ → Prog F α} :
      Step (.fork (.done (.ok a)) (.done (.ok b)) k) [] (k a b)
  /-- the first closure panicked: after the second has finished, its panic is propagated (rayon-core `join`) -/
  | joinPanicLeft {α β γ : Type} {e : Panic} {r : R γ} {k : β → γ → Prog F α} :
      Step (.fork (.done (.error e)) (.done r) k) [] (.done (.error e))
  /-- only the second closure panicked -/
  | joinPanicRight {α β γ : Type} {a : β} {e : Panic} {k : β → γ → Prog F α} :
      Step (.fork (.done (.ok a)) (.done (.error e)) k) [] (.done (.error e))

/-- Any number of steps, with the record of the calls. -/
inductive Run : {α : Type} → Prog F α → List (Call F) → Prog F α → Prop where
  | refl {α : Type} {p : Prog F α} : Run p [] p
  | step {α : Type} {p q u : Prog F α} {cs trace : List (Call F)} : Step p cs q → Run q trace u → Run p (cs ++ trace) u

end Prog

section
variable {F : Type} [F64 F] {L : Type}
open Prog

/-- tree_builders/regression_tree_builder.rs:24-27: the leaf of a regression tree. -/
def leafOfRegression (data : DataSet F) : R (RegressionLeaf F) := pure { data := some data }

/-- grad_boost/grad_boost_tree_builder.rs:18-25: the leaf of a tree of a gradient boosting ensemble. -/
def leafOfGradBoost (leafCalc : LeafOutputType) (data : DataSet F) : R (GradBoostLeaf F) := do
  let leafOutput ← leafCalc.calculate data
  pure { leafOutput := some leafOutput }

/-- grad_boost/approximate_grad_boost_tree_builder.rs:17-26: the leaf of an AMG tree. -/
def leafOfAmg (leafCalc : LeafOutputType) (data : DataSet F) : R (AMGBoostLeaf F) := do
  let leafOutput ← leafCalc.calculate data
  let (maxValue, cls) := findMaxValueAndIndex leafOutput
  pure { maxValue := some maxValue, cls := some cls }

/-- tree_builders/regression_tree_builder.rs:15-39 `build_regression_tree`, grad_boost/grad_boost_tree_builder.rs:8-46
`build_grad_boost_regression_tree` and grad_boost/approximate_grad_boost_tree_builder.rs:7-47
`build_approximate_grad_boost_regression_tree`, which differ only in the leaves. -/
def buildAsking (leafOf : DataSet F → R L) (cfg : TreeConfig) (data : DataSet F) (currentLevel : Nat) : Prog F (TreeNode F L) :=
  .ask data cfg.numberOfClasses fun splitResult =>
  if (splitResult.gain ==. F64.zero) || currentLevel == cfg.maxLevels then
    bind (lift (leafOf data)) fun leaf =>
    ret (TreeNode.leafNode splitResult.question leaf)
  else if _h : currentLevel < cfg.maxLevels then
    bind (lift (partition data splitResult.question)) fun partitionedData =>
    bind (buildAsking leafOf cfg partitionedData.2 (currentLevel + 1)) fun leftTree =>
    bind (buildAsking leafOf cfg partitionedData.1 (currentLevel + 1)) fun rightTree =>
    ret (TreeNode.new splitResult.question leftTree rightTree)
  else lift levelOverrun
termination_by cfg.maxLevels - currentLevel

/-- tree_builders/regression_tree_builder.rs:79-117 `build_regression_tree_using_multiple_threads`,
grad_boost/grad_boost_tree_builder.rs:48-92 `build_grad_boost_regression_tree_using_multiple_threads` and
grad_boost/approximate_grad_boost_tree_builder.rs:49-95 `build_approximate_grad_boost_regression_tree_using_multiple_threads`. -/
def buildAskingMT (leafOf : DataSet F → R L) (cfg : TreeConfig) (data : DataSet F) (currentLevel : Nat) : Prog F (TreeNode F L) :=
  .ask data cfg.numberOfClasses fun splitResult =>
  if (splitResult.gain ==. F64.zero) || currentLevel == cfg.maxLevels then
    bind (lift (leafOf data)) fun leaf =>
    ret (TreeNode.leafNode splitResult.question leaf)
  else if _h : currentLevel < cfg.maxLevels then
    bind (lift (partition data splitResult.question)) fun partitionedData =>
    .fork
      (buildAskingMT leafOf cfg partitionedData.2 (currentLevel + 1))
      (buildAskingMT leafOf cfg partitionedData.1 (currentLevel + 1)) fun leftTree rightTree =>
    ret (TreeNode.new splitResult.question leftTree rightTree)
  else lift levelOverrun
termination_by cfg.maxLevels - currentLevel

/-- tree/decision_trees.rs:30-43 `RegressionMultiTargetDecisionTree::new`, tree/grad_boost_decision_trees.rs:23-48
`GradBoostMultiTargetDecisionTree::new` and tree/grad_boost_decision_trees.rs:56-81 `AMGBoostTree::new`. -/
def treeAsking (leafOf : DataSet F → R L) (data : DataSet F) (cfg : TreeConfig) : Prog F (TreeNode F L) :=
  match cfg.useMultiThreading with
  | true => buildAskingMT leafOf cfg data 0
  | false => buildAsking leafOf cfg data 0

/-- A loop of a fixed number of iterations. -/
def loopAsking {σ : Type} (body : σ → Prog F σ) : Nat → σ → Prog F σ
  | 0, s => ret s
  | n + 1, s => bind (body s) (loopAsking body n)

/-- regression_boost_executor_functions.rs:27-37, multi_class_boost_executor_functions.rs:27-37 and amg_boost_executor_functions.rs:28-34, one
iteration: `residualsOf` computes the residuals, `update` adds the outputs of the tree. -/
def iterationAsking (residualsOf : TrainingData F → R (List (List F))) (leafOf : DataSet F → R L)
    (update : TrainingData F → TreeNode F L → F → R (TrainingData F)) (cfg : TreeConfig) (learningRate : F)
    (s : TrainingData F × List (TreeNode F L)) : Prog F (TrainingData F × List (TreeNode F L)) :=
  bind (lift (residualsOf s.1)) fun residuals =>
  bind (treeAsking leafOf { s.1.data with labels := residuals } cfg) fun residualTree =>
  bind (lift (update s.1 residualTree learningRate)) fun t =>
  ret (t, s.2 ++ [residualTree])

/-- boosting_loop.rs:11-38 `boosting_loop`. -/
def boostingLoopAsking (residualsOf : TrainingData F → R (List (List F))) (leafOf : DataSet F → R L)
    (update : TrainingData F → TreeNode F L → F → R (TrainingData F)) (ensembleType : BoostingEnsembleType) (data : DataSet F)
    (cfg : TreeConfig) (numberOfIterations : Nat) (learningRate : F) : Prog F (BoostModel F L) :=
  let trainingData : TrainingData F := { data := data, mutableLabels := data.labels, size := data.labels.length }
  bind (lift (determineInitialGuess trainingData ensembleType)) fun initialGuess =>
  bind (lift (updateLabelsWithInitialGuess trainingData.mutableLabels initialGuess)) fun mutableLabels =>
  bind (loopAsking (iterationAsking residualsOf leafOf update cfg learningRate) numberOfIterations
    ({ trainingData with mutableLabels := mutableLabels }, [])) fun final =>
  ret { trees := final.2, initialGuess := initialGuess, learningRate := learningRate }

/-- regression_boost_ensemble.rs:19-41 `RegressionBoostModel::train`. -/
def regressionTrainAsking : DataSet F → TreeConfig → Nat → F → Prog F (BoostModel F (GradBoostLeaf F)) :=
  boostingLoopAsking regressionResiduals (leafOfGradBoost .regression) updateDatasetLabels .regressionBoost

/-- multi_class_boost_ensemble.rs:19-41 `MultiClassBoostModel::train`. -/
def multiClassTrainAsking : DataSet F → TreeConfig → Nat → F → Prog F (BoostModel F (GradBoostLeaf F)) :=
  boostingLoopAsking multiClassResiduals (leafOfGradBoost .multiClassClassification) updateDatasetLabels .multiClassBoost

/-- amg_boost_ensemble.rs:22-44 `AMGBoostModel::train`. -/
def amgTrainAsking : DataSet F → TreeConfig → Nat → F → Prog F (BoostModel F (AMGBoostLeaf F)) :=
  boostingLoopAsking multiClassResiduals (leafOfAmg .multiClassClassification) amgUpdateDatasetLabels .amgBoost

end

end Verif
