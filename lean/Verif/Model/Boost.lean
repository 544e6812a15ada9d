import Verif.Model.Tree
/-!
# The `multi-target-grad-boost` crate and `main`

Models /repo/multi-target-grad-boost/src and /repo/main/src/main.rs.  `tree_traverse.rs:3-15` repeats
`find_leaf_node_for_data` of the tree crate and is modelled by `findLeafNodeForData`.
-/

namespace Verif

variable {F : Type} [F64 F]

/-! ## ensembles/boosting_types.rs -/

/-- boosting_types.rs:8-12 `BoostingResult<T>`, and 14-30 `AMGBoostModel`, `MultiClassBoostModel`, `RegressionBoostModel`
(the same three fields). -/
structure BoostModel (F L : Type) where
  trees : List (TreeNode F L)
  initialGuess : List F
  learningRate : F

/-- boosting_types.rs:32-36 `enum BoostingEnsembleType`. -/
inductive BoostingEnsembleType where
  | amgBoost
  | multiClassBoost
  | regressionBoost
  deriving DecidableEq, Repr

/-- boosting_types.rs:48-52 `struct GradBoostTrainingData`. -/
structure TrainingData (F : Type) where
  data : DataSet F
  mutableLabels : List (List F)
  size : Nat

/-- boosting_types.rs:38-46 `struct BoostingExecutor<T>`; the loop executor mutates the training data, so the model returns
the new training data as well. -/
structure BoostingExecutor (F L : Type) where
  ensembleType : BoostingEnsembleType
  loopExecutor : TrainingData F → Nat → TreeConfig → F → R (TrainingData F × List (TreeNode F L))

/-! ## ensembles/common_boosting_functions.rs -/

/-- common_boosting_functions.rs:11-18 `update_dataset_labels_with_initial_guess`. -/
def updateLabelsWithInitialGuess (mutableLabels : List (List F)) (initialGuess : List F) : R (List (List F)) :=
  forRange mutableLabels.length (fun i labels => setIdx labels i initialGuess) mutableLabels

/-- common_boosting_functions.rs:21-37 `update_dataset_labels`. -/
def updateDatasetLabels (t : TrainingData F) (tree : TreeNode F (GradBoostLeaf F)) (learningRate : F) :
    R (TrainingData F) :=
  forRange t.size (fun i (t : TrainingData F) => do
    let leafData ← findLeafNodeForData (← idx t.data.featureRows i) tree
    let leafOutput ← unwrap leafData.leafOutput
    let weightedLeafOutput := leafOutput.map (fun x => learningRate *. x)
    let cur ← idx t.mutableLabels i
    let new ← addSlices cur weightedLeafOutput
    let mutableLabels ← setIdx t.mutableLabels i new
    pure { t with mutableLabels := mutableLabels }) t

/-- common_boosting_functions.rs:64-80 `collect_leaf_outputs_for_test_instance`. -/
def collectLeafOutputs (testFeatureRow : List F) (trees : List (TreeNode F (GradBoostLeaf F))) (learningRate : F) :
    R (List (List F)) :=
  trees.mapM (fun tree => do
    let leaf ← findLeafNodeForData testFeatureRow tree
    let leafOutput ← unwrap leaf.leafOutput
    pure (leafOutput.map (fun x => learningRate *. x)))

/-- common_boosting_functions.rs:54-60 (and amg_boost_predict_functions.rs:20-26): add the leaf outputs to the initial
guess, one after the other. -/
def sumLeafOutputs (initialGuess : List F) (leafOutputs : List (List F)) : R (List F) :=
  leafOutputs.foldlM (fun sum leafOutput =>
    forRange sum.length (fun i sum => do
      let x ← idx leafOutput i
      let cur ← idx sum i
      setIdx sum i (cur +. x)) sum) initialGuess

/-- common_boosting_functions.rs:46-61 `predict_instance`. -/
def predictInstance (testFeatureRow : List F) (trees : List (TreeNode F (GradBoostLeaf F))) (initialGuess : List F)
    (learningRate : F) : R (List F) := do
  let leafOutputs ← collectLeafOutputs testFeatureRow trees learningRate
  sumLeafOutputs initialGuess leafOutputs

/-! ## ensembles/boosting_loop.rs -/

/-- boosting_loop.rs:40-55 `determine_initial_guess`. -/
def determineInitialGuess (t : TrainingData F) (ensembleType : BoostingEnsembleType) : R (List F) := do
  let numberOfClasses : F := F64.ofNat (← idx t.mutableLabels 0).length
  match ensembleType with
  | .amgBoost => pure (List.replicate (F64.toUsize numberOfClasses) (F64.one /. numberOfClasses))
  | .multiClassBoost => pure (List.replicate (F64.toUsize numberOfClasses) (F64.one /. numberOfClasses))
  | .regressionBoost => calculateAverageVector t.data.labels

/-- boosting_loop.rs:11-38 `boosting_loop`.  The final training data, which the Rust code drops, is returned next to the
result so that theorems can talk about the labels the loop worked with. -/
def boostingLoop {L : Type} (data : DataSet F) (cfg : TreeConfig) (numberOfIterations : Nat) (learningRate : F)
    (executor : BoostingExecutor F L) : R (TrainingData F × BoostModel F L) := do
  let trainingData : TrainingData F := { data := data, mutableLabels := data.labels, size := data.labels.length }
  let initialGuess ← determineInitialGuess trainingData executor.ensembleType
  let mutableLabels ← updateLabelsWithInitialGuess trainingData.mutableLabels initialGuess
  let trainingData := { trainingData with mutableLabels := mutableLabels }
  let (final, trees) ← executor.loopExecutor trainingData numberOfIterations cfg learningRate
  pure (final, { trees := trees, initialGuess := initialGuess, learningRate := learningRate })

/-! ## ensembles/RegressionBoost -/

/-- regression_boost_executor_functions.rs:42-54 `calculate_residuals` (`par_iter` by its result; its parallel execution is in
`Verif/Model/Par.lean`). -/
def regressionResiduals (t : TrainingData F) : R (List (List F)) :=
  (List.range t.size).mapM (fun i => do
    let trueLabel ← idx t.data.labels i
    let currentLabel ← idx t.mutableLabels i
    subtractSlices trueLabel currentLabel)

/-- regression_boost_executor_functions.rs:18-40 `execute_gradient_boosting_loop`. -/
def regressionLoop (t : TrainingData F) (numberOfIterations : Nat) (cfg : TreeConfig) (learningRate : F) :
    R (TrainingData F × List (TreeNode F (GradBoostLeaf F))) :=
  forRange numberOfIterations (fun _ s => do
    let (t, trees) := s
    let residuals ← regressionResiduals t
    let learnerData := { t.data with labels := residuals }
    let residualTree ← gradBoostTreeNew learnerData cfg .regression
    let t ← updateDatasetLabels t residualTree learningRate
    pure (t, trees ++ [residualTree])) (t, [])

/-- regression_boost_ensemble.rs:19-41 `RegressionBoostModel::train`, with the final training data. -/
def regressionTrainFull (data : DataSet F) (cfg : TreeConfig) (numberOfIterations : Nat) (learningRate : F) :
    R (TrainingData F × BoostModel F (GradBoostLeaf F)) :=
  boostingLoop data cfg numberOfIterations learningRate
    { ensembleType := .regressionBoost, loopExecutor := regressionLoop }

/-- regression_boost_ensemble.rs:19-41 `RegressionBoostModel::train`. -/
def regressionTrain (data : DataSet F) (cfg : TreeConfig) (numberOfIterations : Nat) (learningRate : F) :
    R (BoostModel F (GradBoostLeaf F)) := do
  let r ← regressionTrainFull data cfg numberOfIterations learningRate
  pure r.2

/-- regression_boost_ensemble.rs:43-51 `RegressionBoostModel::predict`. -/
def regressionPredict (m : BoostModel F (GradBoostLeaf F)) (featureRow : List F) : R (List F) :=
  predictInstance featureRow m.trees m.initialGuess m.learningRate

/-- regression_boost_ensemble.rs:53-62 `calculate_all_predictions`. -/
def regressionPredictAll (m : BoostModel F (GradBoostLeaf F)) (testSet : DataSet F) : R (List (List F)) :=
  (List.range testSet.featureRows.length).mapM (fun i => do
    regressionPredict m (← idx testSet.featureRows i))

/-- regression_boost_ensemble.rs:71-84 `calculate_mean_squared_error`. -/
def calculateMeanSquaredError (testDataLabels predictions : List (List F)) : R F := do
  let total ← forRange testDataLabels.length (fun i (total : F) => do
    let e ← meanSumOfSquaredDifferences (← idx testDataLabels i) (← idx predictions i)
    pure (total +. e)) F64.zero
  pure (total /. F64.ofNat testDataLabels.length)

/-- regression_boost_ensemble.rs:64-68 `calculate_score`. -/
def regressionScore (m : BoostModel F (GradBoostLeaf F)) (testSet : DataSet F) : R F := do
  let predictions ← regressionPredictAll m testSet
  calculateMeanSquaredError testSet.labels predictions

/-! ## ensembles/MultiClassBoosting/common_multi_class_boosting_functions.rs -/

/-- common_multi_class_boosting_functions.rs:4-16 `get_binary_prediction` (lines 5-12 are the loop of
`find_max_value_and_index_from_vector`). -/
def getBinaryPrediction (prediction : List F) : R (List F) :=
  let maxIndex := (prediction.zipIdx.foldl
    (fun (acc : F × Nat) p => if p.1 >. acc.1 then (p.1, p.2) else acc) (F64.negInfinity, 0)).2
  setIdx (List.replicate prediction.length F64.zero) maxIndex F64.one

/-- common_multi_class_boosting_functions.rs:18-33 `calculate_accuracy_from_predictions`. -/
def calculateAccuracyFromPredictions (predictions : List (List F)) (testSet : DataSet F) : R F := do
  let correct ← forEnum predictions (fun i prediction (correct : F) => do
    let actual ← idx testSet.labels i
    if vecEq prediction actual then pure (correct +. F64.one) else pure correct) F64.zero
  pure (correct /. F64.ofNat predictions.length)

/-- common_multi_class_boosting_functions.rs:61-71 `calculate_probabilities_of_predictions`. -/
def calculateProbabilities (currentLabel : List F) : List F :=
  let exponentials := currentLabel.map F64.exp
  let sumOfExponentials := fsum exponentials
  multiplyByScalar (F64.one /. sumOfExponentials) exponentials

/-- common_multi_class_boosting_functions.rs:44-58 `calculate_residuals` (`par_iter` by its result). -/
def multiClassResiduals (t : TrainingData F) : R (List (List F)) :=
  (List.range t.size).mapM (fun i => do
    let trueLabel ← idx t.data.labels i
    let currentLabel ← idx t.mutableLabels i
    subtractSlices trueLabel (calculateProbabilities currentLabel))

/-! ## ensembles/MultiClassBoosting/MultiClassBoost -/

/-- multi_class_boost_executor_functions.rs:17-40 `execute_gradient_boosting_loop`. -/
def multiClassLoop (t : TrainingData F) (numberOfIterations : Nat) (cfg : TreeConfig) (learningRate : F) :
    R (TrainingData F × List (TreeNode F (GradBoostLeaf F))) :=
  forRange numberOfIterations (fun _ s => do
    let (t, trees) := s
    let residuals ← multiClassResiduals t
    let learnerData := { t.data with labels := residuals }
    let residualTree ← gradBoostTreeNew learnerData cfg .multiClassClassification
    let t ← updateDatasetLabels t residualTree learningRate
    pure (t, trees ++ [residualTree])) (t, [])

/-- multi_class_boost_ensemble.rs:19-41 `MultiClassBoostModel::train`, with the final training data. -/
def multiClassTrainFull (data : DataSet F) (cfg : TreeConfig) (numberOfIterations : Nat) (learningRate : F) :
    R (TrainingData F × BoostModel F (GradBoostLeaf F)) :=
  boostingLoop data cfg numberOfIterations learningRate
    { ensembleType := .multiClassBoost, loopExecutor := multiClassLoop }

/-- multi_class_boost_ensemble.rs:19-41 `MultiClassBoostModel::train`. -/
def multiClassTrain (data : DataSet F) (cfg : TreeConfig) (numberOfIterations : Nat) (learningRate : F) :
    R (BoostModel F (GradBoostLeaf F)) := do
  let r ← multiClassTrainFull data cfg numberOfIterations learningRate
  pure r.2

/-- multi_class_boost_ensemble.rs:43-51 `MultiClassBoostModel::predict`. -/
def multiClassPredict (m : BoostModel F (GradBoostLeaf F)) (featureRow : List F) : R (List F) := do
  let prediction ← predictInstance featureRow m.trees m.initialGuess m.learningRate
  getBinaryPrediction prediction

/-- multi_class_boost_ensemble.rs:53-62 `calculate_all_predictions`. -/
def multiClassPredictAll (m : BoostModel F (GradBoostLeaf F)) (testSet : DataSet F) : R (List (List F)) :=
  (List.range testSet.featureRows.length).mapM (fun i => do
    multiClassPredict m (← idx testSet.featureRows i))

/-- multi_class_boost_ensemble.rs:64-67 `calculate_score`. -/
def multiClassScore (m : BoostModel F (GradBoostLeaf F)) (testSet : DataSet F) : R F := do
  let predictions ← multiClassPredictAll m testSet
  calculateAccuracyFromPredictions predictions testSet

/-! ## ensembles/MultiClassBoosting/AMGBoost -/

/-- amg_boost_ensemble.rs:75-78 `calculate_approximate_value`. -/
def calculateApproximateValue (maxValue numberOfClasses : F) : F :=
  F64.neg maxValue /. (numberOfClasses -. F64.one)

/-- amg_boost_executor_functions.rs:70-83 `get_weighted_amg_boost_leaf_values`. -/
def getWeightedAmgLeafValues (featureRow : List F) (tree : TreeNode F (AMGBoostLeaf F)) (learningRate : F)
    (numberOfClasses : F) : R (F × F × Nat) := do
  let leafData ← findLeafNodeForData featureRow tree
  let maxValue ← unwrap leafData.maxValue
  let weightedMaxValue := learningRate *. maxValue
  let weightedNonMaxValue := learningRate *. calculateApproximateValue maxValue numberOfClasses
  let maxValueIndex ← unwrap leafData.cls
  pure (weightedMaxValue, weightedNonMaxValue, maxValueIndex)

/-- amg_boost_executor_functions.rs:60-66, the update of one label. -/
def updateAmgLabel (currentLabel : List F) (numberOfClasses : Nat) (weightedMaxValue weightedNonMaxValue : F)
    (maxValueIndex : Nat) : R (List F) := do
  let cur ← idx currentLabel maxValueIndex
  let currentLabel ← setIdx currentLabel maxValueIndex (cur +. weightedMaxValue)
  forRange numberOfClasses (fun j currentLabel => do
    if j ≠ maxValueIndex then
      let cur ← idx currentLabel j
      setIdx currentLabel j (cur +. weightedNonMaxValue)
    else pure currentLabel) currentLabel

/-- amg_boost_executor_functions.rs:39-68 `update_dataset_labels`. -/
def amgUpdateDatasetLabels (t : TrainingData F) (tree : TreeNode F (AMGBoostLeaf F)) (learningRate : F) :
    R (TrainingData F) := do
  let numberOfClasses := (← idx t.mutableLabels 0).length
  let numberOfClassesF64 : F := F64.ofNat numberOfClasses
  forRange t.size (fun i (t : TrainingData F) => do
    let featureRow ← idx t.data.featureRows i
    let (weightedMaxValue, weightedNonMaxValue, maxValueIndex) ←
      getWeightedAmgLeafValues featureRow tree learningRate numberOfClassesF64
    let currentLabel ← idx t.mutableLabels i
    let new ← updateAmgLabel currentLabel numberOfClasses weightedMaxValue weightedNonMaxValue maxValueIndex
    let mutableLabels ← setIdx t.mutableLabels i new
    pure { t with mutableLabels := mutableLabels }) t

/-- amg_boost_executor_functions.rs:17-37 `execute_gradient_boosting_loop`. -/
def amgLoop (t : TrainingData F) (numberOfIterations : Nat) (cfg : TreeConfig) (learningRate : F) :
    R (TrainingData F × List (TreeNode F (AMGBoostLeaf F))) :=
  forRange numberOfIterations (fun _ s => do
    let (t, trees) := s
    let residuals ← multiClassResiduals t
    let learnerData := { t.data with labels := residuals }
    let residualTree ← amgTreeNew learnerData cfg .multiClassClassification
    let t ← amgUpdateDatasetLabels t residualTree learningRate
    pure (t, trees ++ [residualTree])) (t, [])

/-- amg_boost_ensemble.rs:22-44 `AMGBoostModel::train`, with the final training data. -/
def amgTrainFull (data : DataSet F) (cfg : TreeConfig) (numberOfIterations : Nat) (learningRate : F) :
    R (TrainingData F × BoostModel F (AMGBoostLeaf F)) :=
  boostingLoop data cfg numberOfIterations learningRate
    { ensembleType := .amgBoost, loopExecutor := amgLoop }

/-- amg_boost_ensemble.rs:22-44 `AMGBoostModel::train`. -/
def amgTrain (data : DataSet F) (cfg : TreeConfig) (numberOfIterations : Nat) (learningRate : F) :
    R (BoostModel F (AMGBoostLeaf F)) := do
  let r ← amgTrainFull data cfg numberOfIterations learningRate
  pure r.2

/-- amg_boost_predict_functions.rs:48-58 `construct_approximate_leaf_output`. -/
def constructApproximateLeafOutput (leaf : AMGBoostLeaf F) (numberOfClasses : Nat) : R (List F) := do
  let maxValue ← unwrap leaf.maxValue
  let maxValueClass ← unwrap leaf.cls
  let nonMaxValue := calculateApproximateValue maxValue (F64.ofNat numberOfClasses)
  setIdx (List.replicate numberOfClasses nonMaxValue) maxValueClass maxValue

/-- amg_boost_predict_functions.rs:29-46 `collect_leaf_outputs_for_test_instance`. -/
def amgCollectLeafOutputs (testFeatureRow : List F) (trees : List (TreeNode F (AMGBoostLeaf F))) (learningRate : F)
    (numberOfClasses : Nat) : R (List (List F)) :=
  trees.mapM (fun tree => do
    let leaf ← findLeafNodeForData testFeatureRow tree
    let leafOutput ← constructApproximateLeafOutput leaf numberOfClasses
    pure (leafOutput.map (fun x => learningRate *. x)))

/-- amg_boost_predict_functions.rs:7-27 `predict_instance`. -/
def amgPredictInstance (testFeatureRow : List F) (trees : List (TreeNode F (AMGBoostLeaf F))) (initialGuess : List F)
    (learningRate : F) (numberOfClasses : Nat) : R (List F) := do
  let leafOutputs ← amgCollectLeafOutputs testFeatureRow trees learningRate numberOfClasses
  sumLeafOutputs initialGuess leafOutputs

/-- amg_boost_ensemble.rs:46-56 `AMGBoostModel::predict`. -/
def amgPredict (m : BoostModel F (AMGBoostLeaf F)) (featureRow : List F) : R (List F) := do
  let numberOfClasses := m.initialGuess.length
  let prediction ← amgPredictInstance featureRow m.trees m.initialGuess m.learningRate numberOfClasses
  getBinaryPrediction prediction

/-- amg_boost_ensemble.rs:58-67 `calculate_all_predictions`. -/
def amgPredictAll (m : BoostModel F (AMGBoostLeaf F)) (testSet : DataSet F) : R (List (List F)) :=
  (List.range testSet.featureRows.length).mapM (fun i => do
    amgPredict m (← idx testSet.featureRows i))

/-- amg_boost_ensemble.rs:69-72 `calculate_score`. -/
def amgScore (m : BoostModel F (AMGBoostLeaf F)) (testSet : DataSet F) : R F := do
  let predictions ← amgPredictAll m testSet
  calculateAccuracyFromPredictions predictions testSet

/-! ## main/src/main.rs -/

/-- What `main` prints, apart from the elapsed time and the square root of `mse`. -/
structure MainOutput (F : Type) where
  label10 : List F
  mse : F
  label0 : List F
  prediction : List F

/-- main/src/main.rs:13-46 `main`.  The four files are parameters, as is the learning rate `0.1`; timing and the square root
that is only printed are left out (for the lines printed, also before a panic, see `mainOut` in `Verif/Model/Output.lean`). -/
def mainProgram (parse : String → Option F) (featuresTrain labelsTrain featuresTest labelsTest : Option CsvRecords)
    (learningRate : F) : R (MainOutput F) := do
  let trueData ← readCsvDataMultiTarget parse featuresTrain labelsTrain
  let label10 ← idx trueData.labels 10
  let cfg : TreeConfig := { useMultiThreading := true, numberOfClasses := 10, maxLevels := 3 }
  let ensemble ← regressionTrain trueData cfg 300 learningRate
  let testSet ← readCsvDataMultiTarget parse featuresTest labelsTest
  let mse ← regressionScore ensemble testSet
  let prediction ← regressionPredict ensemble (← idx testSet.featureRows 0)
  let label0 ← idx testSet.labels 0
  pure { label10 := label10, mse := mse, label0 := label0, prediction := prediction }

end Verif
