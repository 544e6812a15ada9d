import Verif.Model.Prelude
/-!
# The `common` crate

Models /repo/common/src/{question,datasets,results,numerical_calculations,data_reader,feature_sorter,data_processor}.rs.
-/

namespace Verif

variable {F : Type} [F64 F]

/-! ## question.rs, datasets.rs, results.rs -/

/-- common/src/question.rs:4-7 `struct Question` (`column : u32`). -/
structure Question (F : Type) where
  column : Nat
  value : F
  deriving Repr, DecidableEq

/-- common/src/question.rs:14-17 `Question::solve`. -/
def Question.solve (q : Question F) (row : List F) : R Bool := do
  let valToCheck ← idx row q.column
  pure (valToCheck >=. q.value)

/-- common/src/datasets.rs:3-6 `struct SingleTargetDataSet`. -/
structure SingleTargetDataSet (F : Type) where
  features : List (List F)
  labels : List F
  deriving Repr, DecidableEq

/-- common/src/datasets.rs:9-13 `struct MultiTargetDataSet`. -/
structure DataSet (F : Type) where
  featureRows : List (List F)
  labels : List (List F)
  featureColumns : List (List F)
  deriving Repr, DecidableEq

/-- common/src/datasets.rs:16-19 `struct MultiTargetDataSetSortedFeatures` (label references become the labels). -/
structure SortedDataSet (F : Type) where
  labels : List (List F)
  sortedFeatureColumns : List (List (F × Nat))
  deriving Repr, DecidableEq

/-- common/src/results.rs:4-7 `struct BestThresholdResult`. -/
structure BestThresholdResult (F : Type) where
  loss : F
  thresholdValue : F
  deriving Repr, DecidableEq

/-- common/src/results.rs:10-13 `struct BestSplitResult`. -/
structure BestSplitResult (F : Type) where
  gain : F
  question : Question F
  deriving Repr, DecidableEq

/-! ## numerical_calculations.rs -/

/-- common/src/numerical_calculations.rs:1-8 `add_f64_slices_as_vector`. -/
def addSlices (first second : List F) : R (List F) := do
  assertEq first.length second.length
  pure (List.zipWith F64.add first second)

/-- common/src/numerical_calculations.rs:10-17 `subtract_f64_slices_as_vector`. -/
def subtractSlices (first second : List F) : R (List F) := do
  assertEq first.length second.length
  pure (List.zipWith F64.sub first second)

/-- common/src/numerical_calculations.rs:19-31 `calculate_average_f64_vector`. -/
def calculateAverageVector (vv : List (List F)) : R (List F) := do
  let innerLength := (← idx vv 0).length
  let average ← forRange vv.length (fun i average =>
    forRange innerLength (fun j average => do
      let cur ← idx average j
      let x ← idx (← idx vv i) j
      setIdx average j (cur +. x)) average)
    (List.replicate innerLength F64.zero)
  forRange innerLength (fun j average => do
    let cur ← idx average j
    setIdx average j (cur /. F64.ofNat vv.length)) average

/-- `f64::powf(x, 2.)`: the square, computed as one multiplication (LLVM rewrites the call to that). -/
def square (x : F) : F := x *. x

/-- common/src/numerical_calculations.rs:33-46 `mean_sum_of_squared_differences_between_f64_slices`. -/
def meanSumOfSquaredDifferences (first second : List F) : R F := do
  assertEq first.length second.length
  let squaredDifferences := List.zipWith (fun a b => square (a -. b)) first second
  pure (fsum squaredDifferences /. F64.ofNat first.length)

/-- common/src/numerical_calculations.rs:48-55 `sum_of_f64_vectors`. -/
def sumOfVectors (vv : List (List F)) : R (List F) := do
  let innerLength := (← idx vv 0).length
  vv.foldlM (fun sumVector inner => addSlices sumVector inner) (List.replicate innerLength F64.zero)

/-- common/src/numerical_calculations.rs:57-64 `multiply_f64_slices_as_vector`. -/
def multiplySlices (first second : List F) : R (List F) := do
  assertEq first.length second.length
  pure (List.zipWith F64.mul first second)

/-- common/src/numerical_calculations.rs:66-73 `divide_f64_slices_as_vector`. -/
def divideSlices (first second : List F) : R (List F) := do
  assertEq first.length second.length
  pure (List.zipWith F64.div first second)

/-- common/src/numerical_calculations.rs:75-77 `multiply_f64_slice_by_f64_scalar`. -/
def multiplyByScalar (scalar : F) (vector : List F) : List F :=
  vector.map (fun element => element *. scalar)

/-! ## data_reader.rs -/

/-- A CSV file after lexing: its records, the first one being the header (data_reader.rs:71 "presume header included").
Quoting and splitting into fields is done by the `csv` crate and not modelled. -/
abbrev CsvRecords := List (List String)

/-- common/src/data_reader.rs:72-82 `read_data`.  `file = none` is a file that cannot be opened.  `csv::Reader` (default,
non-flexible) rejects a record whose number of fields differs from the first record; `parse` is serde's `f64` parser.
Both rejections end in the `unwrap` of the callers (lines 10, 18, 42, 43). -/
def readData (parse : String → Option F) (file : Option CsvRecords) : R (List (List F)) :=
  match file with
  | none => .error .unwrapErr
  | some [] => .ok []
  | some (header :: records) =>
    records.mapM (fun record =>
      if record.length = header.length then
        record.mapM (fun field => match parse field with
          | some x => .ok x
          | none => .error .unwrapErr)
      else .error .unwrapErr)

/-- common/src/data_reader.rs:84-94 `parse_data_into_features_and_labels`. -/
def parseDataIntoFeaturesAndLabels (dataSet : List (List F)) : R (SingleTargetDataSet F) :=
  dataSet.foldlM (fun (acc : SingleTargetDataSet F) row => do
    let label ← unwrap row.getLast?
    pure { features := acc.features ++ [row.dropLast], labels := acc.labels ++ [label] })
    { features := [], labels := [] }

/-- common/src/data_reader.rs:96-104 `create_multi_target_labels`. -/
def createMultiTargetLabels (labels : List F) (numberOfTargets : Nat) : R (List (List F)) :=
  labels.mapM (fun label =>
    setIdx (List.replicate numberOfTargets F64.zero) (F64.toUsize label) F64.one)

/-- common/src/data_reader.rs:106-116 `create_feature_columns`. -/
def createFeatureColumns (rows : List (List F)) : R (List (List F)) := do
  let first ← idx rows 0
  (List.range first.length).mapM (fun col =>
    (List.range rows.length).mapM (fun row => do
      idx (← idx rows row) col))

/-- common/src/data_reader.rs:9-12 `read_csv_data`. -/
def readCsvData (parse : String → Option F) (file : Option CsvRecords) : R (SingleTargetDataSet F) := do
  parseDataIntoFeaturesAndLabels (← readData parse file)

/-- common/src/data_reader.rs:14-36 `read_csv_data_one_hot_multi_target` (lines 22-29 repeat the loop of
`create_feature_columns`). -/
def readCsvDataOneHotMultiTarget (parse : String → Option F) (file : Option CsvRecords) (numberOfTargets : Nat) :
    R (DataSet F) := do
  let dataSetRead ← readData parse file
  let dataset ← parseDataIntoFeaturesAndLabels dataSetRead
  let multiTargetLabels ← createMultiTargetLabels dataset.labels numberOfTargets
  let columns ← createFeatureColumns dataset.features
  pure { featureRows := dataset.features, featureColumns := columns, labels := multiTargetLabels }

/-- common/src/data_reader.rs:38-52 `read_csv_data_multi_target`. -/
def readCsvDataMultiTarget (parse : String → Option F) (fileFeatures fileLabels : Option CsvRecords) :
    R (DataSet F) := do
  let features ← readData parse fileFeatures
  let labels ← readData parse fileLabels
  let columns ← createFeatureColumns features
  pure { featureRows := features, featureColumns := columns, labels := labels }

/-- common/src/data_reader.rs:54-69 `get_feature_names` / `get_header_record`: all header fields (an empty file has an
empty header). -/
def getFeatureNames (file : Option CsvRecords) : R (List String) :=
  match file with
  | none => .error .unwrapErr
  | some [] => .ok []
  | some (header :: _) => .ok header

/-! ## feature_sorter.rs -/

/-- `a.partial_cmp(&b) != Some(Greater)` on `(f64, usize)` tuples: lexicographic comparison. -/
def tupleLe (a b : F × Nat) : Bool :=
  (a.1 <. b.1) || ((a.1 ==. b.1) && decide (a.2 ≤ b.2))

/-- Insertion into a sorted list. -/
def insertTuple (a : F × Nat) : List (F × Nat) → List (F × Nat)
  | [] => [a]
  | b :: rest => if tupleLe a b then a :: b :: rest else b :: insertTuple a rest

/-- `sort_by(|a, b| a.partial_cmp(&b).unwrap())` (common/src/feature_sorter.rs:6).  A comparison sort on two or more
elements compares every element at least once, and comparing a NaN makes the `unwrap` panic.  Otherwise the result is the
sorted permutation; since the indices make all tuples distinct it is unique, so the algorithm does not matter
(`sorted_perm_unique` in `Verif/Props/Data.lean`); the model uses insertion sort. -/
def sortTuples (v : List (F × Nat)) : R (List (F × Nat)) :=
  if 2 ≤ v.length ∧ v.any (fun p => isNaN p.1) then .error .unwrapNone
  else .ok (v.foldr insertTuple [])

/-- common/src/feature_sorter.rs:1-8 `get_sorted_feature_tuple_vector`. -/
def getSortedFeatureTupleVector (featureColumn : List F) : R (List (F × Nat)) :=
  sortTuples featureColumn.zipIdx

/-! ## data_processor.rs -/

/-- common/src/data_processor.rs:7-24 `create_dataset_with_sorted_features`. -/
def createDatasetWithSortedFeatures (original : DataSet F) : R (SortedDataSet F) := do
  let sortedFeatureColumns ← original.featureColumns.mapM getSortedFeatureTupleVector
  pure { labels := original.labels, sortedFeatureColumns := sortedFeatureColumns }

/-- common/src/data_processor.rs:71-81, the first loop with its `break`: returns `first_encounter_index` and
`false_indices`. -/
def firstEncounterLoop (splitValue : F) : List (F × Nat) → Nat → List Nat → R (Nat × List Nat)
  | [], _, falseIndices => .ok (0, falseIndices)
  | (value, index) :: rest, i, falseIndices =>
    if value >=. splitValue then .ok (i, falseIndices)
    else do
      let falseIndices ← setIdx falseIndices index 1
      firstEncounterLoop splitValue rest (i + 1) falseIndices

/-- common/src/data_processor.rs:61-88 `collect_indices_for_partitioning`. -/
def collectIndicesForPartitioning (dataset : SortedDataSet F) (splitColumn : Nat) (splitValue : F)
    (allLabelsSize : Nat) : R (List Nat × List Nat) := do
  let col ← idx dataset.sortedFeatureColumns splitColumn
  let (firstEncounterIndex, falseIndices) ←
    firstEncounterLoop splitValue col 0 (List.replicate allLabelsSize 0)
  let trueIndices ← (List.range' firstEncounterIndex (col.length - firstEncounterIndex)).foldlM
    (fun trueIndices i => do
      let p ← idx col i
      setIdx trueIndices p.2 1) (List.replicate allLabelsSize 0)
  pure (trueIndices, falseIndices)

/-- common/src/data_processor.rs:90-105 `collect_partitioned_labels`. -/
def collectPartitionedLabels (trueIndices falseIndices : List Nat) (allLabels : List (List F)) :
    R (List (List F) × List (List F)) :=
  forRange allLabels.length (fun i (acc : List (List F) × List (List F)) => do
    if (← idx trueIndices i) = 1 then
      pure (acc.1 ++ [← idx allLabels i], acc.2)
    else if (← idx falseIndices i) = 1 then
      pure (acc.1, acc.2 ++ [← idx allLabels i])
    else pure acc) ([], [])

/-- common/src/data_processor.rs:121-134, the closure applied to each sorted column. -/
def splitSortedColumn (trueIndices : List Nat) (column : List (F × Nat)) :
    R (List (F × Nat) × List (F × Nat)) :=
  column.foldlM (fun (acc : List (F × Nat) × List (F × Nat)) p => do
    if (← idx trueIndices p.2) = 1 then pure (acc.1 ++ [p], acc.2)
    else pure (acc.1, acc.2 ++ [p])) ([], [])

/-- common/src/data_processor.rs:107-153 `collect_partitioned_feature_columns` (`par_iter().map().collect()` into a pair of
vectors, here by its result; the parallel execution is in `Verif/Model/Par.lean`). -/
def collectPartitionedFeatureColumns (dataset : SortedDataSet F) (trueIndices : List Nat) :
    R (List (List (F × Nat)) × List (List (F × Nat))) := do
  let pairs ← dataset.sortedFeatureColumns.mapM (splitSortedColumn trueIndices)
  pure (pairs.map Prod.fst, pairs.map Prod.snd)

/-- common/src/data_processor.rs:26-59 `new_partition`: returns `(true_dataset, false_dataset)`. -/
def newPartition (dataset : SortedDataSet F) (splitColumn : Nat) (splitValue : F) (allLabels : List (List F)) :
    R (SortedDataSet F × SortedDataSet F) := do
  let (trueIndices, falseIndices) ←
    collectIndicesForPartitioning dataset splitColumn splitValue allLabels.length
  let (trueLabels, falseLabels) ← collectPartitionedLabels trueIndices falseIndices allLabels
  let (trueColumns, falseColumns) ← collectPartitionedFeatureColumns dataset trueIndices
  pure ({ labels := trueLabels, sortedFeatureColumns := trueColumns },
        { labels := falseLabels, sortedFeatureColumns := falseColumns })

end Verif
