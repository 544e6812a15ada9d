import Verif.Model.Boost
/-!
# What is printed, also before a panic

`printTreeRegression` and `mainProgram` give what is printed by a call that ends normally.  Here the lines that are printed before a panic are
recorded as well.
-/

namespace Verif

/-- what a piece of code prints, line by line, and how it ends: every `println!` adds a line, and a panic does not take back the lines printed
before it -/
structure Printed (Line α : Type) where
  lines : List Line
  result : R α

namespace Printed
variable {Line α β : Type}

/-- code that prints nothing -/
def quiet (r : R α) : Printed Line α := ⟨[], r⟩

/-- `println!` -/
def say (line : Line) : Printed Line Unit := ⟨[line], .ok ()⟩

/-- one piece of code after the other; after a panic there is no more output -/
def andThen (x : Printed Line α) (f : α → Printed Line β) : Printed Line β :=
  match x.result with
  | .ok a => ⟨x.lines ++ (f a).lines, (f a).result⟩
  | .error e => ⟨x.lines, .error e⟩

instance : Monad (Printed Line) where
  pure a := quiet (.ok a)
  bind := andThen

end Printed

variable {F : Type} [F64 F]

/-- tree/tree_print.rs:3-35 `print_tree_regression`, with the lines printed before a panic. -/
def printTreeOut (featureNames : List String) : TreeNode F (RegressionLeaf F) → String → Printed (PrintLine F) Unit
  | .mk q trueBranch falseBranch leaf, spacing =>
    match leaf with
    | some l => .say (.predict spacing l.data)
    | none => do
      let name ← .quiet (idx featureNames q.column)
      .say (.question spacing name q.value)
      .say (.trueMarker spacing)
      match trueBranch with
        | some t => printTreeOut featureNames t (spacing ++ "    ")
        | none => .quiet (.error .unwrapNone)
      .say (.falseMarker spacing)
      match falseBranch with
        | some f => printTreeOut featureNames f (spacing ++ "    ")
        | none => .quiet (.error .unwrapNone)

/-- The lines that `main` prints: vectors (main.rs:20, 44, 45), the elapsed time, whose value is left out (main.rs:31), and numbers (main.rs:40, 41). -/
inductive MainLine (F : Type) where
  | vector (v : List F)
  | elapsed
  | number (x : F)
  deriving DecidableEq

/-- main/src/main.rs:13-46 `main`, with the lines printed before a panic.  The four files are parameters, as are the learning rate `0.1` and the
function `f64::sqrt`, which is used for a printed line only. -/
def mainOut (parse : String → Option F) (sqrt : F → F) (featuresTrain labelsTrain featuresTest labelsTest : Option CsvRecords)
    (learningRate : F) : Printed (MainLine F) Unit := do
  let trueData ← .quiet (readCsvDataMultiTarget parse featuresTrain labelsTrain)
  let label10 ← .quiet (idx trueData.labels 10)
  .say (.vector label10)
  let cfg : TreeConfig := { useMultiThreading := true, numberOfClasses := 10, maxLevels := 3 }
  let ensemble ← .quiet (regressionTrain trueData cfg 300 learningRate)
  .say .elapsed
  let testSet ← .quiet (readCsvDataMultiTarget parse featuresTest labelsTest)
  let mse ← .quiet (regressionScore ensemble testSet)
  .say (.number mse)
  .say (.number (sqrt mse))
  let row ← .quiet (idx testSet.featureRows 0)
  let prediction ← .quiet (regressionPredict ensemble row)
  let label0 ← .quiet (idx testSet.labels 0)
  .say (.vector label0)
  .say (.vector prediction)

end Verif
