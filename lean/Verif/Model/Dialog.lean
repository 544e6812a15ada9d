import Verif.Model.Own
/-!
# What a split finder and a leaf output function of the caller see

`Verif/Model/Own.lean` takes both functions of the caller to be functions of what they are given.  They can also refer to global state, and they
can share it.  Here tree building is a program that calls them: nothing is assumed about the answers, and an execution records the
calls of both in the order in which they are answered, as in `Verif/Model/Ask.lean`.
-/

namespace Verif

/-- A program that calls the split finder and the leaf output function. -/
inductive Dialog (F : Type) : Type → Type 1 where
  /-- finished with a value or a panic -/
  | done {α : Type} (r : R α) : Dialog F α
  /-- a call of `(tree_config.split_finder.find_best_split)(&data, t)`, then `k` with the answer -/
  | split {α : Type} (data : DataSet F) (t : Nat) (k : BestSplitResult F → Dialog F α) : Dialog F α
  /-- a call of `(leaf_output_calculator.calculate_leaf_output)(&data)`, then `k` with the answer -/
  | leaf {α : Type} (data : DataSet F) (k : List F → Dialog F α) : Dialog F α
  /-- `rayon::join(l, r)`, then `k` with both results -/
  | fork {α β γ : Type} (l : Dialog F β) (r : Dialog F γ) (k : β → γ → Dialog F α) : Dialog F α

/-- A call with its answer, which may be a panic. -/
inductive Event (F : Type) where
  /-- of the split finder -/
  | split (data : DataSet F) (targets : Nat) (answer : R (BestSplitResult F))
  /-- of the leaf output function -/
  | leaf (data : DataSet F) (answer : R (List F))

namespace Dialog

variable {F : Type}

/-- Sequential composition. -/
def bind {α β : Type} : Dialog F α → (α → Dialog F β) → Dialog F β
  | .done (.ok a), k => k a
  | .done (.error e), _ => .done (.error e)
  | .split d t k', k => .split d t (fun s => bind (k' s) k)
  | .leaf d k', k => .leaf d (fun o => bind (k' o) k)
  | .fork l r k', k => .fork l r (fun a b => bind (k' a b) k)

/-- One step of some worker, with the calls (one or none) it makes. -/
inductive Step : {α : Type} → Dialog F α → List (Event F) → Dialog F α → Prop where
  /-- the finder answers -/
  | split {α : Type} {d : DataSet F} {t : Nat} {k : BestSplitResult F → Dialog F α} (s : BestSplitResult F) :
      Step (.split d t k) [.split d t (.ok s)] (k s)
  /-- the finder panics -/
  | splitPanic {α : Type} {d : DataSet F} {t : Nat} {k : BestSplitResult F → Dialog F α} (e : Panic) :
      Step (.split d t k) [.split d t (.error e)] (.done (.error e))
  /-- the leaf output function answers -/
  | leaf {α : Type} {d : DataSet F} {k : List F → Dialog F α} (o : List F) : Step (.leaf d k) [.leaf d (.ok o)] (k o)
  /-- the leaf output function panics -/
  | leafPanic {α : Type} {d : DataSet F} {k : List F → Dialog F α} (e : Panic) :
      Step (.leaf d k) [.leaf d (.error e)] (.done (.error e))
  /-- a step of the first closure of a `join` -/
  | left {α β γ : Type} {l l' : Dialog F β} {r : Dialog F γ} {k : β → γ → Dialog F α} {es : List (Event F)} :
      Step l es l' → Step (.fork l r k) es (.fork l' r k)
  /-- a step of the second closure of a `join` -/
  | right {α β γ : Type} {l : Dialog F β} {r r' : Dialog F γ} {k : β → γ → Dialog F α} {es : List (Event F)} :
      Step r es r' → Step (.fork l r k) es (.fork l r' k)
  /-- both closures returned -/
  | joinOk {α β γ : Type} {a : β} {b : γ} {k : β → γ → Dialog F α} :
      Step (.fork (.done (.ok a)) (.done (.ok b)) k) [] (k a b)
  /-- the first closure panicked: after the second has finished, its panic is propagated (rayon-core `join`) -/
  | joinPanicLeft {α β γ : Type} {e : Panic} {r : R γ} {k : β → γ → Dialog F α} :
      Step (.fork (.done (.error e)) (.done r) k) [] (.done (.error e))
  /-- only the second closure panicked -/
  | joinPanicRight {α β γ : Type} {a : β} {e : Panic} {k : β → γ → Dialog F α} :
      Step (.fork (.done (.ok a)) (.done (.error e)) k) [] (.done (.error e))

/-- Any number of steps, with the record of the calls. -/
inductive Run : {α : Type} → Dialog F α → List (Event F) → Dialog F α → Prop where
  | refl {α : Type} {p : Dialog F α} : Run p [] p
  | step {α : Type} {p q u : Dialog F α} {es trace : List (Event F)} : Step p es q → Run q trace u → Run p (es ++ trace) u

end Dialog

section
variable {F : Type} [F64 F] {L : Type}
open Dialog

/-- grad_boost/grad_boost_tree_builder.rs:19-22: the leaf with a given output. -/
def gradBoostLeafWith (leafOutput : List F) : GradBoostLeaf F := { leafOutput := some leafOutput }

/-- grad_boost/approximate_grad_boost_tree_builder.rs:19-23: the leaf with a given output. -/
def amgLeafWith (leafOutput : List F) : AMGBoostLeaf F :=
  let (maxValue, cls) := findMaxValueAndIndex leafOutput
  { maxValue := some maxValue, cls := some cls }

/-- grad_boost/grad_boost_tree_builder.rs:8-46 `build_grad_boost_regression_tree` and
grad_boost/approximate_grad_boost_tree_builder.rs:7-47 `build_approximate_grad_boost_regression_tree`, which differ only in the leaves. -/
def buildCalling (leafWith : List F → L) (cfg : TreeConfig) (data : DataSet F) (currentLevel : Nat) : Dialog F (TreeNode F L) :=
  .split data cfg.numberOfClasses fun splitResult =>
  if (splitResult.gain ==. F64.zero) || currentLevel == cfg.maxLevels then
    .leaf data fun leafOutput =>
    .done (.ok (TreeNode.leafNode splitResult.question (leafWith leafOutput)))
  else if _h : currentLevel < cfg.maxLevels then
    bind (.done (partition data splitResult.question)) fun partitionedData =>
    bind (buildCalling leafWith cfg partitionedData.2 (currentLevel + 1)) fun leftTree =>
    bind (buildCalling leafWith cfg partitionedData.1 (currentLevel + 1)) fun rightTree =>
    .done (.ok (TreeNode.new splitResult.question leftTree rightTree))
  else .done levelOverrun
termination_by cfg.maxLevels - currentLevel

/-- grad_boost/grad_boost_tree_builder.rs:48-92 `build_grad_boost_regression_tree_using_multiple_threads` and
grad_boost/approximate_grad_boost_tree_builder.rs:49-95 `build_approximate_grad_boost_regression_tree_using_multiple_threads`. -/
def buildCallingMT (leafWith : List F → L) (cfg : TreeConfig) (data : DataSet F) (currentLevel : Nat) : Dialog F (TreeNode F L) :=
  .split data cfg.numberOfClasses fun splitResult =>
  if (splitResult.gain ==. F64.zero) || currentLevel == cfg.maxLevels then
    .leaf data fun leafOutput =>
    .done (.ok (TreeNode.leafNode splitResult.question (leafWith leafOutput)))
  else if _h : currentLevel < cfg.maxLevels then
    bind (.done (partition data splitResult.question)) fun partitionedData =>
    .fork
      (buildCallingMT leafWith cfg partitionedData.2 (currentLevel + 1))
      (buildCallingMT leafWith cfg partitionedData.1 (currentLevel + 1)) fun leftTree rightTree =>
    .done (.ok (TreeNode.new splitResult.question leftTree rightTree))
  else .done levelOverrun
termination_by cfg.maxLevels - currentLevel

/-- tree/grad_boost_decision_trees.rs:23-48 `GradBoostMultiTargetDecisionTree::new` (with `gradBoostLeafWith`) and
tree/grad_boost_decision_trees.rs:56-81 `AMGBoostTree::new` (with `amgLeafWith`). -/
def treeCalling (leafWith : List F → L) (data : DataSet F) (cfg : TreeConfig) : Dialog F (TreeNode F L) :=
  match cfg.useMultiThreading with
  | true => buildCallingMT leafWith cfg data 0
  | false => buildCalling leafWith cfg data 0

end

end Verif
