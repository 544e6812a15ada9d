import Verif.Props.ExactBoost
/-!
# Concrete cases for the theorems

The modules in `Verif/Applied` apply the theorems of `Verif/Props` to concrete data and prove every hypothesis there, so that no theorem is
empty.  Most use the sample data sets `d4` (four rows, two features, one target) and `d5` (five rows, two features, three classes), trees of three
levels, and ensembles of two or three trees with learning rate 1/2.
-/

namespace Verif.Applied

open Sample

/-- what a call that does not panic returns -/
def result {α : Type} (r : R α) (h : r.toOption.isSome = true) : α := r.toOption.get h

theorem returns {α : Type} (r : R α) (h : r.toOption.isSome = true) : r = .ok (result r h) := by
  cases r with
  | ok a => rfl
  | error e => cases h

/-- what an optional value contains -/
def content {α : Type} (o : Option α) (h : o.isSome = true) : α := o.get h

theorem contains {α : Type} (o : Option α) (h : o.isSome = true) : o = some (content o h) := by
  cases o with
  | some a => rfl
  | none => cases h

/-- three levels, several threads -/
def cfg (t : Nat) : TreeConfig := { useMultiThreading := true, numberOfClasses := t, maxLevels := 3 }

/-- the learning rate one half -/
def half : E := .fin (1 / 2)

/-- the labels of `d4` -/
def labels4 : List (List ℚ) := [[0], [1], [4], [6]]

/-- the labels of `d5` -/
def labels5 : List (List ℚ) := [[1, 0, 0], [0, 1, 0], [0, 1, 0], [0, 0, 1], [1, 0, 0]]

/-- the classes of the rows of `d5` -/
def classes : List Nat := [0, 1, 1, 2, 0]

theorem labels4_eq : d4.labels = lift labels4 := by decide +kernel
theorem labels5_eq : d5.labels = lift labels5 := by decide +kernel
theorem hot : ∀ l ∈ d5.labels, ∃ k < 3, l = oneHot 3 k := by decide +kernel
theorem classes_eq : d5.labels = classes.map (oneHot 3) := by decide +kernel

/-- the tree on `d4` -/
def tree4 : TreeNode E (RegressionLeaf E) := result (regressionTreeNew d4 (cfg 1)) (by decide +kernel)

/-- the tree on `d5` -/
def tree5 : TreeNode E (RegressionLeaf E) := result (regressionTreeNew d5 (cfg 3)) (by decide +kernel)

/-- the regression ensemble of two trees on `d4` -/
def ens4 : BoostModel E (GradBoostLeaf E) := result (regressionTrain d4 (cfg 1) 2 half) (by decide +kernel)

/-- the multi class ensemble of two trees on `d5` -/
def multi5 : BoostModel E (GradBoostLeaf E) := result (multiClassTrain d5 (cfg 3) 2 half) (by decide +kernel)

/-- the AMG ensemble of two trees on `d5` -/
def amg5 : BoostModel E (AMGBoostLeaf E) := result (amgTrain d5 (cfg 3) 2 half) (by decide +kernel)

/-- the sorted columns of `d4` -/
def sorted4 : SortedDataSet E := result (createDatasetWithSortedFeatures d4) (by decide +kernel)

theorem tree4_ok : regressionTreeNew d4 (cfg 1) = .ok tree4 := returns _ _
theorem tree5_ok : regressionTreeNew d5 (cfg 3) = .ok tree5 := returns _ _
theorem ens4_ok : regressionTrain d4 (cfg 1) 2 half = .ok ens4 := returns _ _
theorem multi5_ok : multiClassTrain d5 (cfg 3) 2 half = .ok multi5 := returns _ _
theorem amg5_ok : amgTrain d5 (cfg 3) 2 half = .ok amg5 := returns _ _
theorem sorted4_ok : createDatasetWithSortedFeatures d4 = .ok sorted4 := returns _ _

/-- proves the hypotheses that the sample data meet -/
macro "met" : tactic => `(tactic| first
  | rfl | exact d4_wf | exact d5_wf | exact labels4_eq | exact labels5_eq | exact hot | exact classes_eq
  | decide | (norm_num; done) | decide +kernel)

end Verif.Applied
