import Verif.Props.Print
import Verif.Props.Sample
/-!
# C95: the printed form of a tree determines its predictions
-/

set_option linter.unusedSectionVars false

namespace Verif

open Sample

variable {F : Type} [F64 F]

/-- two trees whose printed lines are followed by something else: the lines end at the same place and the trees are the same -/
theorem print_back {names : List String} (hn : names.Nodup) {tree : TreeNode F (RegressionLeaf F)} (h : tree.Proper) :
    ∀ {tree' : TreeNode F (RegressionLeaf F)}, tree'.Proper → ∀ {spacing : String} {lines lines' rest rest' : List (PrintLine F)},
    printTreeRegression names tree spacing = .ok lines → printTreeRegression names tree' spacing = .ok lines' →
    lines ++ rest = lines' ++ rest' →
    rest = rest' ∧ (∀ p, tree.questionAt p = tree'.questionAt p) ∧ (∀ p, tree.leafAt p = tree'.leafAt p) ∧
      ∀ row, findLeafNodeForData row tree = findLeafNodeForData row tree' := by
  induction h with
  | leaf q l =>
    intro tree' h' spacing lines lines' rest rest' hp hp' he
    cases hp
    cases h' with
    | leaf q' l' =>
      cases hp'
      simp only [List.cons_append, List.nil_append, List.cons.injEq, PrintLine.predict.injEq, true_and] at he
      obtain ⟨hd, hr⟩ := he
      have : l = l' := by cases l; cases l'; simpa using hd
      subst this
      refine ⟨hr, fun p => ?_, fun p => ?_, fun row => ?_⟩
      · cases p <;> simp [TreeNode.questionAt]
      · cases p <;> simp [TreeNode.leafAt]
      · simp [findLeafNodeForData]
    | node q' a' b' _ _ =>
      obtain ⟨name, la, lb, _, _, _, rfl⟩ := print_node hp'
      simp at he
  | node q a b _ _ iha ihb =>
    intro tree' h' spacing lines lines' rest rest' hp hp' he
    obtain ⟨name, la, lb, h1, h2, h3, rfl⟩ := print_node hp
    cases h' with
    | leaf q' l' =>
      cases hp'
      simp at he
    | node q' a' b' ha' hb' =>
      obtain ⟨name', la', lb', k1, k2, k3, rfl⟩ := print_node hp'
      simp only [List.cons_append, List.nil_append, List.append_assoc, List.cons.injEq, PrintLine.question.injEq, true_and] at he
      obtain ⟨⟨hname, hval⟩, he⟩ := he
      obtain ⟨e1, qa, fa, ga⟩ := iha ha' h2 k2 he
      simp only [List.cons.injEq, true_and] at e1
      obtain ⟨e2, qb, fb, gb⟩ := ihb hb' h3 k3 e1
      have hq : q = q' := by
        obtain ⟨j, v⟩ := q
        obtain ⟨j', v'⟩ := q'
        simp only at hval h1 k1
        subst hval hname
        rw [← k1] at h1
        have hj : j < names.length := by
          by_contra hlt
          rw [List.getElem?_eq_none (by omega)] at h1
          rw [← h1] at k1
          cases k1
        exact congrArg (Question.mk · v) ((List.getElem?_inj hj hn).mp h1)
      subst hq
      refine ⟨e2, fun p => ?_, fun p => ?_, fun row => ?_⟩
      · match p with
        | [] => rfl
        | true :: p => exact qa p
        | false :: p => exact qb p
      · match p with
        | [] => rfl
        | true :: p => exact fa p
        | false :: p => exact fb p
      · simp [findLeafNodeForData, ga, gb]

/-- **C95**.  If the feature names are distinct, two trees that are printed in the same way are the same tree: they ask the same
questions, have the same leaves, and treat every row in the same way. -/
theorem C95_print_determines (names : List String) (hn : names.Nodup) (tree tree' : TreeNode F (RegressionLeaf F)) (h : tree.Proper)
    (h' : tree'.Proper) (spacing : String) (lines : List (PrintLine F)) (hp : printTreeRegression names tree spacing = .ok lines)
    (hp' : printTreeRegression names tree' spacing = .ok lines) :
    (∀ p, tree.questionAt p = tree'.questionAt p) ∧ (∀ p, tree.leafAt p = tree'.leafAt p) ∧
      ∀ row, findLeafNodeForData row tree = findLeafNodeForData row tree' :=
  (print_back (rest := []) (rest' := []) hn h h' hp hp' rfl).2

/-- **C95** for trained trees: whatever two training sets and configurations they come from, if they are printed in the same way they
predict the same leaf for every row, and they have the same score on every test set. -/
theorem C95_trained_trees [LawfulOrder F] (d d' : DataSet F) (c c' t t' : ℕ) (h : d.WF c t) (h' : d'.WF c' t') (cfg cfg' : TreeConfig)
    (ht : cfg.numberOfClasses = t) (ht' : cfg'.numberOfClasses = t') (tree tree' : TreeNode F (RegressionLeaf F))
    (hb : regressionTreeNew d cfg = .ok tree) (hb' : regressionTreeNew d' cfg' = .ok tree') (names : List String) (hn : names.Nodup)
    (spacing : String) (lines : List (PrintLine F)) (hp : printTreeRegression names tree spacing = .ok lines)
    (hp' : printTreeRegression names tree' spacing = .ok lines) :
    (∀ row, findLeafNodeForData row tree = findLeafNodeForData row tree') ∧
    ∀ test, calculateOverallMse test tree = calculateOverallMse test tree' := by
  have p1 : tree.Proper := by
    rw [regressionTreeNew_ok h ht] at hb
    cases hb
    exact treeOf_proper _ _
  have p2 : tree'.Proper := by
    rw [regressionTreeNew_ok h' ht'] at hb'
    cases hb'
    exact treeOf_proper _ _
  have hf := (C95_print_determines names hn tree tree' p1 p2 spacing lines hp hp').2.2
  refine ⟨hf, fun test => ?_⟩
  simp only [calculateOverallMse, hf]

/-- **C95**, conversely: trees that ask the same questions and have the same leaves are printed in the same way. -/
theorem C95_same_print (names : List String) (tree tree' : TreeNode F (RegressionLeaf F)) (h : tree.Proper) (h' : tree'.Proper)
    (hq : ∀ p, tree.questionAt p = tree'.questionAt p) (hl : ∀ p, tree.leafAt p = tree'.leafAt p) (spacing : String) :
    printTreeRegression names tree spacing = printTreeRegression names tree' spacing := by
  induction h generalizing tree' spacing with
  | leaf q l =>
    cases h' with
    | leaf q' l' =>
      have : l = l' := by simpa [TreeNode.leafAt] using hl []
      subst this
      rfl
    | node => exact absurd (hq []) (by simp [TreeNode.questionAt])
  | node q a b _ _ iha ihb =>
    cases h' with
    | leaf => exact absurd (hq []) (by simp [TreeNode.questionAt])
    | node q' a' b' ha' hb' =>
      have : q = q' := by simpa [TreeNode.questionAt] using hq []
      subst this
      simp only [printTreeRegression]
      rw [iha a' ha' (fun p => hq (true :: p)) (fun p => hl (true :: p)), ihb b' hb' (fun p => hq (false :: p)) (fun p => hl (false :: p))]

/-- The trees of `d4` built with and without threads are printed in the same way, with the distinct names a and b. -/
example : ∃ tree tree' lines, regressionTreeNew d4 { useMultiThreading := false, numberOfClasses := 1, maxLevels := 5 } = .ok tree ∧
    regressionTreeNew d4 { useMultiThreading := true, numberOfClasses := 1, maxLevels := 5 } = .ok tree' ∧ ["a", "b"].Nodup ∧
    printTreeRegression ["a", "b"] tree "" = .ok lines ∧ printTreeRegression ["a", "b"] tree' "" = .ok lines := by
  have h1 := regressionTreeNew_ok d4_wf (show ({ useMultiThreading := false, numberOfClasses := 1, maxLevels := 5 } : TreeConfig).numberOfClasses = 1 from rfl)
  have h2 := regressionTreeNew_ok d4_wf (show ({ useMultiThreading := true, numberOfClasses := 1, maxLevels := 5 } : TreeConfig).numberOfClasses = 1 from rfl)
  obtain ⟨_, lines, hl⟩ := C47_built_trees_print d4 2 1 d4_wf _ rfl _ h1 ["a", "b"] (by decide) ""
  exact ⟨_, _, lines, h1, h2, by decide, hl, hl⟩

/-- a tree with one question and nothing in its leaves -/
def Sample.bare (j : ℕ) : TreeNode E (RegressionLeaf E) :=
  TreeNode.new ⟨j, 1⟩ (TreeNode.leafNode ⟨0, 0⟩ ⟨some { featureRows := [], labels := [[1]], featureColumns := [] }⟩)
    (TreeNode.leafNode ⟨0, 0⟩ ⟨some { featureRows := [], labels := [[2]], featureColumns := [] }⟩)

/-- **C95** needs distinct names: two trees that ask about different features with the same name are printed in the same way, but they
predict different labels. -/
theorem C95_violated_by_equal_names : ∃ lines, printTreeRegression ["a", "a"] (bare 0) "" = .ok lines ∧
    printTreeRegression ["a", "a"] (bare 1) "" = .ok lines ∧
    (findLeafNodeForData [0, 1] (bare 0)).map (fun l => l.data.map DataSet.labels) = .ok (some [[2]]) ∧
    (findLeafNodeForData [0, 1] (bare 1)).map (fun l => l.data.map DataSet.labels) = .ok (some [[1]]) :=
  ⟨_, rfl, rfl, by decide +kernel, by decide +kernel⟩

end Verif
