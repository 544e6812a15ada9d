import Verif.Lemmas.ExactCut
import Verif.Lemmas.Greedy
import Verif.Props.Tree
import Verif.Props.Exact
/-!
# C48, C49: greedy growth, and what the split search reports

C48 holds for any arithmetic with the comparison laws; C49 is about exact arithmetic.
-/

set_option linter.unusedSectionVars false

namespace Verif

open Sample

section growth
variable {F : Type} [F64 F]

/-! ## C48 -/

/-- **C48**.  Every tree builder grows its tree greedily: at each position the node asks exactly the question that the split search
finds for the training examples that arrive there, and it is a leaf exactly if the depth limit is reached or the gain found is
zero. -/
theorem C48_grown_greedily [LawfulOrder F] (d : DataSet F) (c t : Nat) (h : d.WF c t) (cfg : TreeConfig)
    (ht : cfg.numberOfClasses = t) (k : LeafOutputType) :
    (∀ tree, regressionTreeNew d cfg = .ok tree → GrownGreedily d c t cfg.maxLevels tree) ∧
    (∀ tree, gradBoostTreeNew d cfg k = .ok tree → GrownGreedily d c t cfg.maxLevels tree) ∧
    (∀ tree, amgTreeNew d cfg k = .ok tree → GrownGreedily d c t cfg.maxLevels tree) := by
  refine ⟨fun tree htree => ?_, fun tree htree => ?_, fun tree htree => ?_⟩
  · rw [regressionTreeNew_ok h ht] at htree
    rw [← Except.ok.inj htree]
    exact treeOf_greedy _ d h
  · rw [gradBoostTreeNew_ok h ht] at htree
    rw [← Except.ok.inj htree]
    exact treeOf_greedy _ d h
  · rw [amgTreeNew_ok h ht] at htree
    rw [← Except.ok.inj htree]
    exact treeOf_greedy _ d h

/-- **C48**.  The same for the builder on sorted columns (which takes the number of targets from the labels). -/
theorem C48_grown_greedily_sorted [LawfulOrder F] (d : DataSet F) (c t : Nat) (h : d.WF c t) (ht : t < 2 ^ 32) (cfg : TreeConfig)
    (s : SortedDataSet F) (hs : createDatasetWithSortedFeatures d = .ok s) (tree : TreeNode F (RegressionLeafNewPartition F))
    (htree : regressionTreeNewPartitionNew s cfg = .ok tree) : GrownGreedily d c t cfg.maxLevels tree := by
  obtain ⟨s', hs', hl, hr⟩ := createSorted_ok h
  rw [hs] at hs'
  cases hs'
  have hne : List.range d.featureRows.length ≠ [] := by
    simp [List.range_eq_nil]
    exact h.rows_ne
  obtain ⟨tree', htree', heq⟩ := buildSorted_ok h ht cfg cfg.maxLevels s _ 0 hr hne (by omega)
  rw [sub_all h] at heq
  rw [regressionTreeNewPartitionNew, hl, htree'] at htree
  cases htree
  exact grownGreedily_of_mapLeaves heq (treeOf_greedy _ d h)

/-- **C48**.  In a tree returned by a builder, `is_leaf_node` holds exactly for the nodes with leaf data, which are exactly the nodes
that ask no question. -/
theorem C48_is_leaf_node (d : DataSet F) (s : SortedDataSet F) (cfg : TreeConfig) (k : LeafOutputType) :
    (∀ tree, regressionTreeNew d cfg = .ok tree → ∀ p sub, tree.subtreeAt p = some sub →
      (sub.isLeafNode = true ↔ (tree.leafAt p).isSome = true) ∧ (sub.isLeafNode = true ↔ tree.questionAt p = none)) ∧
    (∀ tree, gradBoostTreeNew d cfg k = .ok tree → ∀ p sub, tree.subtreeAt p = some sub →
      (sub.isLeafNode = true ↔ (tree.leafAt p).isSome = true) ∧ (sub.isLeafNode = true ↔ tree.questionAt p = none)) ∧
    (∀ tree, amgTreeNew d cfg k = .ok tree → ∀ p sub, tree.subtreeAt p = some sub →
      (sub.isLeafNode = true ↔ (tree.leafAt p).isSome = true) ∧ (sub.isLeafNode = true ↔ tree.questionAt p = none)) ∧
    (∀ tree, regressionTreeNewPartitionNew s cfg = .ok tree → ∀ p sub, tree.subtreeAt p = some sub →
      (sub.isLeafNode = true ↔ (tree.leafAt p).isSome = true) ∧ (sub.isLeafNode = true ↔ tree.questionAt p = none)) := by
  have key : ∀ {L : Type} (tree : TreeNode F L), tree.Proper → ∀ p sub, tree.subtreeAt p = some sub →
      (sub.isLeafNode = true ↔ (tree.leafAt p).isSome = true) ∧ (sub.isLeafNode = true ↔ tree.questionAt p = none) := by
    intro L tree hp
    induction hp with
    | leaf q l =>
      intro p sub hsub
      cases p with
      | nil => cases hsub; simp [TreeNode.isLeafNode, TreeNode.trueBranch, TreeNode.falseBranch, TreeNode.leafAt, TreeNode.questionAt]
      | cons b p => simp [TreeNode.subtreeAt] at hsub
    | node q a b _ _ iha ihb =>
      intro p sub hsub
      match p with
      | [] => cases hsub; simp [TreeNode.isLeafNode, TreeNode.trueBranch, TreeNode.falseBranch, TreeNode.leafAt, TreeNode.questionAt]
      | true :: p => exact iha p sub hsub
      | false :: p => exact ihb p sub hsub
  obtain ⟨h1, h2, h3, h4⟩ := C18_depth d s cfg k
  exact ⟨fun tree h => key tree (h1 tree h).1, fun tree h => key tree (h2 tree h).1, fun tree h => key tree (h3 tree h).1,
    fun tree h => key tree (h4 tree h).1⟩

-- on `d4` with two levels: the root and its true branch ask the questions found, everything at depth two is a leaf
example : (regressionTreeNew d4 { useMultiThreading := false, numberOfClasses := 1, maxLevels := 2 }).map
      (fun tree => [tree.questionAt [], tree.questionAt [true], tree.questionAt [true, true]]) =
    .ok [some { column := 0, value := 1 }, some { column := 1, value := 7 }, none] := by decide +kernel
example : (regressionTreeNew d4 { useMultiThreading := false, numberOfClasses := 1, maxLevels := 2 }).map
      (fun tree => (tree.depth, (reaching d4 tree [true]).length)) = .ok (2, 3) := by decide +kernel

end growth

section exact
variable {K : Type} [Field K] [LinearOrder K] [IsStrictOrderedRing K] [FloorSemiring K] [HasExp K]

/-! ## C49 -/

/-- **C49**.  In exact arithmetic, `find_best_split` reports precisely the first best cut of the ordered rows; this determines its
result completely, repeated feature values included. -/
theorem C49_reports_best_cut (d : DataSet (Ext K)) (c t : Nat) (h : d.WF c t) (ls : List (List K)) (hls : d.labels = lift ls)
    (s : BestSplitResult (Ext K)) : findBestSplit d t = .ok s ↔ ReportsBestCut c t d.featureRows ls s := by
  rw [findBestSplit_ok h]
  constructor
  · intro hs
    rw [← Except.ok.inj hs]
    exact splitOf_cut h hls
  · intro hs
    rw [reportsBestCut_unique (fun j hj => h.col_nan hj) (splitOf_cut h hls) hs]

/-- **C49**.  The cut before a row and the question about its value are the same thing when no other row has this value. -/
theorem C49_cut_is_question (d : DataSet (Ext K)) (c t : Nat) (h : d.WF c t) (ls : List (List K)) (hls : d.labels = lift ls)
    (j r : Nat) (hj : j < c) (hr : r < d.featureRows.length)
    (hu : ∀ a < d.featureRows.length, ((column d.featureRows j).getD a F64.zero ==. (column d.featureRows j).getD r F64.zero) = true → a = r) :
    cutReduction t d.featureRows ls j r =
      varianceReduction t d.featureRows ls { column := j, value := (column d.featureRows j).getD r F64.zero } := by
  have hlen : ls.length = d.featureRows.length := by rw [← h.label_count, hls, lift_length]
  have hcmp : ∀ a < d.featureRows.length, comesBefore d.featureRows j a r =
      !satisfies { column := j, value := (column d.featureRows j).getD r F64.zero } (d.featureRows.getD a []) := by
    intro a ha
    have hra : d.featureRows.getD a [] ∈ d.featureRows := by
      simp [ha]
    rw [satisfies_getD h.row_len (q := { column := j, value := (column d.featureRows j).getD r F64.zero }) hj hra]
    have hga : (d.featureRows.getD a []).getD j F64.zero = (column d.featureRows j).getD a F64.zero := by
      simp [column, ha]
    simp only [hga]
    have hna : NN ((column d.featureRows j).getD a F64.zero) :=
      nn_of_isNaN_false (h.col_nan hj _ (getD_mem (by rwa [column_length])))
    have hnr : NN ((column d.featureRows j).getD r F64.zero) :=
      nn_of_isNaN_false (h.col_nan hj _ (getD_mem (by rwa [column_length])))
    by_cases har : a = r
    · subst har
      rw [le_rfl' hna]; simp [comesBefore, lt_irrefl']
    · have hne : ((column d.featureRows j).getD a F64.zero ==. (column d.featureRows j).getD r F64.zero) = false := by
        cases he : ((column d.featureRows j).getD a F64.zero ==. (column d.featureRows j).getD r F64.zero) with
        | false => rfl
        | true => exact absurd (hu a ha he) har
      rw [comesBefore, hne, Bool.false_and, Bool.or_false]
      cases hlt : ((column d.featureRows j).getD a F64.zero <. (column d.featureRows j).getD r F64.zero) with
      | true => rw [(not_le hnr hna).mpr hlt]; rfl
      | false => rw [(not_lt hna hnr).mp hlt]; rfl
  have hz : d.featureRows.zip ls = (List.range d.featureRows.length).map (fun a => (d.featureRows.getD a [], ls.getD a [])) := by
    apply List.ext_getElem (by simp [hlen])
    intro i h1 h2
    simp at h1 h2
    simp [h1]
  have h1 : labelsBefore d.featureRows ls j r =
      noLabels d.featureRows ls { column := j, value := (column d.featureRows j).getD r F64.zero } := by
    rw [labelsBefore, noLabels, hz, List.filter_map, List.map_map]
    congr 1
    apply List.filter_congr
    intro a ha
    exact hcmp a (List.mem_range.mp ha)
  have h2 : labelsFrom d.featureRows ls j r =
      yesLabels d.featureRows ls { column := j, value := (column d.featureRows j).getD r F64.zero } := by
    rw [labelsFrom, yesLabels, hz, List.filter_map, List.map_map]
    congr 1
    apply List.filter_congr
    intro a ha
    rw [hcmp a (List.mem_range.mp ha), Bool.not_not]
    rfl
  rw [cutReduction, varianceReduction, h1, h2]

-- with repeated values: the best cut of `ties3` is before row 2 in feature 0, although rows 1 and 2 have the same value there
example : ties3.WF 2 1 ∧ ties3.labels = lift [[0], [0], [1]] ∧ cutReduction 1 ties3.featureRows [[0], [0], [1]] 0 2 = 2 / 9 :=
  ⟨ties3_wf, by decide +kernel⟩
example : IsCut ties3.featureRows 0 2 := ⟨by decide, 0, by decide, by decide +kernel⟩
example : ReportsBestCut 2 1 ties3.featureRows [[0], [0], [1]] { gain := .fin (2 / 9), question := { column := 0, value := 1 } } :=
  (C49_reports_best_cut ties3 2 1 ties3_wf _ (by decide +kernel) _).mp (by decide +kernel)

end exact

end Verif
