import Verif.Props.Place
import Verif.Props.Size
import Verif.Props.SingleTree
import Verif.Spec.Redundant
/-!
# C67: settings that cannot learn anything

No levels to grow, or no feature that tells two training rows apart: all trees are single leaves, and predictions do not look at the row.
In exact arithmetic the regression ensemble then predicts the average label.  With learning rate zero the ensembles predict their
initial guess.
-/

set_option linter.unusedSectionVars false

namespace Verif

open Sample

section generic
variable {F : Type} [F64 F] [LawfulOrder F] {L : Type}

theorem single_of_proper {tree : TreeNode F L} (hp : tree.Proper) (hq : tree.questionAt [] = none) : ∃ leaf, SingleLeaf tree leaf := by
  cases hp with
  | leaf q l => exact ⟨l, fun row => ⟨rfl, rfl⟩⟩
  | node q a b ha hb => simp [TreeNode.questionAt] at hq

theorem grown_single {d : DataSet F} {c t m : Nat} {tree : TreeNode F L} (hp : tree.Proper) (hd : tree.depth ≤ m)
    (h : GrownGreedily d c t m tree) (hn : NothingToAsk d.featureRows c m) : ∃ leaf, SingleLeaf tree leaf := by
  rcases hn with rfl | hn
  · cases hp with
    | leaf q l => exact ⟨l, fun row => ⟨rfl, rfl⟩⟩
    | node q a b ha hb => simp [TreeNode.depth] at hd
  · apply single_of_proper hp
    cases hq : tree.questionAt [] with
    | none => rfl
    | some q =>
      obtain ⟨h1, ⟨r, hr, hv⟩, r', hr', u, hu, hlt⟩ := grown_questions h hq
      have := hn q.column h1 r' hr' r hr u q.value hu hv
      exact absurd ((LawfulOrder.eq_iff.mp this).2.symm.trans (LawfulOrder.lt_iff.mp hlt).2) (by simp)

/-- **C67** (trees).  Every tree grown is a single leaf. -/
theorem C67_tree (d : DataSet F) (c t : Nat) (hw : d.WF c t) (cfg : TreeConfig) (hc : cfg.numberOfClasses = t) (k : LeafOutputType)
    (hn : NothingToAsk d.featureRows c cfg.maxLevels) :
    (∃ tree leaf, regressionTreeNew d cfg = .ok tree ∧ SingleLeaf tree leaf) ∧
    (∃ tree leaf, gradBoostTreeNew d cfg k = .ok tree ∧ SingleLeaf tree leaf) ∧
    ∃ tree leaf, amgTreeNew d cfg k = .ok tree ∧ SingleLeaf tree leaf := by
  refine ⟨?_, ?_, ?_⟩
  · obtain ⟨leaf, hl⟩ := grown_single (treeOf_proper _ _) (treeOf_depth_le _ _) (treeOf_greedy (leafOf := regLeaf) cfg.maxLevels _ hw) hn
    exact ⟨_, leaf, regressionTreeNew_ok hw hc, hl⟩
  · obtain ⟨leaf, hl⟩ := grown_single (treeOf_proper _ _) (treeOf_depth_le _ _) (treeOf_greedy (leafOf := gradLeaf k t) cfg.maxLevels _ hw) hn
    exact ⟨_, leaf, gradBoostTreeNew_ok hw hc k, hl⟩
  · obtain ⟨leaf, hl⟩ := grown_single (treeOf_proper _ _) (treeOf_depth_le _ _) (treeOf_greedy (leafOf := amgLeaf k t) cfg.maxLevels _ hw) hn
    exact ⟨_, leaf, amgTreeNew_ok hw hc k, hl⟩

/-- **C67** (trees on sorted data). -/
theorem C67_sorted_tree (d : DataSet F) (c t : Nat) (hw : d.WF c t) (ht : t < 2 ^ 32) (cfg : TreeConfig) (s : SortedDataSet F)
    (hs : createDatasetWithSortedFeatures d = .ok s) (tree : TreeNode F (RegressionLeafNewPartition F))
    (htree : regressionTreeNewPartitionNew s cfg = .ok tree) (hn : NothingToAsk d.featureRows c cfg.maxLevels) :
    ∃ leaf, SingleLeaf tree leaf :=
  have hp := (C18_depth d s cfg .regression).2.2.2 tree htree
  grown_single hp.1 hp.2 (C48_grown_greedily_sorted d c t hw ht cfg s hs tree htree) hn

theorem trees_single {d : DataSet F} {c t m : Nat} {leafOf : DataSet F → L} {trees : List (TreeNode F L)}
    (ht : ∀ tree ∈ trees, ∃ r, ({ d with labels := r } : DataSet F).WF c t ∧ tree = treeOf leafOf c t m { d with labels := r })
    (hn : NothingToAsk d.featureRows c m) (row row' : List F) :
    ∀ tree ∈ trees, findLeafNodeForData row tree = findLeafNodeForData row' tree := by
  intro tree htree
  obtain ⟨r, hw, rfl⟩ := ht tree htree
  obtain ⟨leaf, hl⟩ := grown_single (treeOf_proper _ _) (treeOf_depth_le _ _) (treeOf_greedy (leafOf := leafOf) m _ hw) hn
  rw [(hl row).2, (hl row').2]

/-- **C67** (ensembles).  Predictions are the same for all rows, whatever their values and their length. -/
theorem C67_same_for_all_rows (d : DataSet F) (c t : Nat) (hw : d.WF c t) (cfg : TreeConfig) (hc : cfg.numberOfClasses = t)
    (hn : NothingToAsk d.featureRows c cfg.maxLevels) (n : Nat) (lr : F) (row row' : List F) :
    (∀ m, regressionTrain d cfg n lr = .ok m → regressionPredict m row = regressionPredict m row') ∧
    (∀ m, multiClassTrain d cfg n lr = .ok m → multiClassPredict m row = multiClassPredict m row') ∧
    (∀ m, amgTrain d cfg n lr = .ok m → amgPredict m row = amgPredict m row') := by
  refine ⟨fun m h => ?_, fun m h => ?_, fun m h => ?_⟩
  · have := trees_single (regression_trees_of hw hc h) hn row row'
    simp only [regressionPredict, predictInstance_eq]
    exact rawScore_congr (fun tree ht => by simp only [gradOut, this tree ht])
  · have := trees_single (multiClass_trees_of hw hc h) hn row row'
    simp only [multiClassPredict, predictInstance_eq]
    rw [rawScore_congr (row' := row') (fun tree ht => by simp only [gradOut, this tree ht])]
  · have := trees_single (amg_trees_of hw hc h) hn row row'
    simp only [amgPredict, amgPredictInstance_eq]
    rw [rawScore_congr (row' := row') (fun tree ht => by simp only [amgOut, this tree ht])]

end generic

section exact
variable {K : Type} [Field K] [LinearOrder K] [IsStrictOrderedRing K] [FloorSemiring K] [HasExp K]

/-- **C67** (average).  The regression ensemble then predicts the average label, for every row, number of iterations and learning rate. -/
theorem C67_average (d : DataSet (Ext K)) (c t : Nat) (h : d.WF c t) (ls : List (List K)) (hls : d.labels = lift ls) (cfg : TreeConfig)
    (hc : cfg.numberOfClasses = t) (hn : NothingToAsk d.featureRows c cfg.maxLevels) (n : Nat) (lr : K) :
    ∃ m, regressionTrain d cfg n (.fin lr) = .ok m ∧ m.trees.length = n ∧
      ∀ row : List (Ext K), regressionPredict m row = .ok (liftV (meanVec t ls)) := by
  have hlw := lift_width hls h.label_len
  have hll : ls.length = d.featureRows.length := by rw [← h.label_count, hls, lift_length]
  obtain ⟨s, ps, h1, hs⟩ := regState_loop (lr := lr) h hls hc n
  have htrain := regressionTrain_of_loop h hls h1
  refine ⟨_, htrain, boostLoop_length h1, ?_⟩
  have hsame := fun row row' => (C67_same_for_all_rows d c t h cfg hc hn n (.fin lr) row row').1 _ htrain
  have hp := predict_of_state h hs
  have hpl : ps.length = d.featureRows.length := by rw [hs.finite.len, h.label_count]
  have hne := List.length_pos_of_ne_nil h.rows_ne
  have hp0 : ∀ i (hi : i < ps.length), ∀ row, regressionPredict { trees := s.2, initialGuess := liftV (meanVec t ls), learningRate := .fin lr } row =
      .ok (liftV ps[i]) := by
    intro i hi row
    have hi' : i < d.featureRows.length := by omega
    obtain ⟨y, hy1, hy2⟩ := mapM_get hp (List.getElem?_eq_getElem hi')
    rw [lift, List.getElem?_map, List.getElem?_eq_getElem hi] at hy1
    rw [hsame row d.featureRows[i], hy2, ← Option.some.inj hy1]
  have hall : ∀ p ∈ ps, p = ps[0]'(by omega) := by
    intro p hpm
    obtain ⟨i, hi, rfl⟩ := List.getElem_of_mem hpm
    exact liftV_injective (Except.ok.inj ((hp0 i hi []).symm.trans (hp0 0 (by omega) [])))
  intro row
  rw [hp0 0 (by omega) row]
  congr 2
  have hrep : ps = List.replicate ls.length (ps[0]'(by omega)) := by
    rw [List.eq_replicate_iff]
    exact ⟨by omega, hall⟩
  have hw0 : (ps[0]'(by omega)).length = t := hs.finite.width _ (List.getElem_mem _)
  have hnp : (ls.length : K) ≠ 0 := by
    have : ls.length ≠ 0 := by omega
    exact_mod_cast this
  have hu := hs.unbiased
  rw [hrep, resid_const hlw hw0] at hu
  conv_lhs => rw [eq_range_getD hw0 0]
  rw [meanVec]
  apply List.map_congr_left
  intro j hj
  rw [List.mem_range] at hj
  have := hu j hj
  rw [target_relabel ls hj, sum_affine, target_length] at this
  rw [meanOf, target_length]
  simp only [id] at this
  field_simp
  linarith

/-- **C67** (learning rate zero, regression).  The prediction is the average label, whatever the trees. -/
theorem C67_zero_rate_regression (d : DataSet (Ext K)) (c t : Nat) (h : d.WF c t) (ls : List (List K)) (hls : d.labels = lift ls)
    (cfg : TreeConfig) (hc : cfg.numberOfClasses = t) (n : Nat) :
    ∃ m, regressionTrain d cfg n (.fin 0) = .ok m ∧ m.trees.length = n ∧
      ∀ row : List (Ext K), c ≤ row.length → regressionPredict m row = .ok (liftV (meanVec t ls)) := by
  obtain ⟨m, h1, h2, _, _, h5⟩ := C34_trained d c t h ls hls cfg hc n 0
  refine ⟨m, h1, h2, ?_⟩
  intro row hrow
  obtain ⟨outs, _, h6⟩ := h5 row hrow
  rw [h6]
  simp only [zero_mul, add_zero]
  rw [← eq_range_getD (meanVec_length t ls) 0]

theorem firstTop_replicate {t : Nat} (ht : 0 < t) (x : K) : FirstTop (List.replicate t x) 0 := by
  refine ⟨by simpa using ht, ?_, fun j hj => absurd hj (by omega)⟩
  intro j hj
  rw [List.length_replicate] at hj
  simp [hj, ht]

/-- **C67** (learning rate zero, classification).  All classes keep the score `1/t`, and both ensembles predict class 0 for every row. -/
theorem C67_zero_rate_classification (d : DataSet (Ext K)) (c t : Nat) (h : d.WF c t) (h2 : 2 ≤ t) (ht : t ≤ 2 ^ 53)
    (hot : ∀ l ∈ d.labels, ∃ k < t, l = oneHot t k) (cfg : TreeConfig) (hc : cfg.numberOfClasses = t) (n : Nat) :
    ∃ m m', multiClassTrain d cfg n (.fin 0) = .ok m ∧ amgTrain d cfg n (.fin 0) = .ok m' ∧
      ∀ row : List (Ext K), c ≤ row.length →
        predictInstance row m.trees m.initialGuess m.learningRate = .ok (List.replicate t (.fin (1 / (t : K)))) ∧
        amgPredictInstance row m'.trees m'.initialGuess m'.learningRate t = .ok (List.replicate t (.fin (1 / (t : K)))) ∧
        multiClassPredict m row = .ok (oneHot t 0) ∧ amgPredict m' row = .ok (oneHot t 0) := by
  obtain ⟨ls, hls, hh⟩ := labels_hot hot
  obtain ⟨s, ps, h3, hs⟩ := multi_loop (lr := 0) h h2 hls hh hc n
  obtain ⟨s', ps', h3', hs'⟩ := amg_loop (lr := 0) h h2 hls hh hc n
  refine ⟨_, _, multi_train h h2 ht h3, amg_train h h2 ht h3', ?_⟩
  intro row hrow
  have hg : (liftV (List.replicate t (1 / (t : K))) : List (Ext K)).length = t := by simp [liftV]
  have hlv : (liftV (List.replicate t (1 / (t : K))) : List (Ext K)) = List.replicate t (.fin (1 / (t : K))) := by simp [liftV]
  have hz : ∀ outs : List (List K), (List.range t).map (fun j => (List.replicate t (1 / (t : K))).getD j 0 +
      0 * (outs.map (fun o => o.getD j 0)).sum) = List.replicate t (1 / (t : K)) := by
    intro outs
    simp only [zero_mul, add_zero]
    rw [← eq_range_getD (by simp) 0]
  obtain ⟨outs, _, _, e⟩ := class_score h h2 hls hh (multi_out _) (by simp) hs row hrow
  obtain ⟨outs', _, _, e'⟩ := class_score h h2 hls hh (amg_out h2 _) (by simp) hs' row hrow
  rw [hz, hlv, ← predictInstance_eq] at e
  rw [hz, hlv, ← amgPredictInstance_eq] at e'
  have hne : (List.replicate t (.fin (1 / (t : K))) : List (Ext K)) ≠ [] := by
    intro h0
    have := congrArg List.length h0
    simp at this
    omega
  have hfm : FirstMax (List.replicate t (.fin (1 / (t : K))) : List (Ext K)) 0 := by
    rw [← hlv]
    exact (firstTop_replicate (by omega) (1 / (t : K))).firstMax
  refine ⟨by rw [hlv]; exact e, by rw [hlv]; exact e', ?_, ?_⟩
  · obtain ⟨k, _, q2, q3⟩ := (C39_multiClass_one_hot ⟨s.2, liftV (List.replicate t (1 / (t : K))), .fin 0⟩ row _ (by rw [hlv]; exact e)).1 hne
    rw [q3, List.length_replicate, C39_unique _ _ _ q2 hfm]
  · obtain ⟨k, _, q2, q3⟩ := (C39_amg_one_hot ⟨s'.2, liftV (List.replicate t (1 / (t : K))), .fin 0⟩ row _ (by rw [hg, hlv]; exact e')).1 hne
    rw [q3, List.length_replicate, C39_unique _ _ _ q2 hfm]

end exact

/-! ## concrete cases -/

/-- three rows that differ only in their labels -/
def Sample.alike : DataSet E :=
  { featureRows := [[1, 2], [1, 2], [1, 2]], labels := [[1], [2], [6]], featureColumns := [[1, 1, 1], [2, 2, 2]] }

theorem alike_wf : alike.WF 2 1 :=
  ⟨by decide +kernel, by decide +kernel, by decide +kernel, by decide +kernel, by decide +kernel, by decide +kernel,
    by decide +kernel⟩

example : NothingToAsk alike.featureRows 2 5 := by
  right
  intro j hj row hr row' hr' x x' hx hx'
  have h1 : row = [1, 2] := by simpa [alike] using hr
  have h2 : row' = [1, 2] := by simpa [alike] using hr'
  subst h1 h2
  rw [hx] at hx'
  rw [← Option.some.inj hx']
  have : j = 0 ∨ j = 1 := by omega
  rcases this with rfl | rfl <;> (simp at hx; subst hx; decide +kernel)

-- the average is 3, whatever the row; without the premise the row matters
example : (do
    let m ← regressionTrain alike (exCfg 1) 3 (.fin (1 / 2))
    pure (← regressionPredict m [], ← regressionPredict m [7, 9])) = (.ok ([3], [3]) : R (List E × List E)) := by decide +kernel
example : (do
    let m ← regressionTrain d4 (exCfg 1) 1 (.fin (1 / 2))
    pure (decide ((← regressionPredict m [0, 0]) = (← regressionPredict m [7, 9])))) = (.ok false : R Bool) := by decide +kernel
-- learning rate zero
example : (do
    let m ← multiClassTrain d5 (exCfg 3) 2 (.fin 0)
    let m' ← amgTrain d5 (exCfg 3) 2 (.fin 0)
    pure (← multiClassPredict m [3, 1], ← amgPredict m' [3, 1])) = (.ok ([1, 0, 0], [1, 0, 0]) : R (List E × List E)) := by decide +kernel
example : (do
    let m ← multiClassTrain d5 (exCfg 3) 2 (.fin (1 / 2))
    multiClassPredict m [1, 5]) = (.ok [0, 1, 0] : R (List E)) := by decide +kernel

end Verif
