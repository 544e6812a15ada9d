import Verif.Lemmas.TreeFacts
import Verif.Lemmas.SortedBuild
import Verif.Lemmas.Par
import Verif.Props.Data
/-!
# C10, C14, C17 - C24, C30, C46: split search, tree construction, schedules

Arbitrary rounding: only the comparison laws `LawfulOrder` are used, and often no law at all.
-/

set_option linter.unusedSectionVars false
set_option linter.unusedSimpArgs false

namespace Verif

variable {F : Type} [F64 F]

open Sample

/-! ## C10: a reported split separates the data -/

/-- **C10**.  When the gain is not zero, the question's column exists, its threshold is a value of that column, some row
answers yes and some row answers no. -/
theorem C10_split_separates [LawfulOrder F] (d : DataSet F) (c t : Nat) (h : d.WF c t) (s : BestSplitResult F)
    (hs : findBestSplit d t = .ok s) (hg : (s.gain ==. F64.zero) = false) :
    s.question.column < c ∧
    (∃ row ∈ d.featureRows, row[s.question.column]? = some s.question.value) ∧
    (∃ row ∈ d.featureRows, satisfies s.question row = true) ∧
    (∃ row ∈ d.featureRows, satisfies s.question row = false) := by
  rw [findBestSplit_ok h] at hs
  cases hs
  exact (splitOf_separates h hg).2

example : ∃ s, findBestSplit d4 1 = .ok s ∧ (s.gain ==. F64.zero) = false ∧
    s.question = { column := 0, value := 1 } :=
  ⟨{ gain := .fin (81 / 16), question := { column := 0, value := 1 } }, by decide +kernel⟩

/-! ## C14: the gain is a non-negative number, ties go to the first column -/

/-- **C14**.  Whenever `find_best_split` returns, the gain is a number, at least zero; if it equals zero the question is the
placeholder. -/
theorem C14_gain_nonneg [LawfulOrder F] (d : DataSet F) (t : Nat) (s : BestSplitResult F) (hs : findBestSplit d t = .ok s) :
    isNaN s.gain = false ∧ (F64.zero <=. s.gain) = true ∧
      ((s.gain ==. F64.zero) = true → s = { gain := F64.zero, question := { column := 0, value := F64.zero } }) := by
  simp only [findBestSplit, R.bind_eq_ok] at hs
  obtain ⟨total, _, tv, _, first, _, results, _, _, _, hsel⟩ := hs
  have key : s = { gain := F64.zero, question := { column := 0, value := F64.zero } } ∨ (F64.zero <. s.gain) = true := by
    refine forRange_inv (P := fun _ (s : BestSplitResult F) =>
      s = { gain := F64.zero, question := { column := 0, value := F64.zero } } ∨ (F64.zero <. s.gain) = true)
      (.inl rfl) hsel ?_
    intro i b b' _ hb hbody
    obtain ⟨r, _, hbody⟩ := R.bind_eq_ok.mp hbody
    dsimp only at hbody
    split at hbody
    · next hlt =>
      cases hbody
      right
      rcases hb with rfl | hb
      · exact hlt
      · exact lt_trans' hb hlt
    · cases hbody; exact hb
  rcases key with rfl | hlt
  · exact ⟨isNaN_eq_false.mpr LawfulOrder.zero_eq, le_rfl' LawfulOrder.zero_eq, fun _ => rfl⟩
  · refine ⟨isNaN_eq_false.mpr (nn_right (lt_le hlt)), lt_le hlt, fun h => ?_⟩
    rw [lt_ne' hlt] at h; cases h

/-- The data set with only feature column `j`. -/
def DataSet.onlyColumn (d : DataSet F) (j : Nat) : DataSet F :=
  { featureRows := (column d.featureRows j).map (fun x => [x]), labels := d.labels,
    featureColumns := [column d.featureRows j] }

theorem onlyColumn_wf {d : DataSet F} {c t : Nat} (h : d.WF c t) {j : Nat} (hj : j < c) : (d.onlyColumn j).WF 1 t := by
  refine ⟨?_, ?_, ?_, h.label_len, ?_, ?_, by decide⟩
  · intro h0
    simp only [DataSet.onlyColumn, column, List.map_eq_nil_iff] at h0
    exact h.rows_ne h0
  · intro row hrow
    simp only [DataSet.onlyColumn, List.mem_map] at hrow
    obtain ⟨_, _, rfl⟩ := hrow
    rfl
  · simp [DataSet.onlyColumn, column, h.label_count]
  · simp only [DataSet.onlyColumn, columnsOf, List.range_one, List.map_cons, List.map_nil, List.cons.injEq, and_true]
    simp [column]
  · intro row hrow x hx
    simp only [DataSet.onlyColumn, List.mem_map] at hrow
    obtain ⟨y, hy, rfl⟩ := hrow
    simp only [List.mem_singleton] at hx
    subst hx
    exact h.col_nan hj _ hy

/-- **C14**.  Comparing with the search restricted to a single column: no column alone gives a larger gain; if the gain is not
zero, the chosen column alone gives the same gain and threshold, and every earlier column alone gives strictly less. -/
theorem C14_first_best_column [LawfulOrder F] (d : DataSet F) (c t : Nat) (h : d.WF c t) (s : BestSplitResult F)
    (hs : findBestSplit d t = .ok s) :
    (∀ j, j < c → ∃ sj, findBestSplit (d.onlyColumn j) t = .ok sj ∧ (sj.gain <=. s.gain) = true) ∧
    ((s.gain ==. F64.zero) = false →
      findBestSplit (d.onlyColumn s.question.column) t = .ok { s with question := { s.question with column := 0 } } ∧
      ∀ j, j < s.question.column → ∃ sj, findBestSplit (d.onlyColumn j) t = .ok sj ∧ (sj.gain <. s.gain) = true) := by
  rw [findBestSplit_ok h] at hs
  cases hs
  have hcols : d.featureColumns.map (colResult d.labels t) =
      (List.range c).map (fun j => colResult d.labels t (column d.featureRows j)) := by
    rw [h.cols, columnsOf, List.map_map]; rfl
  have hone : ∀ j, j < c → findBestSplit (d.onlyColumn j) t =
      .ok (bestColumn (totalVariance d.labels t) [colResult d.labels t (column d.featureRows j)]) := by
    intro j hj
    rw [findBestSplit_ok (onlyColumn_wf h hj)]
    rfl
  have hsingle : ∀ (T : F) (r : BestThresholdResult F), bestColumn T [r] =
      if (F64.zero <. gainOf T r) then { gain := gainOf T r, question := { column := 0, value := r.thresholdValue } }
      else { gain := F64.zero, question := { column := 0, value := F64.zero } } := by
    intro T r
    simp [bestColumn, pickColumn, gainOf]
  have hspec := bestColumn_spec (totalVariance d.labels t) (d.featureColumns.map (colResult d.labels t))
  rw [show bestColumn (totalVariance d.labels t) (d.featureColumns.map (colResult d.labels t)) = splitOf d t from rfl] at hspec
  set T := totalVariance d.labels t
  rcases hspec with ⟨heq, hall⟩ | ⟨i, r, hi, heq, hpos, hmax, hfirst⟩
  · constructor
    · intro j hj
      refine ⟨_, hone j hj, ?_⟩
      have := hall (colResult d.labels t (column d.featureRows j)) (by
        rw [hcols]; exact List.mem_map.mpr ⟨j, by simpa using hj, rfl⟩)
      rw [hsingle, this, heq]
      simp only [Bool.false_eq_true, if_false]
      exact le_rfl' LawfulOrder.zero_eq
    · intro hg
      rw [heq] at hg
      exact absurd LawfulOrder.zero_eq (by simpa using hg)
  · have hic : i < c := by
      by_contra hic
      rw [hcols, List.getElem?_eq_none (by simp; omega)] at hi
      cases hi
    have hr : r = colResult d.labels t (column d.featureRows i) := by
      rw [hcols] at hi
      simp [hic] at hi
      exact hi.symm
    have hnn : NN (gainOf T r) := nn_right (lt_le hpos)
    have hle : ∀ j, j < c → ∃ sj, findBestSplit (d.onlyColumn j) t = .ok sj ∧ (sj.gain <=. gainOf T r) = true := by
      intro j hj
      refine ⟨_, hone j hj, ?_⟩
      rw [hsingle]
      split
      · next hp =>
        have := hmax (colResult d.labels t (column d.featureRows j)) (by
          rw [hcols]; exact List.mem_map.mpr ⟨j, by simpa using hj, rfl⟩)
        exact (not_lt hnn (nn_right (lt_le hp))).mp this
      · exact lt_le hpos
    constructor
    · intro j hj
      rw [heq]; exact hle j hj
    · intro _
      rw [heq]
      refine ⟨?_, ?_⟩
      · show findBestSplit (d.onlyColumn i) t = _
        rw [hone i hic, hsingle, ← hr, hpos]
        rfl
      · intro j hj
        replace hj : j < i := hj
        have hjc : j < c := Nat.lt_trans hj hic
        refine ⟨_, hone j hjc, ?_⟩
        rw [hsingle]
        split
        · next hp =>
          have := hfirst j (colResult d.labels t (column d.featureRows j)) hj (by
            rw [hcols]; simp [hjc])
          exact (not_le hnn (nn_right (lt_le hp))).mp this
        · exact hpos

-- two equal columns: the first wins
example : (findBestSplit ({ featureRows := [[0, 0], [1, 1]], labels := [[0], [2]], featureColumns := [[0, 1], [0, 1]] } :
    DataSet E) 1) = .ok { gain := 1, question := { column := 0, value := 1 } } := by decide +kernel

/-! ## C17: training a tree never panics -/

/-- **C17**.  On a consistent data set, with `number_of_classes` the label length, all three kinds of trees are built without
panic, single- or multi-threaded, for every depth limit. -/
theorem C17_training_returns [LawfulOrder F] (d : DataSet F) (c t : Nat) (h : d.WF c t) (cfg : TreeConfig)
    (ht : cfg.numberOfClasses = t) (k : LeafOutputType) :
    (∃ tree, regressionTreeNew d cfg = .ok tree) ∧ (∃ tree, gradBoostTreeNew d cfg k = .ok tree) ∧
      (∃ tree, amgTreeNew d cfg k = .ok tree) :=
  ⟨⟨_, regressionTreeNew_ok h ht⟩, ⟨_, gradBoostTreeNew_ok h ht k⟩, ⟨_, amgTreeNew_ok h ht k⟩⟩

/-- **C17**.  The same for the builder on sorted columns (label length below `2^32`). -/
theorem C17_sorted_training_returns [LawfulOrder F] (d : DataSet F) (c t : Nat) (h : d.WF c t) (ht : t < 2 ^ 32)
    (cfg : TreeConfig) :
    ∃ s tree, createDatasetWithSortedFeatures d = .ok s ∧ regressionTreeNewPartitionNew s cfg = .ok tree := by
  obtain ⟨s, hs, hl, hr⟩ := createSorted_ok h
  have hne : List.range d.featureRows.length ≠ [] := by
    have := List.length_pos_of_ne_nil h.rows_ne
    simp [List.range_eq_nil]
    exact h.rows_ne
  obtain ⟨tree, htree, _⟩ := buildSorted_ok h ht cfg cfg.maxLevels s _ 0 hr hne (by omega)
  exact ⟨s, tree, hs, by rw [regressionTreeNewPartitionNew, hl]; exact htree⟩

example : ∃ tree, regressionTreeNew d4 { useMultiThreading := true, numberOfClasses := 1, maxLevels := 5 } = .ok tree :=
  (C17_training_returns d4 2 1 d4_wf _ rfl .regression).1

/-! ## C18: depth -/

theorem buildSorted_depth (cfg : TreeConfig) (labels : List (List F)) (m : Nat) : ∀ (s : SortedDataSet F) (level : Nat) tree,
    level + m = cfg.maxLevels → buildRegressionTreeNewPartition cfg labels s level = .ok tree →
    tree.Proper ∧ tree.depth ≤ m := by
  induction m with
  | zero =>
    intro s level tree hlev h
    unfold buildRegressionTreeNewPartition at h
    have h1 : (level == cfg.maxLevels) = true := by simp; omega
    simp only [h1, Bool.or_true, if_true, R.bind_eq_ok, R.pure_eq] at h
    obtain ⟨_, _, _, _, h⟩ := h
    cases h
    exact ⟨.leaf _ _, by simp [TreeNode.leafNode, TreeNode.depth]⟩
  | succ m ih =>
    intro s level tree hlev h
    unfold buildRegressionTreeNewPartition at h
    have h1 : (level == cfg.maxLevels) = false := by simp; omega
    have h2 : level < cfg.maxLevels := by omega
    simp only [h1, Bool.or_false, R.bind_eq_ok] at h
    obtain ⟨_, _, s', _, h⟩ := h
    split at h
    · cases h
      exact ⟨.leaf _ _, by simp [TreeNode.leafNode, TreeNode.depth]⟩
    · simp only [h2, ↓reduceDIte, R.bind_eq_ok] at h
      obtain ⟨p, _, l, hl, r, hr, h⟩ := h
      cases h
      obtain ⟨a1, a2⟩ := ih _ _ _ (by omega) hl
      obtain ⟨b1, b2⟩ := ih _ _ _ (by omega) hr
      refine ⟨.node _ _ _ a1 b1, ?_⟩
      simp only [TreeNode.new, TreeNode.depth]
      omega

/-- **C18**.  Every tree returned by one of the four builders is properly formed (each node is a leaf with data, or has both
branches) and no path asks more than `max_levels` questions.  No law, no hypothesis on the data. -/
theorem C18_depth (d : DataSet F) (s : SortedDataSet F) (cfg : TreeConfig) (k : LeafOutputType) :
    (∀ tree, regressionTreeNew d cfg = .ok tree → tree.Proper ∧ tree.depth ≤ cfg.maxLevels) ∧
    (∀ tree, gradBoostTreeNew d cfg k = .ok tree → tree.Proper ∧ tree.depth ≤ cfg.maxLevels) ∧
    (∀ tree, amgTreeNew d cfg k = .ok tree → tree.Proper ∧ tree.depth ≤ cfg.maxLevels) ∧
    (∀ tree, regressionTreeNewPartitionNew s cfg = .ok tree → tree.Proper ∧ tree.depth ≤ cfg.maxLevels) := by
  refine ⟨fun tree h => ?_, fun tree h => ?_, fun tree h => ?_, fun tree h => ?_⟩
  · rw [regressionTreeNew_fuel] at h
    exact ⟨buildFuel_proper h, buildFuel_depth h⟩
  · rw [gradBoostTreeNew_fuel] at h
    exact ⟨buildFuel_proper h, buildFuel_depth h⟩
  · rw [amgTreeNew_fuel] at h
    exact ⟨buildFuel_proper h, buildFuel_depth h⟩
  · exact buildSorted_depth cfg s.labels cfg.maxLevels s 0 tree (by omega) h

/-- **C18**.  With `max_levels = 0` the tree is a single leaf, which holds the whole training set. -/
theorem C18_zero_levels (d : DataSet F) (cfg : TreeConfig) (h0 : cfg.maxLevels = 0) (tree : TreeNode F (RegressionLeaf F))
    (h : regressionTreeNew d cfg = .ok tree) : ∃ q, tree = TreeNode.mk q none none (some { data := some d }) := by
  rw [regressionTreeNew_fuel, h0] at h
  obtain ⟨s, l, _, hl, rfl⟩ := buildFuel_zero h
  cases hl
  exact ⟨_, rfl⟩

-- depth 1 on `d4` (it would go deeper)
example : (regressionTreeNew d4 { useMultiThreading := false, numberOfClasses := 1, maxLevels := 1 }).map TreeNode.depth = .ok 1 := by
  decide +kernel
example : (regressionTreeNew d4 { useMultiThreading := false, numberOfClasses := 1, maxLevels := 9 }).map TreeNode.depth = .ok 3 := by
  decide +kernel

/-! ## C19, C20, C21: what is in the leaves and how rows reach them -/

/-- **C19**.  The leaf at a position holds exactly the training examples whose row takes that path, in training order, as a
non-empty consistent data set. -/
theorem C19_leaf_contents [LawfulOrder F] (d : DataSet F) (c t : Nat) (h : d.WF c t) (cfg : TreeConfig)
    (ht : cfg.numberOfClasses = t) (tree : TreeNode F (RegressionLeaf F)) (hb : regressionTreeNew d cfg = .ok tree)
    (p : List Bool) (leaf : RegressionLeaf F) (hl : tree.leafAt p = some leaf) :
    ∃ dd : DataSet F, leaf.data = some dd ∧ dd.WF c t ∧
      dd.examples = d.examples.filter (fun e => decide (tree.route e.1 = p)) := by
  rw [regressionTreeNew_ok h ht] at hb
  cases hb
  obtain ⟨dd, rfl, hw, he⟩ := treeOf_leafAt _ d h p leaf hl
  exact ⟨dd, rfl, hw, he⟩

theorem examples_snd {d : DataSet F} {c t : Nat} (h : d.WF c t) : d.examples.map Prod.snd = d.labels := by
  simp only [DataSet.examples]
  exact List.map_snd_zip (by rw [h.label_count])

/-- **C19** (boosting trees).  The output stored in the leaf at a position is, target by target, the average (regression) or the
Newton step (classification) of the labels of exactly the examples that take that path. -/
theorem C19_boost_leaf_output [LawfulOrder F] (d : DataSet F) (c t : Nat) (h : d.WF c t) (cfg : TreeConfig)
    (ht : cfg.numberOfClasses = t) (k : LeafOutputType) (tree : TreeNode F (GradBoostLeaf F))
    (hb : gradBoostTreeNew d cfg k = .ok tree) (p : List Bool) (leaf : GradBoostLeaf F) (hl : tree.leafAt p = some leaf) :
    leaf.leafOutput = some (leafValue k t ((d.examples.filter (fun e => decide (tree.route e.1 = p))).map Prod.snd)) := by
  rw [gradBoostTreeNew_ok h ht] at hb
  cases hb
  obtain ⟨dd, rfl, hw, he⟩ := treeOf_leafAt _ d h p leaf hl
  rw [← he, examples_snd hw, ← leafOut_eq k hw.label_len]
  rfl

/-- **C20**.  The examples stored in the leaves, taken together, are a permutation of the training examples; no leaf is empty,
so there are at most as many leaves as examples. -/
theorem C20_leaves_partition [LawfulOrder F] (d : DataSet F) (c t : Nat) (h : d.WF c t) (cfg : TreeConfig)
    (ht : cfg.numberOfClasses = t) (tree : TreeNode F (RegressionLeaf F)) (hb : regressionTreeNew d cfg = .ok tree) :
    ∃ stored : List (DataSet F), tree.leaves = stored.map (fun dd => { data := some dd }) ∧
      (stored.flatMap DataSet.examples).Perm d.examples ∧ (∀ dd ∈ stored, dd.examples ≠ []) ∧
      tree.leaves.length ≤ d.examples.length := by
  rw [regressionTreeNew_ok h ht] at hb
  cases hb
  have hmap : treeOf regLeaf c t cfg.maxLevels d = (treeOf (fun d => d) c t cfg.maxLevels d).mapLeaves regLeaf := by
    rw [treeOf_mapLeaves]
  have hleaves : (treeOf regLeaf c t cfg.maxLevels d).leaves = (treeOf (fun d => d) c t cfg.maxLevels d).leaves.map regLeaf := by
    rw [hmap, leaves_mapLeaves _ (treeOf_proper _ _)]
  obtain ⟨hp, hw⟩ := treeOf_leaves cfg.maxLevels d h
  have hpos : ∀ dd ∈ (treeOf (fun d => d) c t cfg.maxLevels d).leaves, 0 < dd.examples.length :=
    fun dd hdd => wf_examples_pos (hw dd hdd)
  refine ⟨_, hleaves, hp, fun dd hdd => List.ne_nil_of_length_pos (hpos dd hdd), ?_⟩
  rw [hleaves, List.length_map, ← hp.length_eq, List.length_flatMap]
  generalize (treeOf (fun d => d) c t cfg.maxLevels d).leaves = ls at hpos
  induction ls with
  | nil => simp
  | cons x xs ih =>
    have := ih (fun dd hdd => hpos dd (by simp [hdd]))
    have := hpos x (by simp)
    simp
    omega

/-- **C21**.  Looking up any row with at least `c` entries returns, without panic, the leaf at the end of the row's path. -/
theorem C21_lookup_total [LawfulOrder F] (d : DataSet F) (c t : Nat) (h : d.WF c t) (cfg : TreeConfig)
    (ht : cfg.numberOfClasses = t) (tree : TreeNode F (RegressionLeaf F)) (hb : regressionTreeNew d cfg = .ok tree)
    (row : List F) (hrow : c ≤ row.length) :
    ∃ leaf, findLeafNodeForData row tree = .ok leaf ∧ tree.leafAt (tree.route row) = some leaf := by
  rw [regressionTreeNew_ok h ht] at hb
  cases hb
  exact TreeNode.find_of_proper (treeOf_proper _ _) (fun p q hq => Nat.lt_of_lt_of_le (treeOf_questions _ d h p q hq).1 hrow)

/-- **C21**.  Looking up a training row finds a leaf that stores this row with its label. -/
theorem C21_training_row [LawfulOrder F] (d : DataSet F) (c t : Nat) (h : d.WF c t) (cfg : TreeConfig)
    (ht : cfg.numberOfClasses = t) (tree : TreeNode F (RegressionLeaf F)) (hb : regressionTreeNew d cfg = .ok tree)
    (row label : List F) (hmem : (row, label) ∈ d.examples) :
    ∃ leaf dd, findLeafNodeForData row tree = .ok leaf ∧ leaf.data = some dd ∧ (row, label) ∈ dd.examples := by
  have hlen := h.row_len row (examples_fst_mem hmem)
  obtain ⟨leaf, hf, hat⟩ := C21_lookup_total d c t h cfg ht tree hb row (by omega)
  obtain ⟨dd, hdd, _, hex⟩ := C19_leaf_contents d c t h cfg ht tree hb _ leaf hat
  refine ⟨leaf, dd, hf, hdd, ?_⟩
  rw [hex, List.mem_filter]
  exact ⟨hmem, by simp⟩

/-- the labels stored in the leaf found for `row` -/
def lookupLabels (row : List E) (r : R (TreeNode E (RegressionLeaf E))) : R (Option (List (List E))) := do
  let tree ← r
  let leaf ← findLeafNodeForData row tree
  pure (leaf.data.map DataSet.labels)

-- the tree of depth 1 on `d4` has two leaves; row 2 of the training data is found in the true one
example : (regressionTreeNew d4 { useMultiThreading := false, numberOfClasses := 1, maxLevels := 1 }).map
    (fun tree => (tree.leafAt [true]).bind (fun l => l.data.map DataSet.labels)) = .ok (some [[1], [4], [6]]) := by decide +kernel
example : lookupLabels [1, 7] (regressionTreeNew d4 { useMultiThreading := false, numberOfClasses := 1, maxLevels := 1 }) =
    .ok (some [[1], [4], [6]]) := by decide +kernel
example : (([1, 7], [4]) : List E × List E) ∈ d4.examples := by decide +kernel

/-! ## C22, C46: every schedule -/

/-- **C22**.  Whatever the interleaving and the splitting of parallel iterators, training terminates with the result of the
single-threaded builder run sequentially: the same tree or the same panic.  For `use_multi_threading` true and false, and
all four kinds of trees. -/
theorem C22_every_schedule (d : DataSet F) (s : SortedDataSet F) (cfg : TreeConfig) (k : LeafOutputType) :
    (regressionTreeNewTask d cfg).AlwaysReturns (buildRegressionTree cfg d 0) ∧
    (gradBoostTreeNewTask d cfg k).AlwaysReturns (buildGradBoostTree cfg k d 0) ∧
    (amgTreeNewTask d cfg k).AlwaysReturns (buildAmgTree cfg k d 0) ∧
    (regressionTreeNewPartitionNewTask s cfg).AlwaysReturns (buildRegressionTreeNewPartition cfg s.labels s 0) := by
  refine ⟨Job.alwaysReturns ?_, Job.alwaysReturns ?_, Job.alwaysReturns ?_, Job.alwaysReturns ?_⟩
  · rw [regressionTreeNewTask_run, regressionTreeNew_fuel, buildRegressionTree_fuel cfg cfg.maxLevels d 0 (by omega)]
  · rw [gradBoostTreeNewTask_run, gradBoostTreeNew_fuel, buildGradBoostTree_fuel cfg k cfg.maxLevels d 0 (by omega)]
  · rw [amgTreeNewTask_run, amgTreeNew_fuel, buildAmgTree_fuel cfg k cfg.maxLevels d 0 (by omega)]
  · exact buildRegressionTreeNewPartitionTask_run cfg s.labels s 0

/-- **C22**.  In particular the `use_multi_threading` switch does not change the result. -/
theorem C22_switch_irrelevant (d : DataSet F) (cfg : TreeConfig) (k : LeafOutputType) (b : Bool) :
    regressionTreeNew d { cfg with useMultiThreading := b } = regressionTreeNew d cfg ∧
    gradBoostTreeNew d { cfg with useMultiThreading := b } k = gradBoostTreeNew d cfg k ∧
    amgTreeNew d { cfg with useMultiThreading := b } k = amgTreeNew d cfg k := by
  simp only [regressionTreeNew_fuel, gradBoostTreeNew_fuel, amgTreeNew_fuel, and_self]

/-- **C46**.  The same for the three ensembles: every schedule of `train` ends with the result of the sequential run. -/
theorem C46_every_schedule (d : DataSet F) (cfg : TreeConfig) (n : Nat) (lr : F) :
    (regressionTrainTask d cfg n lr).AlwaysReturns (regressionTrain d cfg n lr) ∧
    (multiClassTrainTask d cfg n lr).AlwaysReturns (multiClassTrain d cfg n lr) ∧
    (amgTrainTask d cfg n lr).AlwaysReturns (amgTrain d cfg n lr) :=
  ⟨Job.alwaysReturns (regressionTrainTask_run d cfg n lr), Job.alwaysReturns (multiClassTrainTask_run d cfg n lr),
    Job.alwaysReturns (amgTrainTask_run d cfg n lr)⟩

/-- **C46**.  And the switch makes no difference for ensembles either. -/
theorem C46_switch_irrelevant (d : DataSet F) (cfg : TreeConfig) (n : Nat) (lr : F) (b : Bool) :
    regressionTrain d { cfg with useMultiThreading := b } n lr = regressionTrain d cfg n lr ∧
    multiClassTrain d { cfg with useMultiThreading := b } n lr = multiClassTrain d cfg n lr ∧
    amgTrain d { cfg with useMultiThreading := b } n lr = amgTrain d cfg n lr := by
  refine ⟨?_, ?_, ?_⟩
  · simp only [regressionTrain, regressionTrainFull, boostingLoop, regressionLoop, gradBoostTreeNew_fuel]
  · simp only [multiClassTrain, multiClassTrainFull, boostingLoop, multiClassLoop, gradBoostTreeNew_fuel]
  · simp only [amgTrain, amgTrainFull, boostingLoop, amgLoop, amgTreeNew_fuel]

-- there is real nondeterminism: rayon may split a parallel iterator, or let one worker run it
example (f : List E → Job Nat) (k : List Nat → Job Nat) :
    Job.Step (.pmap [[0], [1]] f k) (.fork (.pmap [[0]] f Job.ret) (.pmap [[1]] f Job.ret) (fun a b => k (a ++ b))) ∧
    Job.Step (.pmap [[0], [1]] f k) (Job.bind (Job.seqMap f [[0], [1]]) k) :=
  ⟨Job.Step.split (xs := [[0]]) (ys := [[1]]) (by simp) (by simp), Job.Step.sequential⟩
-- and the two halves of a fork may be stepped in either order
example (a a' b b' : Job Nat) (k : Nat → Nat → Job Nat) (ha : Job.Step a a') (hb : Job.Step b b') :
    Job.Steps (.fork a b k) (.fork a' b' k) ∧ Job.Step (.fork a b k) (.fork a b' k) ∧ Job.Step (.fork a b k) (.fork a' b k) :=
  ⟨.step (.left ha) (.step (.right hb) .refl), .right hb, .left ha⟩

/-! ## C23: both builders learn the same tree -/

/-- **C23**.  On a consistent data set, building from sorted columns and building from rows both return, with the same
questions, the same shape and the same labels in every leaf. -/
theorem C23_builders_agree [LawfulOrder F] (d : DataSet F) (c t : Nat) (h : d.WF c t) (ht : t < 2 ^ 32) (cfg : TreeConfig)
    (hc : cfg.numberOfClasses = t) :
    ∃ s tree treeSorted, createDatasetWithSortedFeatures d = .ok s ∧ regressionTreeNew d cfg = .ok tree ∧
      regressionTreeNewPartitionNew s cfg = .ok treeSorted ∧
      treeSorted.mapLeaves (fun l => l.data.map SortedDataSet.labels) = tree.mapLeaves (fun l => l.data.map DataSet.labels) := by
  obtain ⟨s, hs, hl, hr⟩ := createSorted_ok h
  have hne : List.range d.featureRows.length ≠ [] := by
    have := List.length_pos_of_ne_nil h.rows_ne
    simp [List.range_eq_nil]
    exact h.rows_ne
  obtain ⟨tree, htree, heq⟩ := buildSorted_ok h ht cfg cfg.maxLevels s _ 0 hr hne (by omega)
  rw [sub_all h] at heq
  exact ⟨s, _, tree, hs, regressionTreeNew_ok h hc, by rw [regressionTreeNewPartitionNew, hl]; exact htree, heq⟩

example : (d5 : DataSet E).WF 2 3 ∧ 3 < 2 ^ 32 := ⟨d5_wf, by decide⟩

/-! ## C24: raising `max_levels` refines the tree -/

/-- **C24**.  If training returns with limit `m`, it also returns with any smaller limit `k`; the smaller tree asks the same
questions at all positions above depth `k`, and none below. -/
theorem C24_refinement (d : DataSet F) (cfg : TreeConfig) (k m : Nat) (hk : k ≤ m) (tree : TreeNode F (RegressionLeaf F))
    (h : regressionTreeNew d { cfg with maxLevels := m } = .ok tree) :
    ∃ small, regressionTreeNew d { cfg with maxLevels := k } = .ok small ∧
      (∀ p : List Bool, p.length < k → small.questionAt p = tree.questionAt p) ∧
      (∀ p : List Bool, k ≤ p.length → small.questionAt p = none) := by
  rw [regressionTreeNew_fuel] at h
  obtain ⟨small, hs, h1, h2⟩ := buildFuel_cut (fun d => ⟨_, rfl⟩) hk h
  exact ⟨small, by rw [regressionTreeNew_fuel]; exact hs, h1, h2⟩

example : (regressionTreeNew d4 { useMultiThreading := false, numberOfClasses := 1, maxLevels := 2 }).map
    (fun tree => (tree.questionAt [], tree.questionAt [true])) =
    .ok (some { column := 0, value := 1 }, some { column := 1, value := 7 }) := by decide +kernel

/-! ## C30: both tree scorers agree -/

theorem mse_of_mapLeaves {L : Type} (labelsOf : L → Option (List (List F))) (test : DataSet F) (tree : TreeNode F L) :
    (do
      let total ← forRange test.featureRows.length (fun i (total : F) => do
        let leaf ← findLeafNodeForData (← idx test.featureRows i) tree
        let prediction ← calculateAverageLabelVector (← unwrap (labelsOf leaf))
        let actual ← idx test.labels i
        let e ← meanSumOfSquaredDifferencesVectors prediction actual
        pure (total +. e)) F64.zero
      pure (total /. F64.ofNat test.featureRows.length)) =
    (do
      let total ← forRange test.featureRows.length (fun i (total : F) => do
        let leaf ← findLeafNodeForData (← idx test.featureRows i) (tree.mapLeaves labelsOf)
        let prediction ← calculateAverageLabelVector (← unwrap leaf)
        let actual ← idx test.labels i
        let e ← meanSumOfSquaredDifferencesVectors prediction actual
        pure (total +. e)) F64.zero
      pure (total /. F64.ofNat test.featureRows.length)) := by
  simp only [find_mapLeaves, bind_assoc, pure_bind]

theorem unwrap_map {α β : Type} (g : α → β) (o : Option α) : unwrap (o.map g) = (do let a ← unwrap o; pure (g a)) := by
  cases o <;> rfl

theorem overallMse_eq (test : DataSet F) (tree : TreeNode F (RegressionLeaf F))
    (treeSorted : TreeNode F (RegressionLeafNewPartition F))
    (h : treeSorted.mapLeaves (fun l => l.data.map SortedDataSet.labels) = tree.mapLeaves (fun l => l.data.map DataSet.labels)) :
    calculateOverallMseNewPartition test treeSorted = calculateOverallMse test tree := by
  have h1 := mse_of_mapLeaves (fun l : RegressionLeaf F => l.data.map DataSet.labels) test tree
  have h2 := mse_of_mapLeaves (fun l : RegressionLeafNewPartition F => l.data.map SortedDataSet.labels) test treeSorted
  rw [h, ← h1] at h2
  simp only [unwrap_map, bind_assoc, pure_bind] at h2
  exact h2

/-- **C30**.  For every test set, the scorer for sorted-column trees on the tree built from sorted columns gives the same score
(or the same panic) as the scorer for row trees on the tree built from the rows. -/
theorem C30_scorers_agree [LawfulOrder F] (d : DataSet F) (c t : Nat) (h : d.WF c t) (ht : t < 2 ^ 32) (cfg : TreeConfig)
    (hc : cfg.numberOfClasses = t) (test : DataSet F) :
    ∃ s tree treeSorted, createDatasetWithSortedFeatures d = .ok s ∧ regressionTreeNew d cfg = .ok tree ∧
      regressionTreeNewPartitionNew s cfg = .ok treeSorted ∧
      calculateOverallMseNewPartition test treeSorted = calculateOverallMse test tree := by
  obtain ⟨s, tree, treeSorted, h1, h2, h3, h4⟩ := C23_builders_agree d c t h ht cfg hc
  exact ⟨s, tree, treeSorted, h1, h2, h3, overallMse_eq test tree treeSorted h4⟩

example : (do
    let tree ← regressionTreeNew d4 { useMultiThreading := false, numberOfClasses := 1, maxLevels := 1 }
    calculateOverallMse d4 tree) = .ok (.fin (19 / 6)) := by decide +kernel

end Verif
