import Verif.Spec.Size
import Verif.Lemmas.ModelTrees
import Verif.Props.Tree
/-!
# C59: the size of trees and ensembles
-/

set_option linter.unusedSectionVars false

namespace Verif

variable {F : Type} [F64 F] {L : Type}

open Sample

theorem proper_counts {tree : TreeNode F L} (h : tree.Proper) :
    tree.leaves.length = tree.questionCount + 1 ∧ tree.nodeCount = 2 * tree.questionCount + 1 := by
  induction h with
  | leaf q l => simp [TreeNode.leaves, TreeNode.questionCount, TreeNode.nodeCount]
  | node q a b _ _ iha ihb =>
    simp only [TreeNode.leaves, TreeNode.questionCount, TreeNode.nodeCount, List.length_append]
    omega

theorem proper_pow {tree : TreeNode F L} (h : tree.Proper) {m : Nat} (hd : tree.depth ≤ m) : tree.leaves.length ≤ 2 ^ m := by
  induction h generalizing m with
  | leaf q l => simpa [TreeNode.leaves] using Nat.one_le_two_pow
  | node q a b _ _ iha ihb =>
    simp only [TreeNode.depth] at hd
    obtain ⟨m, rfl⟩ : ∃ k, m = k + 1 := ⟨m - 1, by omega⟩
    have h1 := iha (m := m) (by omega)
    have h2 := ihb (m := m) (by omega)
    simp only [TreeNode.leaves, List.length_append, Nat.pow_succ]
    omega

theorem leaves_length_mapLeaves {L' : Type} (g : L → L') {tree : TreeNode F L} (h : tree.Proper) :
    (tree.mapLeaves g).leaves.length = tree.leaves.length := by
  rw [leaves_mapLeaves g h, List.length_map]

variable [LawfulOrder F]

theorem treeOf_leaves_length {leafOf : DataSet F → L} {c t : Nat} (m : Nat) {d : DataSet F} (h : d.WF c t) :
    (treeOf leafOf c t m d).leaves.length ≤ d.featureRows.length := by
  have hmap : treeOf leafOf c t m d = (treeOf (fun d => d) c t m d).mapLeaves leafOf := by rw [treeOf_mapLeaves]
  rw [hmap, leaves_length_mapLeaves _ (treeOf_proper _ _)]
  obtain ⟨hp, hw⟩ := treeOf_leaves m d h
  have hel : d.examples.length = d.featureRows.length := by simp [DataSet.examples, h.label_count]
  rw [← hel, ← hp.length_eq, List.length_flatMap]
  have hpos : ∀ dd ∈ (treeOf (fun d => d) c t m d).leaves, 0 < dd.examples.length := fun dd hdd => wf_examples_pos (hw dd hdd)
  generalize (treeOf (fun d => d) c t m d).leaves = ls at hpos
  induction ls with
  | nil => simp
  | cons a ls ih =>
    have h1 := hpos a List.mem_cons_self
    have h2 := ih (fun dd hdd => hpos dd (List.mem_cons_of_mem _ hdd))
    simp only [List.length_cons, List.map_cons, List.sum_cons]
    omega

theorem treeOf_depth_le {leafOf : DataSet F → L} {c t : Nat} (m : Nat) (d : DataSet F) : (treeOf leafOf c t m d).depth ≤ m := by
  induction m generalizing d with
  | zero => simp [treeOf, TreeNode.leafNode, TreeNode.depth]
  | succ m ih =>
    cases hg : ((splitOf d t).gain ==. F64.zero) with
    | true => simp [treeOf_leaf hg, TreeNode.leafNode, TreeNode.depth]
    | false =>
      rw [treeOf_node hg]
      have h1 := ih (d.restrict c (satisfies (splitOf d t).question))
      have h2 := ih (d.restrict c (fun r => !satisfies (splitOf d t).question r))
      simp only [TreeNode.new, TreeNode.depth]
      omega

theorem treeOf_size {leafOf : DataSet F → L} {c t : Nat} (m : Nat) {d : DataSet F} (h : d.WF c t) :
    SizeBounds d.featureRows.length m (treeOf leafOf c t m d) :=
  ⟨(proper_counts (treeOf_proper m d)).1, (proper_counts (treeOf_proper m d)).2, treeOf_leaves_length m h,
    proper_pow (treeOf_proper m d) (treeOf_depth_le m d)⟩

/-- **C59** (trees).  A tree has one leaf more than questions, no further nodes, at most one leaf per training example and at most
`2 ^ max_levels` leaves. -/
theorem C59_trees (d : DataSet F) (c t : Nat) (hw : d.WF c t) (cfg : TreeConfig) (hc : cfg.numberOfClasses = t) (k : LeafOutputType) :
    (∃ tree, regressionTreeNew d cfg = .ok tree ∧ SizeBounds d.featureRows.length cfg.maxLevels tree) ∧
    (∃ tree, gradBoostTreeNew d cfg k = .ok tree ∧ SizeBounds d.featureRows.length cfg.maxLevels tree) ∧
    (∃ tree, amgTreeNew d cfg k = .ok tree ∧ SizeBounds d.featureRows.length cfg.maxLevels tree) :=
  ⟨⟨_, regressionTreeNew_ok hw hc, treeOf_size _ hw⟩, ⟨_, gradBoostTreeNew_ok hw hc k, treeOf_size _ hw⟩,
    ⟨_, amgTreeNew_ok hw hc k, treeOf_size _ hw⟩⟩

/-- **C59** (tree on sorted features). -/
theorem C59_sorted_tree (d : DataSet F) (c t : Nat) (hw : d.WF c t) (ht : t < 2 ^ 32) (cfg : TreeConfig) (hc : cfg.numberOfClasses = t) :
    ∃ s tree, createDatasetWithSortedFeatures d = .ok s ∧ regressionTreeNewPartitionNew s cfg = .ok tree ∧
      SizeBounds d.featureRows.length cfg.maxLevels tree := by
  obtain ⟨s, tree, tree', h1, h2, h3, h4⟩ := C23_builders_agree d c t hw ht cfg hc
  have hp := (C18_depth d s cfg .regression).2.2.2 tree' h3
  have hp' := ((C18_depth d s cfg .regression).1 tree h2).1
  refine ⟨s, tree', h1, h3, (proper_counts hp.1).1, (proper_counts hp.1).2, ?_, proper_pow hp.1 hp.2⟩
  rw [← leaves_length_mapLeaves _ hp.1, h4, leaves_length_mapLeaves _ hp']
  rw [regressionTreeNew_ok hw hc] at h2
  rw [← Except.ok.inj h2]
  exact treeOf_leaves_length _ hw

theorem sum_bound {α : Type} {f : α → Nat} {b : Nat} {l : List α} (h : ∀ a ∈ l, f a ≤ b) : (l.map f).sum ≤ l.length * b := by
  induction l with
  | nil => simp
  | cons a l ih =>
    have h1 := h a List.mem_cons_self
    have h2 := ih (fun x hx => h x (List.mem_cons_of_mem _ hx))
    simp only [List.map_cons, List.sum_cons, List.length_cons, Nat.succ_mul]
    omega

theorem nodes_bound {n m : Nat} {tree : TreeNode F L} (h : SizeBounds n m tree) : tree.nodeCount ≤ 2 * min n (2 ^ m) - 1 := by
  have h1 := h.leaves_eq
  have h2 := h.nodes_eq
  have h3 := h.leaves_le
  have h4 := h.leaves_le_pow
  omega

/-- **C59** (ensembles).  Every tree of an ensemble satisfies these bounds, so after `k` iterations an ensemble has at most
`k * (2 * min n (2 ^ max_levels) - 1)` nodes for `n` training examples. -/
theorem C59_ensembles [LawfulCount F] (d : DataSet F) (c t : Nat) (hw : d.WF c t) (cfg : TreeConfig) (hc : cfg.numberOfClasses = t) (n : Nat) (lr : F) :
    (∀ m, regressionTrain d cfg n lr = .ok m → (∀ tree ∈ m.trees, SizeBounds d.featureRows.length cfg.maxLevels tree) ∧
      (m.trees.map TreeNode.nodeCount).sum ≤ n * (2 * min d.featureRows.length (2 ^ cfg.maxLevels) - 1)) ∧
    (∀ m, multiClassTrain d cfg n lr = .ok m → (∀ tree ∈ m.trees, SizeBounds d.featureRows.length cfg.maxLevels tree) ∧
      (m.trees.map TreeNode.nodeCount).sum ≤ n * (2 * min d.featureRows.length (2 ^ cfg.maxLevels) - 1)) ∧
    (∀ m, amgTrain d cfg n lr = .ok m → (∀ tree ∈ m.trees, SizeBounds d.featureRows.length cfg.maxLevels tree) ∧
      (m.trees.map TreeNode.nodeCount).sum ≤ n * (2 * min d.featureRows.length (2 ^ cfg.maxLevels) - 1)) := by
  refine ⟨fun m h => ?_, fun m h => ?_, fun m h => ?_⟩
  · have hs : ∀ tree ∈ m.trees, SizeBounds d.featureRows.length cfg.maxLevels tree := by
      intro tree htree
      obtain ⟨r, hr, rfl⟩ := regression_trees_of hw hc h tree htree
      exact treeOf_size _ hr
    have hl := (C31_regression d cfg n lr m h).1
    rw [← hl]
    exact ⟨hs, sum_bound (fun tree ht => nodes_bound (hs tree ht))⟩
  · have hs : ∀ tree ∈ m.trees, SizeBounds d.featureRows.length cfg.maxLevels tree := by
      intro tree htree
      obtain ⟨r, hr, rfl⟩ := multiClass_trees_of hw hc h tree htree
      exact treeOf_size _ hr
    have hl := (C31_multiClass d cfg n lr m h).1
    rw [← hl]
    exact ⟨hs, sum_bound (fun tree ht => nodes_bound (hs tree ht))⟩
  · have hs : ∀ tree ∈ m.trees, SizeBounds d.featureRows.length cfg.maxLevels tree := by
      intro tree htree
      obtain ⟨r, hr, rfl⟩ := amg_trees_of hw hc h tree htree
      exact treeOf_size _ hr
    have hl := (C31_amg d cfg n lr m h).1
    rw [← hl]
    exact ⟨hs, sum_bound (fun tree ht => nodes_bound (hs tree ht))⟩

-- both bounds can be attained: four examples in four leaves, and two leaves on one level
example : (regressionTreeNew d4 { useMultiThreading := false, numberOfClasses := 1, maxLevels := 9 }).map (fun t => t.leaves.length) = .ok 4 := by
  decide +kernel
example : (regressionTreeNew d4 (exCfg 1)).map (fun t => (t.leaves.length, t.nodeCount)) = .ok (2, 3) := by
  decide +kernel

end Verif
