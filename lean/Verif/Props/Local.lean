import Verif.Props.Growth
/-!
# C76: a subtree is the tree of its examples

Any arithmetic.  What stands below a node depends only on the training examples that reach it and on the levels that are left.
-/

set_option linter.unusedSectionVars false

namespace Verif

variable {F : Type} [F64 F] {L : Type}

open Sample

theorem subtreeAt_leafNode {q : Question F} {l : L} {p : List Bool} {sub : TreeNode F L} (h : (TreeNode.leafNode q l).subtreeAt p = some sub) :
    p = [] ∧ sub = TreeNode.leafNode q l := by
  cases p with
  | nil => simp [TreeNode.subtreeAt] at h; exact ⟨rfl, h.symm⟩
  | cons b p => cases b <;> simp [TreeNode.leafNode, TreeNode.subtreeAt] at h

theorem treeOf_subtree [LawfulOrder F] {leafOf : DataSet F → L} {c t : Nat} (m : Nat) (d : DataSet F) (h : d.WF c t) :
    ∀ p sub, (treeOf leafOf c t m d).subtreeAt p = some sub →
      ∃ dd : DataSet F, dd.WF c t ∧ p.length ≤ m ∧
        dd.examples = d.examples.filter (fun e => decide (p <+: (treeOf leafOf c t m d).route e.1)) ∧
        sub = treeOf leafOf c t (m - p.length) dd := by
  refine treeOf_induct (motive := fun m d => ∀ p sub, (treeOf leafOf c t m d).subtreeAt p = some sub →
      ∃ dd : DataSet F, dd.WF c t ∧ p.length ≤ m ∧
        dd.examples = d.examples.filter (fun e => decide (p <+: (treeOf leafOf c t m d).route e.1)) ∧
        sub = treeOf leafOf c t (m - p.length) dd) ?_ ?_ ?_ m d h
  · intro d hw p l hp
    obtain ⟨rfl, rfl⟩ := subtreeAt_leafNode hp
    exact ⟨d, hw, by simp, by simp, rfl⟩
  · intro m d hw hg p l hp
    rw [treeOf_leaf hg] at hp
    obtain ⟨rfl, rfl⟩ := subtreeAt_leafNode hp
    exact ⟨d, hw, by simp, by simp, (treeOf_leaf hg).symm⟩
  · intro m d hw hg h1 h2 p sub hp
    match p with
    | [] =>
      simp only [TreeNode.subtreeAt, Option.some.injEq] at hp
      exact ⟨d, hw, by simp, by simp, hp.symm⟩
    | true :: p =>
      rw [treeOf_node hg] at hp ⊢
      obtain ⟨dd, h3, h4, h5, h6⟩ := h1 p sub hp
      refine ⟨dd, h3, by simpa using h4, ?_, by simpa using h6⟩
      rw [h5, restrict_examples, List.filter_filter]
      apply List.filter_congr
      intro e _
      rw [TreeNode.route_new]
      cases hs : satisfies (splitOf d t).question e.1 <;> simp [List.cons_prefix_cons]
    | false :: p =>
      rw [treeOf_node hg] at hp ⊢
      obtain ⟨dd, h3, h4, h5, h6⟩ := h2 p sub hp
      refine ⟨dd, h3, by simpa using h4, ?_, by simpa using h6⟩
      rw [h5, restrict_examples, List.filter_filter]
      apply List.filter_congr
      intro e _
      rw [TreeNode.route_new]
      cases hs : satisfies (splitOf d t).question e.1 <;> simp [List.cons_prefix_cons]

/-- **C76**.  The subtree at position `p` of a trained tree is the tree that training returns for the examples that reach `p` (in their
order) with `max_levels` reduced by the length of `p`. -/
theorem C76_subtree [LawfulOrder F] (d : DataSet F) (c t : Nat) (h : d.WF c t) (cfg : TreeConfig) (hc : cfg.numberOfClasses = t)
    (k : LeafOutputType) (p : List Bool) :
    (∀ tree sub, regressionTreeNew d cfg = .ok tree → tree.subtreeAt p = some sub → ∃ dd : DataSet F, dd.WF c t ∧ p.length ≤ cfg.maxLevels ∧
      dd.examples = d.examples.filter (fun e => decide (p <+: tree.route e.1)) ∧
      regressionTreeNew dd { cfg with maxLevels := cfg.maxLevels - p.length } = .ok sub) ∧
    (∀ tree sub, gradBoostTreeNew d cfg k = .ok tree → tree.subtreeAt p = some sub → ∃ dd : DataSet F, dd.WF c t ∧ p.length ≤ cfg.maxLevels ∧
      dd.examples = d.examples.filter (fun e => decide (p <+: tree.route e.1)) ∧
      gradBoostTreeNew dd { cfg with maxLevels := cfg.maxLevels - p.length } k = .ok sub) ∧
    (∀ tree sub, amgTreeNew d cfg k = .ok tree → tree.subtreeAt p = some sub → ∃ dd : DataSet F, dd.WF c t ∧ p.length ≤ cfg.maxLevels ∧
      dd.examples = d.examples.filter (fun e => decide (p <+: tree.route e.1)) ∧
      amgTreeNew dd { cfg with maxLevels := cfg.maxLevels - p.length } k = .ok sub) := by
  refine ⟨fun tree sub ht hs => ?_, fun tree sub ht hs => ?_, fun tree sub ht hs => ?_⟩
  · rw [regressionTreeNew_ok h hc] at ht
    cases ht
    obtain ⟨dd, h1, h2, h3, rfl⟩ := treeOf_subtree _ d h p sub hs
    exact ⟨dd, h1, h2, h3, by rw [regressionTreeNew_ok h1 (by exact hc)]⟩
  · rw [gradBoostTreeNew_ok h hc] at ht
    cases ht
    obtain ⟨dd, h1, h2, h3, rfl⟩ := treeOf_subtree _ d h p sub hs
    exact ⟨dd, h1, h2, h3, by rw [gradBoostTreeNew_ok h1 (by exact hc)]⟩
  · rw [amgTreeNew_ok h hc] at ht
    cases ht
    obtain ⟨dd, h1, h2, h3, rfl⟩ := treeOf_subtree _ d h p sub hs
    exact ⟨dd, h1, h2, h3, by rw [amgTreeNew_ok h1 (by exact hc)]⟩

/-- **C76** (consequence).  Two training sets whose trees have the same examples, in the same order, at a position: the subtrees there are
equal if the same number of levels is left. -/
theorem C76_same_examples [LawfulOrder F] (d d' : DataSet F) (c t : Nat) (h : d.WF c t) (h' : d'.WF c t) (cfg cfg' : TreeConfig)
    (hc : cfg.numberOfClasses = t) (hc' : cfg'.numberOfClasses = t) (p p' : List Bool)
    (tree tree' sub sub' : TreeNode F (RegressionLeaf F)) (ht : regressionTreeNew d cfg = .ok tree) (ht' : regressionTreeNew d' cfg' = .ok tree')
    (hs : tree.subtreeAt p = some sub) (hs' : tree'.subtreeAt p' = some sub')
    (he : d.examples.filter (fun e => decide (p <+: tree.route e.1)) = d'.examples.filter (fun e => decide (p' <+: tree'.route e.1)))
    (hl : cfg.maxLevels - p.length = cfg'.maxLevels - p'.length) : sub = sub' := by
  rw [regressionTreeNew_ok h hc] at ht
  cases ht
  rw [regressionTreeNew_ok h' hc'] at ht'
  cases ht'
  obtain ⟨dd, h1, _, h3, rfl⟩ := treeOf_subtree _ d h p sub hs
  obtain ⟨dd', h1', _, h3', rfl⟩ := treeOf_subtree _ d' h' p' sub' hs'
  have : dd = dd' := by
    have e : dd.examples = dd'.examples := by rw [h3, h3', he]
    have e1 : dd.featureRows = dd'.featureRows := by
      have := congrArg (List.map Prod.fst) e
      rwa [DataSet.examples, DataSet.examples, List.map_fst_zip (by rw [h1.label_count]), List.map_fst_zip (by rw [h1'.label_count])] at this
    have e2 : dd.labels = dd'.labels := by rw [← examples_snd h1, ← examples_snd h1', e]
    have e3 : dd.featureColumns = dd'.featureColumns := by rw [h1.cols, h1'.cols, e1]
    cases dd; cases dd'
    simp only at e1 e2 e3
    rw [e1, e2, e3]
  rw [this, hl]

/-! ## a case that meets the hypotheses -/

-- the true branch of this tree asks two more questions and is reached by three of the four examples
example : (do
    let tree ← regressionTreeNew d4 { useMultiThreading := false, numberOfClasses := 1, maxLevels := 3 }
    let sub ← unwrap (tree.subtreeAt [true])
    pure (sub.questionCount, (d4.examples.filter (fun e => decide ([true] <+: tree.route e.1))).length)) = (.ok (2, 3) : R (Nat × Nat)) := by
  decide +kernel

end Verif
