import Verif.Lemmas.TreeFacts
import Verif.Spec.Greedy
/-! # Greedy growth of the built trees -/

set_option linter.unusedSectionVars false

namespace Verif

variable {F : Type} [F64 F] {L : Type}

namespace TreeNode

theorem questionAt_mapLeaves {L' : Type} (g : L → L') (tree : TreeNode F L) (p : List Bool) :
    (tree.mapLeaves g).questionAt p = tree.questionAt p := by
  induction p generalizing tree with
  | nil => rcases tree with ⟨q, _ | a, _ | b, l⟩ <;> simp [mapLeaves, questionAt]
  | cons x p ih => rcases tree with ⟨q, _ | a, _ | b, l⟩ <;> cases x <;> simp [mapLeaves, questionAt, ih]

theorem subtreeAt_mapLeaves {L' : Type} (g : L → L') (tree : TreeNode F L) (p : List Bool) :
    (tree.mapLeaves g).subtreeAt p = (tree.subtreeAt p).map (mapLeaves g) := by
  induction p generalizing tree with
  | nil => simp [subtreeAt]
  | cons x p ih => rcases tree with ⟨q, _ | a, _ | b, l⟩ <;> cases x <;> simp [mapLeaves, subtreeAt, ih]

theorem route_mapLeaves {L' : Type} (g : L → L') (row : List F) (tree : TreeNode F L) :
    (tree.mapLeaves g).route row = tree.route row := by
  induction tree using TreeNode.rec (motive_2 := fun o => ∀ t, o = some t → (t.mapLeaves g).route row = t.route row) with
  | mk q a b l iha ihb =>
    cases a with
    | none => cases b <;> simp [mapLeaves, route]
    | some a =>
      cases b with
      | none => simp [mapLeaves, route]
      | some b => simp [mapLeaves, route, iha a rfl, ihb b rfl]
  | none => rename_i h; cases h
  | some t ih => rename_i h; cases h; exact ih

end TreeNode

theorem reaching_nil (d : DataSet F) (tree : TreeNode F L) : reaching d tree [] = d.examples := by
  simp [reaching]

theorem grownGreedily_of_mapLeaves {L₁ L₂ L' : Type} {g₁ : L₁ → L'} {g₂ : L₂ → L'} {tree₁ : TreeNode F L₁}
    {tree₂ : TreeNode F L₂} (h : tree₁.mapLeaves g₁ = tree₂.mapLeaves g₂) {d : DataSet F} {c t m : Nat}
    (h2 : GrownGreedily d c t m tree₂) : GrownGreedily d c t m tree₁ := by
  have hq : ∀ p, tree₁.questionAt p = tree₂.questionAt p := fun p => by
    rw [← TreeNode.questionAt_mapLeaves g₁, h, TreeNode.questionAt_mapLeaves]
  have hr : ∀ row, tree₁.route row = tree₂.route row := fun row => by
    rw [← TreeNode.route_mapLeaves g₁, h, TreeNode.route_mapLeaves]
  have hs : ∀ p, (tree₁.subtreeAt p).isSome = (tree₂.subtreeAt p).isSome := fun p => by
    have := congrArg Option.isSome (TreeNode.subtreeAt_mapLeaves g₁ tree₁ p)
    rw [h, TreeNode.subtreeAt_mapLeaves] at this
    simpa using this.symm
  intro p hp
  rw [hs] at hp
  obtain ⟨dd, s, h3, h4, h5, h6⟩ := h2 p hp
  exact ⟨dd, s, h3, by rw [h4, reaching, reaching]; simp only [hr], h5, by rw [hq, h6]⟩

section
variable [LawfulOrder F]

theorem treeOf_greedy {leafOf : DataSet F → L} {c t : Nat} (m : Nat) (d : DataSet F) (h : d.WF c t) :
    GrownGreedily d c t m (treeOf leafOf c t m d) := by
  refine treeOf_induct (motive := fun m d => GrownGreedily d c t m (treeOf leafOf c t m d)) ?_ ?_ ?_ m d h
  · intro d hw p hp
    cases p with
    | nil => exact ⟨d, _, hw, (reaching_nil _ _).symm, findBestSplit_ok hw, by simp [treeOf, TreeNode.leafNode, TreeNode.questionAt]⟩
    | cons b p => simp [treeOf, TreeNode.leafNode, TreeNode.subtreeAt] at hp
  · intro m d hw hg p hp
    cases p with
    | nil => exact ⟨d, _, hw, (reaching_nil _ _).symm, findBestSplit_ok hw, by
        simp [treeOf_leaf hg, hg, TreeNode.leafNode, TreeNode.questionAt]⟩
    | cons b p => simp [treeOf_leaf hg, TreeNode.leafNode, TreeNode.subtreeAt] at hp
  · intro m d hw hg h1 h2 p hp
    rw [treeOf_node hg] at hp ⊢
    match p with
    | [] => exact ⟨d, _, hw, (reaching_nil _ _).symm, findBestSplit_ok hw, by simp [hg, TreeNode.new, TreeNode.questionAt]⟩
    | true :: p =>
      obtain ⟨dd, s, h3, h4, h5, h6⟩ := h1 p hp
      refine ⟨dd, s, h3, ?_, h5, ?_⟩
      · rw [h4, reaching, reaching, restrict_examples, List.filter_filter]
        apply List.filter_congr
        intro e _
        rw [TreeNode.route_new]
        cases hs : satisfies (splitOf d t).question e.1 <;> simp [List.isPrefixOf]
      · simp only [TreeNode.new, TreeNode.questionAt, h6, List.length_cons, Nat.add_lt_add_iff_right]
    | false :: p =>
      obtain ⟨dd, s, h3, h4, h5, h6⟩ := h2 p hp
      refine ⟨dd, s, h3, ?_, h5, ?_⟩
      · rw [h4, reaching, reaching, restrict_examples, List.filter_filter]
        apply List.filter_congr
        intro e _
        rw [TreeNode.route_new]
        cases hs : satisfies (splitOf d t).question e.1 <;> simp [List.isPrefixOf]
      · simp only [TreeNode.new, TreeNode.questionAt, h6, List.length_cons, Nat.add_lt_add_iff_right]

end

end Verif
