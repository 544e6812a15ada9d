import Verif.Lemmas.Leaf
/-! # Facts about the trees built on well-formed data -/

set_option linter.unusedSectionVars false

namespace Verif

variable {F : Type} [F64 F] {L : Type}

theorem treeOf_leaf {leafOf : DataSet F → L} {c t m : Nat} {d : DataSet F}
    (hg : ((splitOf d t).gain ==. F64.zero) = true) :
    treeOf leafOf c t (m + 1) d = TreeNode.leafNode (splitOf d t).question (leafOf d) := by
  simp [treeOf, hg]

theorem treeOf_node {leafOf : DataSet F → L} {c t m : Nat} {d : DataSet F}
    (hg : ((splitOf d t).gain ==. F64.zero) = false) :
    treeOf leafOf c t (m + 1) d = TreeNode.new (splitOf d t).question
      (treeOf leafOf c t m (d.restrict c (satisfies (splitOf d t).question)))
      (treeOf leafOf c t m (d.restrict c (fun r => !satisfies (splitOf d t).question r))) := by
  simp [treeOf, hg]

namespace TreeNode

theorem leafAt_leafNode {q : Question F} {l l' : L} {p : List Bool} (h : (leafNode q l).leafAt p = some l') :
    p = [] ∧ l' = l := by
  cases p with
  | nil => simp [leafNode, leafAt] at h; exact ⟨rfl, h.symm⟩
  | cons b p => simp [leafNode, leafAt] at h

theorem route_leafNode {q : Question F} {l : L} {row : List F} : (leafNode q l).route row = [] := rfl

theorem route_new {q : Question F} {a b : TreeNode F L} {row : List F} :
    (new q a b).route row = if satisfies q row then true :: a.route row else false :: b.route row := rfl

theorem leaves_leafNode {q : Question F} {l : L} : (leafNode q l).leaves = [l] := rfl

theorem leaves_new {q : Question F} {a b : TreeNode F L} : (new q a b).leaves = a.leaves ++ b.leaves := rfl

/-- traversal reaches the leaf at the end of the route -/
theorem find_of_proper {tree : TreeNode F L} (h : tree.Proper) {row : List F}
    (hq : ∀ p q, tree.questionAt p = some q → q.column < row.length) :
    ∃ leaf, findLeafNodeForData row tree = .ok leaf ∧ tree.leafAt (tree.route row) = some leaf := by
  induction h with
  | leaf q l => exact ⟨l, by simp [findLeafNodeForData, unwrap], rfl⟩
  | node q a b _ _ iha ihb =>
    have h0 := hq [] q rfl
    have hs := solve_eq h0
    cases hsat : satisfies q row with
    | true =>
      obtain ⟨leaf, h1, h2⟩ := iha (fun p q hp => hq (true :: p) q hp)
      refine ⟨leaf, by simp [findLeafNodeForData, hs, hsat, h1], ?_⟩
      simp [route, hsat, leafAt, h2]
    | false =>
      obtain ⟨leaf, h1, h2⟩ := ihb (fun p q hp => hq (false :: p) q hp)
      refine ⟨leaf, by simp [findLeafNodeForData, hs, hsat, h1], ?_⟩
      simp [route, hsat, leafAt, h2]

theorem mapLeaves_leafNode {L' : Type} (g : L → L') (q : Question F) (l : L) :
    (leafNode q l).mapLeaves g = leafNode q (g l) := by simp [leafNode, mapLeaves]

theorem mapLeaves_new {L' : Type} (g : L → L') (q : Question F) (a b : TreeNode F L) :
    (new q a b).mapLeaves g = new q (a.mapLeaves g) (b.mapLeaves g) := by simp [new, mapLeaves]

end TreeNode

theorem treeOf_mapLeaves {L' : Type} (g : L → L') {leafOf : DataSet F → L} {c t : Nat} (m : Nat) (d : DataSet F) :
    (treeOf leafOf c t m d).mapLeaves g = treeOf (fun d => g (leafOf d)) c t m d := by
  induction m generalizing d with
  | zero => simp [treeOf, TreeNode.mapLeaves_leafNode]
  | succ m ih =>
    cases hg : ((splitOf d t).gain ==. F64.zero) with
    | true => simp [treeOf_leaf hg, TreeNode.mapLeaves_leafNode]
    | false => simp [treeOf_node hg, TreeNode.mapLeaves_new, ih]

theorem treeOf_proper {leafOf : DataSet F → L} {c t : Nat} (m : Nat) (d : DataSet F) : (treeOf leafOf c t m d).Proper := by
  induction m generalizing d with
  | zero => exact .leaf _ _
  | succ m ih =>
    cases hg : ((splitOf d t).gain ==. F64.zero) with
    | true => rw [treeOf_leaf hg]; exact .leaf _ _
    | false => rw [treeOf_node hg]; exact .node _ _ _ (ih _) (ih _)

section
variable [LawfulOrder F]

theorem splitOf_column_lt {d : DataSet F} {c t : Nat} (h : d.WF c t) (hg : ((splitOf d t).gain ==. F64.zero) = false) :
    (splitOf d t).question.column < c := (splitOf_separates h hg).2.1

theorem restrict_mem {d : DataSet F} {c : Nat} {p : List F → Bool} {row : List F}
    (h : row ∈ (d.restrict c p).featureRows) : row ∈ d.featureRows ∧ p row = true := by
  simp only [DataSet.restrict, List.mem_map, List.mem_filter] at h
  obtain ⟨e, ⟨he, hp⟩, rfl⟩ := h
  exact ⟨examples_fst_mem he, hp⟩

/-- every question in the tree is about an existing column and a value that occurs in it -/
theorem treeOf_questions {leafOf : DataSet F → L} {c t : Nat} (m : Nat) (d : DataSet F) (h : d.WF c t) :
    ∀ p q, (treeOf leafOf c t m d).questionAt p = some q →
      q.column < c ∧ ∃ row ∈ d.featureRows, row[q.column]? = some q.value := by
  refine treeOf_induct (motive := fun m d => ∀ p q, (treeOf leafOf c t m d).questionAt p = some q →
      q.column < c ∧ ∃ row ∈ d.featureRows, row[q.column]? = some q.value) ?_ ?_ ?_ m d h
  · intro d _ p q hp
    simp [treeOf, TreeNode.leafNode, TreeNode.questionAt] at hp
  · intro m d _ hg p q hp
    simp [treeOf_leaf hg, TreeNode.leafNode, TreeNode.questionAt] at hp
  · intro m d hw hg h1 h2 p q hp
    rw [treeOf_node hg] at hp
    match p with
    | [] =>
      simp only [TreeNode.new, TreeNode.questionAt, Option.some.injEq] at hp
      subst hp
      obtain ⟨_, hc, hv, _⟩ := splitOf_separates hw hg
      exact ⟨hc, hv⟩
    | true :: p =>
      obtain ⟨hc, row, hr, hv⟩ := h1 p q hp
      exact ⟨hc, row, (restrict_mem hr).1, hv⟩
    | false :: p =>
      obtain ⟨hc, row, hr, hv⟩ := h2 p q hp
      exact ⟨hc, row, (restrict_mem hr).1, hv⟩

/-- what a leaf holds -/
theorem treeOf_leafAt {leafOf : DataSet F → L} {c t : Nat} (m : Nat) (d : DataSet F) (h : d.WF c t) :
    ∀ p l, (treeOf leafOf c t m d).leafAt p = some l →
      ∃ dd : DataSet F, l = leafOf dd ∧ dd.WF c t ∧
        dd.examples = d.examples.filter (fun e => decide ((treeOf leafOf c t m d).route e.1 = p)) := by
  refine treeOf_induct (motive := fun m d => ∀ p l, (treeOf leafOf c t m d).leafAt p = some l →
      ∃ dd : DataSet F, l = leafOf dd ∧ dd.WF c t ∧
        dd.examples = d.examples.filter (fun e => decide ((treeOf leafOf c t m d).route e.1 = p))) ?_ ?_ ?_ m d h
  · intro d hw p l hp
    obtain ⟨rfl, rfl⟩ := TreeNode.leafAt_leafNode hp
    refine ⟨d, rfl, hw, ?_⟩
    simp [treeOf, TreeNode.route_leafNode]
  · intro m d hw hg p l hp
    rw [treeOf_leaf hg] at hp ⊢
    obtain ⟨rfl, rfl⟩ := TreeNode.leafAt_leafNode hp
    refine ⟨d, rfl, hw, ?_⟩
    simp [TreeNode.route_leafNode]
  · intro m d hw hg h1 h2 p l hp
    rw [treeOf_node hg] at hp ⊢
    match p with
    | [] => simp [TreeNode.new, TreeNode.leafAt] at hp
    | true :: p =>
      obtain ⟨dd, h3, h4, h5⟩ := h1 p l hp
      refine ⟨dd, h3, h4, ?_⟩
      rw [h5, restrict_examples, List.filter_filter]
      apply List.filter_congr
      intro e _
      rw [TreeNode.route_new]
      cases hs : satisfies (splitOf d t).question e.1 <;> simp
    | false :: p =>
      obtain ⟨dd, h3, h4, h5⟩ := h2 p l hp
      refine ⟨dd, h3, h4, ?_⟩
      rw [h5, restrict_examples, List.filter_filter]
      apply List.filter_congr
      intro e _
      rw [TreeNode.route_new]
      cases hs : satisfies (splitOf d t).question e.1 <;> simp

theorem filter_append_not_perm {α : Type} (p : α → Bool) (l : List α) :
    (l.filter p ++ l.filter (fun x => !p x)).Perm l := List.filter_append_perm p l

/-- the leaves partition the examples -/
theorem treeOf_leaves {c t : Nat} (m : Nat) (d : DataSet F) (h : d.WF c t) :
    ((treeOf (fun d => d) c t m d).leaves.flatMap DataSet.examples).Perm d.examples ∧
      ∀ dd ∈ (treeOf (fun d => d) c t m d).leaves, dd.WF c t := by
  refine treeOf_induct (motive := fun m d => ((treeOf (fun d => d) c t m d).leaves.flatMap DataSet.examples).Perm d.examples ∧
      ∀ dd ∈ (treeOf (fun d => d) c t m d).leaves, dd.WF c t) ?_ ?_ ?_ m d h
  · intro d hw
    simp [treeOf, TreeNode.leaves_leafNode, hw]
  · intro m d hw hg
    simp [treeOf_leaf hg, TreeNode.leaves_leafNode, hw]
  · intro m d hw hg h1 h2
    rw [treeOf_node hg, TreeNode.leaves_new, List.flatMap_append]
    refine ⟨?_, ?_⟩
    · have e1 := h1.1
      have e2 := h2.1
      rw [restrict_examples] at e1 e2
      exact (e1.append e2).trans (filter_append_not_perm (fun e : List F × List F => satisfies (splitOf d t).question e.1) _)
    · intro dd hdd
      rcases List.mem_append.mp hdd with hdd | hdd
      · exact h1.2 dd hdd
      · exact h2.2 dd hdd

theorem wf_examples_pos {d : DataSet F} {c t : Nat} (h : d.WF c t) : 0 < d.examples.length := by
  have := List.length_pos_of_ne_nil h.rows_ne
  simp [DataSet.examples, h.label_count]
  omega

end

theorem leaves_mapLeaves {L' : Type} (g : L → L') {tree : TreeNode F L} (h : tree.Proper) :
    (tree.mapLeaves g).leaves = tree.leaves.map g := by
  induction h with
  | leaf q l => simp [TreeNode.mapLeaves, TreeNode.leaves]
  | node q a b _ _ iha ihb => simp [TreeNode.mapLeaves, TreeNode.leaves, iha, ihb]

theorem find_mapLeaves {L' : Type} (g : L → L') (row : List F) (tree : TreeNode F L) :
    findLeafNodeForData row (tree.mapLeaves g) = (do let l ← findLeafNodeForData row tree; pure (g l)) := by
  induction tree using TreeNode.rec (motive_2 := fun o => ∀ t, o = some t →
    findLeafNodeForData row (t.mapLeaves g) = (do let l ← findLeafNodeForData row t; pure (g l))) with
  | mk q a b l iha ihb =>
    cases a with
    | none =>
      cases b with
      | none => cases l <;> simp [TreeNode.mapLeaves, findLeafNodeForData, unwrap]
      | some b =>
        have := ihb b rfl
        simp only [TreeNode.mapLeaves, findLeafNodeForData, Option.isNone, Bool.and_false, Bool.not_false, if_true, this, bind_assoc]
        congr 1; funext s
        cases s <;> rfl
    | some a =>
      have ha := iha a rfl
      cases b with
      | none =>
        simp only [TreeNode.mapLeaves, findLeafNodeForData, Option.isNone, Bool.false_and, Bool.not_false, if_true, ha, bind_assoc]
        congr 1; funext s
        cases s <;> rfl
      | some b =>
        have hb := ihb b rfl
        simp only [TreeNode.mapLeaves, findLeafNodeForData, Option.isNone, Bool.false_and, Bool.not_false, if_true, ha, hb, bind_assoc]
        congr 1; funext s
        cases s <;> rfl
  | none => rename_i h; cases h
  | some t ih => rename_i h; cases h; exact ih

end Verif
