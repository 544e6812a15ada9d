import Verif.Spec.Interact
import Verif.Props.Place
import Verif.Props.Size
import Verif.Props.ExactClass
/-!
# C109: leaves are boxes, and no prediction combines more features than `max_levels`
-/

set_option linter.unusedSectionVars false

namespace Verif

open Sample

section effect
variable {F G : Type} [AddCommGroup G]

theorem jointEffect_congr {P : List F → Prop} (hP : ∀ row j v, P row → P (row.set j v)) {f g : List F → G} (h : ∀ row, P row → f row = g row)
    (s : List (Nat × F)) (row : List F) (hr : P row) : jointEffect f s row = jointEffect g s row := by
  induction s generalizing row with
  | nil => exact h row hr
  | cons a s ih => rw [jointEffect, jointEffect, ih _ hr, ih _ (hP _ _ _ hr)]

theorem jointEffect_swap (f : List F → G) (a b : Nat × F) (h : a.1 ≠ b.1) (s : List (Nat × F)) (row : List F) :
    jointEffect f (a :: b :: s) row = jointEffect f (b :: a :: s) row := by
  simp only [jointEffect]
  rw [List.set_comm _ _ h]
  abel

theorem jointEffect_perm (f : List F → G) {s s' : List (Nat × F)} (h : s.Perm s') (hd : DifferentFeatures s) (row : List F) :
    jointEffect f s row = jointEffect f s' row := by
  induction h generalizing row with
  | nil => rfl
  | cons a _ ih =>
    have := (List.nodup_cons.mp hd).2
    rw [jointEffect, jointEffect, ih this, ih this]
  | swap a b s =>
    apply jointEffect_swap
    intro he
    have := (List.nodup_cons.mp hd).1
    simp [he] at this
  | trans h1 _ ih1 ih2 =>
    rw [ih1 hd, ih2 ((h1.map Prod.fst).nodup_iff.mp hd)]

theorem jointEffect_const (a : G) (s : List (Nat × F)) (hs : s ≠ []) (row : List F) : jointEffect (fun _ => a) s row = 0 := by
  cases s with
  | nil => exact absurd rfl hs
  | cons b s =>
    rw [jointEffect]
    have : ∀ r r' : List F, jointEffect (fun _ => a) s r = jointEffect (fun _ => a) s r' := by
      clear hs
      induction s with
      | nil => intros; rfl
      | cons x s ih => intro r r'; rw [jointEffect, jointEffect, ih _ (r'.set x.1 x.2), ih r r']
    rw [this _ row, sub_self]

theorem jointEffect_add (f g : List F → G) (s : List (Nat × F)) (row : List F) :
    jointEffect (fun r => f r + g r) s row = jointEffect f s row + jointEffect g s row := by
  induction s generalizing row with
  | nil => rfl
  | cons a s ih => rw [jointEffect, jointEffect, jointEffect, ih, ih]; abel

theorem jointEffect_hom {G' : Type} [AddCommGroup G'] (φ : G →+ G') (f : List F → G) (s : List (Nat × F)) (row : List F) :
    jointEffect (fun r => φ (f r)) s row = φ (jointEffect f s row) := by
  induction s generalizing row with
  | nil => rfl
  | cons a s ih => rw [jointEffect, jointEffect, ih, ih, map_sub]

theorem jointEffect_sum {T : Type} (trees : List T) (f : T → List F → G) (s : List (Nat × F)) (hs : s ≠ []) (row : List F)
    (h : ∀ tree ∈ trees, jointEffect (f tree) s row = 0) : jointEffect (fun r => (trees.map (fun tree => f tree r)).sum) s row = 0 := by
  induction trees with
  | nil => exact jointEffect_const 0 s hs row
  | cons a trees ih =>
    simp only [List.map_cons, List.sum_cons]
    rw [jointEffect_add, h a (by simp), ih (fun x hx => h x (by simp [hx])), add_zero]

variable [F64 F] {L : Type}

theorem satisfies_set {q : Question F} {j : Nat} (h : q.column ≠ j) (v : F) (row : List F) : satisfies q (row.set j v) = satisfies q row := by
  simp only [satisfies, List.getElem?_set_ne h.symm]

/-- While a question's feature is not changed, only one branch is used. -/
theorem jointEffect_branch {q : Question F} {f f1 f2 : List F → G} (h : ∀ row, f row = if satisfies q row then f1 row else f2 row)
    (s : List (Nat × F)) (hs : q.column ∉ s.map Prod.fst) (row : List F) :
    jointEffect f s row = if satisfies q row then jointEffect f1 s row else jointEffect f2 s row := by
  induction s generalizing row with
  | nil => exact h row
  | cons a s ih =>
    simp only [List.map_cons, List.mem_cons, not_or] at hs
    rw [jointEffect, ih hs.2, ih hs.2, satisfies_set hs.1]
    split <;> rfl

/-- Whatever number (or element of a commutative group) is attached to the leaves of a tree of depth at most `m`: more
than `m` different features have no joint effect on it. -/
theorem effect_tree (tree : TreeNode F L) {m : Nat} (hm : tree.depth ≤ m) (g : List Bool → G) (s : List (Nat × F)) (hs : DifferentFeatures s)
    (hl : m < s.length) (row : List F) : jointEffect (fun r => g (tree.route r)) s row = 0 := by
  have leafCase : ∀ p : List Bool, (∀ r : List F, tree.route r = p) → jointEffect (fun r => g (tree.route r)) s row = 0 := by
    intro p hp
    simp only [hp]
    exact jointEffect_const _ s (List.ne_nil_of_length_pos (by omega)) row
  match tree, leafCase with
  | .mk q (some t) (some u) l, _ =>
    simp only [TreeNode.depth] at hm
    have iht := effect_tree t (m := m - 1) (by omega) (fun p => g (true :: p))
    have ihu := effect_tree u (m := m - 1) (by omega) (fun p => g (false :: p))
    have hb : ∀ r : List F, g ((TreeNode.mk q (some t) (some u) l).route r) =
        if satisfies q r then g (true :: t.route r) else g (false :: u.route r) := by
      intro r
      simp only [TreeNode.route]
      split <;> rfl
    by_cases hq : q.column ∈ s.map Prod.fst
    · obtain ⟨a, ha, haq⟩ := List.mem_map.mp hq
      obtain ⟨s1, s2, rfl⟩ := List.append_of_mem ha
      have hp : (s1 ++ a :: s2).Perm (a :: (s1 ++ s2)) := List.perm_middle
      have hd := (hp.map Prod.fst).nodup_iff.mp hs
      rw [List.map_cons, List.nodup_cons] at hd
      rw [jointEffect_perm _ hp hs, jointEffect]
      have hl' : m - 1 < (s1 ++ s2).length := by
        have := hp.length_eq
        rw [this, List.length_cons] at hl
        omega
      rw [jointEffect_branch hb _ (haq ▸ hd.1), jointEffect_branch hb _ (haq ▸ hd.1), iht _ hd.2 hl', ihu _ hd.2 hl', iht _ hd.2 hl', ihu _ hd.2 hl']
      simp
    · rw [jointEffect_branch hb s hq, iht s hs (by omega), ihu s hs (by omega)]
      simp
  | .mk _ none none _, h => exact h [] (fun _ => rfl)
  | .mk _ (some _) none _, h => exact h [] (fun _ => rfl)
  | .mk _ none (some _) _, h => exact h [] (fun _ => rfl)

/-- The same for what is found by traversal. -/
theorem effect_lookup {tree : TreeNode F L} (hp : tree.Proper) {c m : Nat} (hq : ∀ p q, tree.questionAt p = some q → q.column < c)
    (hm : tree.depth ≤ m) (g : R L → G) (s : List (Nat × F)) (hs : DifferentFeatures s) (hl : m < s.length) (row : List F)
    (hrow : c ≤ row.length) : jointEffect (fun r => g (findLeafNodeForData r tree)) s row = 0 := by
  refine (jointEffect_congr (G := G) (P := fun r => c ≤ r.length) (fun r j v h => by simpa using h) ?_ s row hrow).trans
    (effect_tree tree hm (fun p => match tree.leafAt p with | some l => g (.ok l) | none => 0) s hs hl row)
  intro r hr
  obtain ⟨leaf, h1, h2⟩ := TreeNode.find_of_proper hp (row := r) (fun p q h => Nat.lt_of_lt_of_le (hq p q h) hr)
  simp only [h1, h2]

/-- `value` of a leaf that was found -/
def valueOf (value : L → G) : R L → G
  | .ok l => value l
  | .error _ => 0

theorem effect_value {tree : TreeNode F L} (hp : tree.Proper) {c m : Nat} (hq : ∀ p q, tree.questionAt p = some q → q.column < c)
    (hm : tree.depth ≤ m) (value : L → G) : NoJointEffect c m (tree.valueFor value) := by
  intro s row hs hl hrow
  have e : tree.valueFor value = fun r => valueOf value (findLeafNodeForData r tree) := by
    funext r
    simp only [TreeNode.valueFor]
    cases findLeafNodeForData r tree <;> rfl
  rw [e]
  exact effect_lookup hp hq hm (valueOf value) s hs hl row hrow

/-- **C109** (trees).  Whatever number (or element of a commutative group) is attached to the leaves of a tree that one of the four builders
returns: more than `max_levels` different features have no joint effect on the number attached to the leaf of a row.  Holds in binary64,
too: nothing is computed along the way. -/
theorem C109_tree [LawfulOrder F] (d : DataSet F) (c t : Nat) (hw : d.WF c t) (cfg : TreeConfig) (hc : cfg.numberOfClasses = t)
    (k : LeafOutputType) :
    (∀ tree, regressionTreeNew d cfg = .ok tree → ∀ value : RegressionLeaf F → G, NoJointEffect c cfg.maxLevels (tree.valueFor value)) ∧
    (∀ tree, gradBoostTreeNew d cfg k = .ok tree → ∀ value : GradBoostLeaf F → G, NoJointEffect c cfg.maxLevels (tree.valueFor value)) ∧
    (∀ tree, amgTreeNew d cfg k = .ok tree → ∀ value : AMGBoostLeaf F → G, NoJointEffect c cfg.maxLevels (tree.valueFor value)) ∧
    (t < 2 ^ 32 → ∀ s tree, createDatasetWithSortedFeatures d = .ok s → regressionTreeNewPartitionNew s cfg = .ok tree →
      ∀ value : RegressionLeafNewPartition F → G, NoJointEffect c cfg.maxLevels (tree.valueFor value)) := by
  obtain ⟨g1, g2, g3⟩ := C48_grown_greedily d c t hw cfg hc k
  refine ⟨fun tree h value => ?_, fun tree h value => ?_, fun tree h value => ?_,
    fun ht sd tree hs h value => ?_⟩
  · obtain ⟨hp, hm⟩ := (C18_depth d ⟨[], []⟩ cfg k).1 tree h
    exact effect_value hp (fun p q hq => (grown_questions (g1 tree h) hq).1) hm value
  · obtain ⟨hp, hm⟩ := (C18_depth d ⟨[], []⟩ cfg k).2.1 tree h
    exact effect_value hp (fun p q hq => (grown_questions (g2 tree h) hq).1) hm value
  · obtain ⟨hp, hm⟩ := (C18_depth d ⟨[], []⟩ cfg k).2.2.1 tree h
    exact effect_value hp (fun p q hq => (grown_questions (g3 tree h) hq).1) hm value
  · obtain ⟨hp, hm⟩ := (C18_depth d sd cfg k).2.2.2 tree h
    exact effect_value hp (fun p q hq => (grown_questions (C48_grown_greedily_sorted d c t hw ht cfg sd hs tree h) hq).1) hm value

end effect

section boxes
variable {F : Type} [F64 F] [LawfulOrder F] {L : Type}

theorem satisfies_between {q : Question F} {x y z : List F} {c : Nat} (hb : Between x y z) (hq : q.column < c) (hx : c ≤ x.length)
    (hy : c ≤ y.length) (hz : c ≤ z.length) (h : satisfies q x = satisfies q y) : satisfies q z = satisfies q x := by
  have h1 := List.getElem?_eq_getElem (l := x) (show q.column < x.length by omega)
  have h2 := List.getElem?_eq_getElem (l := y) (show q.column < y.length by omega)
  have h3 := List.getElem?_eq_getElem (l := z) (show q.column < z.length by omega)
  have := hb _ _ _ _ h1 h2 h3
  simp only [satisfies, h1, h2, h3] at h ⊢
  cases hv : (q.value <=. x[q.column]) with
  | true =>
    rw [hv] at h
    rcases this with ⟨a, _⟩ | ⟨a, _⟩
    · exact LawfulOrder.le_trans hv a
    · exact LawfulOrder.le_trans h.symm a
  | false =>
    rw [hv] at h
    cases hw : (q.value <=. z[q.column]) with
    | false => rfl
    | true =>
      rcases this with ⟨_, a⟩ | ⟨_, a⟩
      · rw [LawfulOrder.le_trans hw a] at h
        cases h
      · rw [LawfulOrder.le_trans hw a] at hv
        cases hv

theorem route_between {tree : TreeNode F L} (hp : tree.Proper) {c : Nat} (hq : ∀ p q, tree.questionAt p = some q → q.column < c) {x y z : List F}
    (hb : Between x y z) (hx : c ≤ x.length) (hy : c ≤ y.length) (hz : c ≤ z.length) (h : tree.route x = tree.route y) :
    tree.route z = tree.route x := by
  induction hp with
  | leaf q l => rfl
  | node q a b _ _ iha ihb =>
    have h0 := hq [] q rfl
    simp only [TreeNode.route] at h ⊢
    have hs : satisfies q x = satisfies q y := by
      revert h
      cases satisfies q x <;> cases satisfies q y <;> simp
    have hsz := satisfies_between hb h0 hx hy hz hs
    rw [hsz]
    cases hv : satisfies q x with
    | true =>
      rw [← hs, hv] at h
      simp only [if_true, List.cons.injEq, true_and] at h ⊢
      exact iha (fun p q hp => hq (true :: p) q hp) h
    | false =>
      rw [← hs, hv] at h
      simp only [Bool.false_eq_true, if_false, List.cons.injEq, true_and] at h ⊢
      exact ihb (fun p q hp => hq (false :: p) q hp) h

theorem find_of_route {tree : TreeNode F L} (hp : tree.Proper) {c : Nat} (hq : ∀ p q, tree.questionAt p = some q → q.column < c) {x y : List F}
    (hx : c ≤ x.length) (hy : c ≤ y.length) (h : tree.route x = tree.route y) : findLeafNodeForData x tree = findLeafNodeForData y tree := by
  obtain ⟨l, h1, h2⟩ := TreeNode.find_of_proper hp (row := x) (fun p q h => Nat.lt_of_lt_of_le (hq p q h) hx)
  obtain ⟨l', h3, h4⟩ := TreeNode.find_of_proper hp (row := y) (fun p q h => Nat.lt_of_lt_of_le (hq p q h) hy)
  rw [h, h4] at h2
  rw [h1, h3, Option.some.inj h2]

/-- **C109** (leaves are boxes).  If two rows end in the same leaf, then so does every row that lies between them in every feature. -/
theorem C109_boxes (d : DataSet F) (c t : Nat) (hw : d.WF c t) (cfg : TreeConfig) (hc : cfg.numberOfClasses = t) (k : LeafOutputType)
    (x y z : List F) (hx : c ≤ x.length) (hy : c ≤ y.length) (hz : c ≤ z.length) (hb : Between x y z) :
    (∀ tree, regressionTreeNew d cfg = .ok tree → tree.route x = tree.route y →
      tree.route z = tree.route x ∧ findLeafNodeForData z tree = findLeafNodeForData x tree) ∧
    (∀ tree, gradBoostTreeNew d cfg k = .ok tree → tree.route x = tree.route y →
      tree.route z = tree.route x ∧ findLeafNodeForData z tree = findLeafNodeForData x tree) ∧
    (∀ tree, amgTreeNew d cfg k = .ok tree → tree.route x = tree.route y →
      tree.route z = tree.route x ∧ findLeafNodeForData z tree = findLeafNodeForData x tree) ∧
    (t < 2 ^ 32 → ∀ s tree, createDatasetWithSortedFeatures d = .ok s → regressionTreeNewPartitionNew s cfg = .ok tree →
      tree.route x = tree.route y → tree.route z = tree.route x ∧ findLeafNodeForData z tree = findLeafNodeForData x tree) := by
  obtain ⟨g1, g2, g3⟩ := C48_grown_greedily d c t hw cfg hc k
  refine ⟨fun tree h hr => ?_, fun tree h hr => ?_, fun tree h hr => ?_, fun ht sd tree hs h hr => ?_⟩
  · have hp := ((C18_depth d ⟨[], []⟩ cfg k).1 tree h).1
    have hq := fun p q hq => (grown_questions (g1 tree h) (p := p) (q := q) hq).1
    have := route_between hp hq hb hx hy hz hr
    exact ⟨this, find_of_route hp hq hz hx this⟩
  · have hp := ((C18_depth d ⟨[], []⟩ cfg k).2.1 tree h).1
    have hq := fun p q hq => (grown_questions (g2 tree h) (p := p) (q := q) hq).1
    have := route_between hp hq hb hx hy hz hr
    exact ⟨this, find_of_route hp hq hz hx this⟩
  · have hp := ((C18_depth d ⟨[], []⟩ cfg k).2.2.1 tree h).1
    have hq := fun p q hq => (grown_questions (g3 tree h) (p := p) (q := q) hq).1
    have := route_between hp hq hb hx hy hz hr
    exact ⟨this, find_of_route hp hq hz hx this⟩
  · have hp := ((C18_depth d sd cfg k).2.2.2 tree h).1
    have hq := fun p q hq => (grown_questions (C48_grown_greedily_sorted d c t hw ht cfg sd hs tree h) (p := p) (q := q) hq).1
    have := route_between hp hq hb hx hy hz hr
    exact ⟨this, find_of_route hp hq hz hx this⟩

theorem trees_between {d : DataSet F} {c t m : Nat} {leafOf : DataSet F → L} {trees : List (TreeNode F L)}
    (ht : ∀ tree ∈ trees, ∃ r, ({ d with labels := r } : DataSet F).WF c t ∧ tree = treeOf leafOf c t m { d with labels := r })
    {x y z : List F} (hx : c ≤ x.length) (hy : c ≤ y.length) (hz : c ≤ z.length) (hb : Between x y z)
    (h : ∀ tree ∈ trees, tree.route x = tree.route y) : ∀ tree ∈ trees, findLeafNodeForData z tree = findLeafNodeForData x tree := by
  intro tree htree
  obtain ⟨r, hw, rfl⟩ := ht tree htree
  have hq := fun p q hq => (treeOf_questions (leafOf := leafOf) m _ hw p q hq).1
  exact find_of_route (treeOf_proper _ _) hq hz hx (route_between (treeOf_proper _ _) hq hb hx hy hz (h _ htree))

/-- **C109** (ensembles).  If two rows end in the same leaf of every tree of an ensemble, then every row between them gets their prediction,
bit for bit. -/
theorem C109_boxes_ensembles (d : DataSet F) (c t : Nat) (hw : d.WF c t) (cfg : TreeConfig) (hc : cfg.numberOfClasses = t) (n : Nat) (lr : F)
    (x y z : List F) (hx : c ≤ x.length) (hy : c ≤ y.length) (hz : c ≤ z.length) (hb : Between x y z) :
    (∀ m, regressionTrain d cfg n lr = .ok m → (∀ tree ∈ m.trees, tree.route x = tree.route y) →
      regressionPredict m z = regressionPredict m x) ∧
    (∀ m, multiClassTrain d cfg n lr = .ok m → (∀ tree ∈ m.trees, tree.route x = tree.route y) →
      multiClassPredict m z = multiClassPredict m x) ∧
    (∀ m, amgTrain d cfg n lr = .ok m → (∀ tree ∈ m.trees, tree.route x = tree.route y) → amgPredict m z = amgPredict m x) := by
  refine ⟨fun m h hr => ?_, fun m h hr => ?_, fun m h hr => ?_⟩
  · have := trees_between (regression_trees_of hw hc h) hx hy hz hb hr
    simp only [regressionPredict, predictInstance_eq]
    exact rawScore_congr (fun tree ht => by simp only [gradOut, this tree ht])
  · have := trees_between (multiClass_trees_of hw hc h) hx hy hz hb hr
    simp only [multiClassPredict, predictInstance_eq]
    rw [rawScore_congr (row' := x) (fun tree ht => by simp only [gradOut, this tree ht])]
  · have := trees_between (amg_trees_of hw hc h) hx hy hz hb hr
    simp only [amgPredict, amgPredictInstance_eq]
    rw [rawScore_congr (row' := x) (fun tree ht => by simp only [amgOut, this tree ht])]

end boxes

variable {K : Type} [Field K] [LinearOrder K] [IsStrictOrderedRing K] [FloorSemiring K] [HasExp K]

/-- the finite number in entry `j` of a returned vector, zero if there is none -/
def entry (v : R (List (Ext K))) (j : Nat) : K :=
  match v with
  | .ok v => match v[j]? with
    | some (.fin x) => x
    | _ => 0
  | .error _ => 0

theorem entry_lift (o : List K) (j : Nat) : entry (.ok (liftV o)) j = o.getD j 0 := by
  simp only [entry, liftV, List.getElem?_map, List.getD]
  cases o[j]? <;> rfl

/-- Sums of trees with finite outputs. -/
theorem effect_scores {L : Type} {out : List (Ext K) → TreeNode (Ext K) L → R (List (Ext K))} (w : R L → R (List (Ext K)))
    (hout : ∀ row tree, out row tree = w (findLeafNodeForData row tree)) {c t m : Nat} {trees : List (TreeNode (Ext K) L)}
    (ht : ∀ tree ∈ trees, tree.Proper ∧ (∀ p q, tree.questionAt p = some q → q.column < c) ∧ tree.depth ≤ m ∧
      ∀ row : List (Ext K), c ≤ row.length → ∃ o : List K, out row tree = .ok (liftV o) ∧ o.length = t) {g : List K} (hg : g.length = t) (lr : K) :
    ∃ p : List (Ext K) → List K,
      (∀ row : List (Ext K), c ≤ row.length → rawScore out (liftV g) (.fin lr) trees row = .ok (liftV (p row)) ∧ (p row).length = t) ∧
      ∀ j, NoJointEffect c m (fun row => (p row).getD j 0) := by
  refine ⟨fun row => (List.range t).map (fun j => g.getD j 0 + lr * (trees.map (fun tree => entry (out row tree) j)).sum), ?_, ?_⟩
  · intro row hrow
    refine ⟨?_, by simp⟩
    have : List.Forall₂ (fun tree o => out row tree = .ok (liftV o) ∧ o.length = t) trees
        (trees.map (fun tree => (List.range t).map (fun j => entry (out row tree) j))) := by
      rw [List.forall₂_map_right_iff, List.forall₂_same]
      intro tree htree
      obtain ⟨o, h1, h2⟩ := (ht tree htree).2.2.2 row hrow
      refine ⟨?_, by simp⟩
      rw [h1]
      simp only [entry_lift]
      rw [← eq_range_getD h2 0]
    rw [rawScore_exact hg this]
    congr 2
    apply List.map_congr_left
    intro j hj
    rw [List.map_map]
    congr 3
    apply List.map_congr_left
    intro tree _
    simp only [Function.comp]
    rw [getD_range (List.mem_range.mp hj)]
  · intro j s row hs hl hrow
    have hne : s ≠ [] := List.ne_nil_of_length_pos (by omega)
    by_cases hj : j < t
    · simp only [getD_range hj]
      rw [jointEffect_add, jointEffect_const _ s hne, zero_add]
      have := jointEffect_hom (AddMonoidHom.mulLeft lr) (fun r : List (Ext K) => (trees.map (fun tree => entry (out r tree) j)).sum) s row
      simp only [AddMonoidHom.coe_mulLeft] at this
      rw [this, jointEffect_sum trees (fun tree r => entry (out r tree) j) s hne row, mul_zero]
      intro tree htree
      obtain ⟨hp, hq, hm, _⟩ := ht tree htree
      simp only [hout]
      exact effect_lookup (G := K) hp hq hm (fun r => entry (w r) j) s hs hl row hrow
    · have : ∀ r : List (Ext K), ((List.range t).map (fun j => g.getD j 0 + lr * (trees.map (fun tree => entry (out r tree) j)).sum)).getD j 0 = 0 := by
        intro r
        rw [List.getD, List.getElem?_eq_none (by simpa using hj)]
        rfl
      simp only [this]
      exact jointEffect_const 0 s hne row

/-- **C109** (regression ensembles).  With exact arithmetic, more than `max_levels` different features have no joint effect on any target of
the predictions of a regression ensemble, for any number of trees and any learning rate. -/
theorem C109_regression (d : DataSet (Ext K)) (c t : Nat) (h : d.WF c t) (ls : List (List K)) (hls : d.labels = lift ls) (cfg : TreeConfig)
    (hc : cfg.numberOfClasses = t) (n : Nat) (lr : K) :
    ∃ m, ∃ p : List (Ext K) → List K, regressionTrain d cfg n (.fin lr) = .ok m ∧
      (∀ row : List (Ext K), c ≤ row.length → regressionPredict m row = .ok (liftV (p row)) ∧ (p row).length = t) ∧
      ∀ j, NoJointEffect c cfg.maxLevels (fun row => (p row).getD j 0) := by
  obtain ⟨m, h1, _, h3, h4, h5⟩ := C34_trained d c t h ls hls cfg hc n lr
  obtain ⟨p, hp, he⟩ := effect_scores (out := gradOut) (fun r => do let leaf ← r; unwrap leaf.leafOutput) (fun _ _ => rfl) (c := c) (t := t)
    (m := cfg.maxLevels) (trees := m.trees) (g := meanVec t ls) (by
      intro tree htree
      obtain ⟨r, hw, he⟩ := regression_trees_of h hc h1 tree htree
      refine ⟨he ▸ treeOf_proper _ _, fun p q hq => (treeOf_questions _ _ hw p q (he ▸ hq)).1, he ▸ treeOf_depth_le _ _, ?_⟩
      intro row hrow
      obtain ⟨outs, ho, _⟩ := h5 row hrow
      obtain ⟨i, hi, rfl⟩ := List.getElem_of_mem htree
      have hi' : i < outs.length := ho.length_eq ▸ hi
      obtain ⟨h6, leaf, h7, h8⟩ := ho.get hi hi'
      refine ⟨_, ?_, h6⟩
      simp only [List.get_eq_getElem] at h7 h8
      simp [gradOut, h7, h8, unwrap]) (meanVec_length t ls) lr
  refine ⟨m, p, h1, ?_, he⟩
  intro row hrow
  rw [regressionPredict, predictInstance_eq, h3, h4]
  exact hp row hrow

/-- **C109** (classification ensembles).  The same for the scores of the classes; the predicted class is the first with the largest score. -/
theorem C109_classification (d : DataSet (Ext K)) (c t : Nat) (h : d.WF c t) (h2 : 2 ≤ t) (ht : t ≤ 2 ^ 53)
    (hot : ∀ l ∈ d.labels, ∃ k < t, l = oneHot t k) (cfg : TreeConfig) (hc : cfg.numberOfClasses = t) (n : Nat) (lr : K) :
    (∃ m, ∃ p : List (Ext K) → List K, multiClassTrain d cfg n (.fin lr) = .ok m ∧
      (∀ row : List (Ext K), c ≤ row.length → predictInstance row m.trees m.initialGuess m.learningRate = .ok (liftV (p row)) ∧
        (p row).length = t ∧ ∃ k < t, FirstMax (liftV (p row)) k ∧ multiClassPredict m row = .ok (oneHot t k)) ∧
      ∀ j, NoJointEffect c cfg.maxLevels (fun row => (p row).getD j 0)) ∧
    (∃ m, ∃ p : List (Ext K) → List K, amgTrain d cfg n (.fin lr) = .ok m ∧
      (∀ row : List (Ext K), c ≤ row.length →
        amgPredictInstance row m.trees m.initialGuess m.learningRate m.initialGuess.length = .ok (liftV (p row)) ∧
        (p row).length = t ∧ ∃ k < t, FirstMax (liftV (p row)) k ∧ amgPredict m row = .ok (oneHot t k)) ∧
      ∀ j, NoJointEffect c cfg.maxLevels (fun row => (p row).getD j 0)) := by
  obtain ⟨ls, hls, hh⟩ := labels_hot hot
  constructor
  · obtain ⟨s, ps, h3, hs⟩ := multi_loop (lr := lr) h h2 hls hh hc n
    obtain ⟨p, hp, he⟩ := effect_scores (out := gradOut) (fun r => do let leaf ← r; unwrap leaf.leafOutput) (fun _ _ => rfl) (c := c) (t := t)
      (m := cfg.maxLevels) (trees := s.2) (g := List.replicate t (1 / (t : K))) (by
        intro tree htree
        obtain ⟨k, hk⟩ := List.getElem?_of_mem htree
        obtain ⟨qs, h4, h5, _, rfl⟩ := hs.trees k tree hk
        refine ⟨treeOf_proper _ _, fun p q hq => (treeOf_questions _ _ (probResid_wf h hls h5 h4) p q hq).1, treeOf_depth_le _ _, ?_⟩
        intro row hrow
        obtain ⟨o, h6, h7, _⟩ := multi_out cfg.maxLevels _ (probResid_wf h hls h5 h4) (probResid_good h2 hh h4) row hrow
        exact ⟨o, h6, h7⟩) (by simp) lr
    refine ⟨_, p, multi_train h h2 ht h3, ?_, he⟩
    intro row hrow
    obtain ⟨h6, h7⟩ := hp row hrow
    rw [← predictInstance_eq] at h6
    obtain ⟨k, h8, h9, h10⟩ := (C39_multiClass_one_hot ⟨s.2, liftV (List.replicate t (1 / (t : K))), .fin lr⟩ row _ h6).1 (by
      intro h0
      have := congrArg List.length h0
      rw [liftV_length, h7] at this
      simp at this
      omega)
    rw [liftV_length, h7] at h8 h10
    exact ⟨h6, h7, k, h8, h9, h10⟩
  · obtain ⟨s, ps, h3, hs⟩ := amg_loop (lr := lr) h h2 hls hh hc n
    obtain ⟨p, hp, he⟩ := effect_scores (out := amgOut t) (fun r => do let leaf ← r; constructApproximateLeafOutput leaf t) (fun _ _ => rfl) (c := c) (t := t)
      (m := cfg.maxLevels) (trees := s.2) (g := List.replicate t (1 / (t : K))) (by
        intro tree htree
        obtain ⟨k, hk⟩ := List.getElem?_of_mem htree
        obtain ⟨qs, h4, h5, _, rfl⟩ := hs.trees k tree hk
        refine ⟨treeOf_proper _ _, fun p q hq => (treeOf_questions _ _ (probResid_wf h hls h5 h4) p q hq).1, treeOf_depth_le _ _, ?_⟩
        intro row hrow
        obtain ⟨o, h6, h7, _⟩ := amg_out h2 cfg.maxLevels _ (probResid_wf h hls h5 h4) (probResid_good h2 hh h4) row hrow
        exact ⟨o, h6, h7⟩) (by simp) lr
    have hgl : (liftV (List.replicate t (1 / (t : K))) : List (Ext K)).length = t := by simp [liftV]
    refine ⟨_, p, amg_train h h2 ht h3, ?_, he⟩
    intro row hrow
    obtain ⟨h6, h7⟩ := hp row hrow
    rw [← amgPredictInstance_eq] at h6
    have h6 : amgPredictInstance row s.2 (liftV (List.replicate t (1 / (t : K)))) (.fin lr)
        (liftV (List.replicate t (1 / (t : K))) : List (Ext K)).length = .ok (liftV (p row)) := by
      rw [hgl]
      exact h6
    obtain ⟨k, h8, h9, h10⟩ := (C39_amg_one_hot ⟨s.2, liftV (List.replicate t (1 / (t : K))), .fin lr⟩ row _ h6).1 (by
      intro h0
      have := congrArg List.length h0
      rw [liftV_length, h7] at this
      simp at this
      omega)
    rw [liftV_length, h7] at h8 h10
    exact ⟨h6, h7, k, h8, h9, h10⟩

/-- Setting feature `k` has the same effect whatever the features before it are. -/
theorem effect_alone {F G : Type} [AddCommGroup G] {c : Nat} {f : List F → G} (hf : NoJointEffect c 1 f) {x : List F} (hx : c ≤ x.length)
    {k : Nat} {v : F} (s : List (Nat × F)) (hs : ∀ a ∈ s, a.1 ≠ k) :
    f ((s.foldl (fun r a => r.set a.1 a.2) x).set k v) - f (s.foldl (fun r a => r.set a.1 a.2) x) = f (x.set k v) - f x := by
  induction s generalizing x with
  | nil => rfl
  | cons a s ih =>
    have h1 := ih (x := x.set a.1 a.2) (by simpa using hx) (fun b hb => hs b (by simp [hb]))
    have hne := hs a (by simp)
    have h2 := hf [a, (k, v)] x (by simp [DifferentFeatures, hne]) (by simp) hx
    simp only [jointEffect] at h2
    rw [List.foldl_cons, h1]
    exact sub_eq_zero.mp h2

/-- Without joint effects of two features, a function is a constant plus functions of the single features. -/
theorem additive_of_effect {F G : Type} [AddCommGroup G] {c : Nat} {f : List F → G} (hf : NoJointEffect c 1 f) (base row : List F)
    (hb : base.length = c) (hr : row.length = c) (dflt : F) :
    f row = f base + ((List.range c).map (fun i => f (base.set i (row.getD i dflt)) - f base)).sum := by
  have key : ∀ k ≤ c, f (((List.range k).map (fun i => (i, row.getD i dflt))).foldl (fun r a => r.set a.1 a.2) base) =
      f base + ((List.range k).map (fun i => f (base.set i (row.getD i dflt)) - f base)).sum := by
    intro k
    induction k with
    | zero => simp
    | succ k ih =>
      intro hk
      rw [List.range_succ, List.map_append, List.map_append, List.foldl_append, List.sum_append, ← add_assoc, ← ih (by omega)]
      have := effect_alone hf (x := base) hb.ge (k := k) (v := row.getD k dflt) ((List.range k).map (fun i => (i, row.getD i dflt))) (by
        intro a ha
        obtain ⟨i, hi, rfl⟩ := List.mem_map.mp ha
        have := List.mem_range.mp hi
        simp only
        omega)
      simp only [List.map_cons, List.map_nil, List.foldl_cons, List.foldl_nil, List.sum_cons, List.sum_nil, add_zero]
      rw [← this]
      abel
  have hfold : ∀ k, (((List.range k).map (fun i => (i, row.getD i dflt))).foldl (fun r a => r.set a.1 a.2) base).length = c ∧
      ∀ i, i < c → (((List.range k).map (fun i => (i, row.getD i dflt))).foldl (fun r a => r.set a.1 a.2) base)[i]? =
        if i < k then row[i]? else base[i]? := by
    intro k
    induction k with
    | zero => exact ⟨hb, fun i _ => rfl⟩
    | succ k ih =>
      rw [List.range_succ, List.map_append, List.foldl_append]
      simp only [List.map_cons, List.map_nil, List.foldl_cons, List.foldl_nil, List.length_set]
      refine ⟨ih.1, fun i hi => ?_⟩
      rw [List.getElem?_set]
      split
      · rename_i he
        subst he
        rw [if_pos (by rw [ih.1]; exact hi), if_pos (by omega)]
        simp [List.getD, List.getElem?_eq_getElem (l := row) (show k < row.length by omega)]
      · rw [ih.2 i hi]
        congr 1
        simp only [eq_iff_iff]
        omega
  have : ((List.range c).map (fun i => (i, row.getD i dflt))).foldl (fun r a => r.set a.1 a.2) base = row := by
    apply List.ext_getElem?
    intro i
    by_cases hi : i < c
    · rw [(hfold c).2 i hi, if_pos hi]
    · rw [List.getElem?_eq_none (by rw [(hfold c).1]; omega), List.getElem?_eq_none (by omega)]
  rw [← key c (_root_.le_refl _), this]

/-- **C109** (one question per tree).  With exact arithmetic and `max_levels` at most 1 the predictions of a regression ensemble are, target by
target, a constant plus a sum of functions of the single features. -/
theorem C109_additive (d : DataSet (Ext K)) (c t : Nat) (h : d.WF c t) (ls : List (List K)) (hls : d.labels = lift ls) (cfg : TreeConfig)
    (hc : cfg.numberOfClasses = t) (hm : cfg.maxLevels ≤ 1) (n : Nat) (lr : K) :
    ∃ m, ∃ (a : Nat → K) (φ : Nat → Ext K → Nat → K), regressionTrain d cfg n (.fin lr) = .ok m ∧
      ∀ row : List (Ext K), row.length = c →
        regressionPredict m row = .ok (liftV ((List.range t).map (fun j => a j + ((List.range c).map (fun i => φ i (row.getD i .nan) j)).sum))) := by
  obtain ⟨m, p, h1, h2, h3⟩ := C109_regression d c t h ls hls cfg hc n lr
  obtain ⟨base, hbase⟩ := List.exists_mem_of_ne_nil _ h.rows_ne
  have hbl := h.row_len base hbase
  refine ⟨m, fun j => (p base).getD j 0, fun i x j => (p (base.set i x)).getD j 0 - (p base).getD j 0, h1, ?_⟩
  intro row hrow
  obtain ⟨h4, h5⟩ := h2 row hrow.ge
  rw [h4]
  congr 2
  rw [eq_range_getD h5 0]
  apply List.map_congr_left
  intro j _
  exact additive_of_effect (fun s r a b e => h3 j s r a (by omega) e) base row hbl hrow .nan

/-! ## cases that meet the hypotheses -/

-- the four builders on `d4`
example (k : LeafOutputType) := C109_tree (F := E) (G := ℚ) d4 2 1 d4_wf (exCfg 1) rfl k

-- three trees with one question each on `d4`: two features act separately
example : ∃ m, ∃ p : List E → List ℚ, regressionTrain d4 (exCfg 1) 3 (.fin (1 / 2)) = .ok m ∧
    (∀ row : List E, 2 ≤ row.length → regressionPredict m row = .ok (liftV (p row)) ∧ (p row).length = 1) ∧
    ∀ j, NoJointEffect 2 1 (fun row => (p row).getD j 0) :=
  C109_regression d4 2 1 d4_wf [[0], [1], [4], [6]] (by decide +kernel) (exCfg 1) rfl 3 (1 / 2)

example : ∃ m, ∃ (a : Nat → ℚ) (φ : Nat → E → Nat → ℚ), regressionTrain d4 (exCfg 1) 3 (.fin (1 / 2)) = .ok m ∧
    ∀ row : List E, row.length = 2 →
      regressionPredict m row = .ok (liftV ((List.range 1).map (fun j => a j + ((List.range 2).map (fun i => φ i (row.getD i .nan) j)).sum))) :=
  C109_additive d4 2 1 d4_wf [[0], [1], [4], [6]] (by decide +kernel) (exCfg 1) rfl (by decide) 3 (1 / 2)

-- two changes of different features
example : DifferentFeatures [(0, (2 : E)), (1, 7)] ∧ 1 < [(0, (2 : E)), (1, 7)].length := by
  unfold DifferentFeatures
  decide

/-- **C109** (limit).  The bound cannot be lowered: with `max_levels = 2` two features have a joint effect.  On `d4` it is
`31/8 - 15/8 - 11/8 + 11/8 = 2` after one iteration. -/
theorem C109_violated_with_more_levels :
    ∃ p : List E → List ℚ, ∃ m, regressionTrain d4 { exCfg 1 with maxLevels := 2 } 1 (.fin (1 / 2)) = .ok m ∧
      (∀ row : List E, 2 ≤ row.length → regressionPredict m row = .ok (liftV (p row))) ∧ ¬ NoJointEffect 2 1 (fun row => (p row).getD 0 0) := by
  obtain ⟨m, p, h1, h2, _⟩ := C109_regression d4 2 1 d4_wf [[0], [1], [4], [6]] (by decide +kernel) { exCfg 1 with maxLevels := 2 } rfl 1 (1 / 2)
  refine ⟨p, m, h1, fun row hr => (h2 row hr).1, fun h => ?_⟩
  have key : (do
      let m ← regressionTrain d4 { exCfg 1 with maxLevels := 2 } 1 (Ext.fin (1 / 2) : E)
      [[0, 5], [2, 5], [0, 7], [(2 : E), 7]].mapM (fun r => regressionPredict m r)) =
      (.ok [[.fin (11 / 8)], [.fin (15 / 8)], [.fin (11 / 8)], [.fin (31 / 8)]] : R (List (List E))) := by decide +kernel
  rw [h1] at key
  simp only [bind, Except.bind, List.mapM_cons, List.mapM_nil, (h2 [0, 5] (by decide)).1, (h2 [2, 5] (by decide)).1, (h2 [0, 7] (by decide)).1,
    (h2 [2, 7] (by decide)).1, pure, Except.pure, Except.ok.injEq, List.cons.injEq, and_true] at key
  obtain ⟨a, b, c, d⟩ := key
  have h3 := h [(0, 2), (1, 7)] [0, 5] (by unfold DifferentFeatures; decide) (by decide) (by decide)
  simp only [jointEffect, List.set_cons_zero, List.set_cons_succ] at h3
  have val : ∀ (l : List ℚ) (q : ℚ), liftV l = [Ext.fin q] → l.getD 0 0 = q := by
    intro l q hl
    match l, hl with
    | [x], hl =>
      simp only [liftV, List.map_cons, List.map_nil, List.cons.injEq, Ext.fin.injEq, and_true] at hl
      exact hl
  rw [val _ _ a, val _ _ b, val _ _ c, val _ _ d] at h3
  norm_num at h3

-- `[2, 5]` lies between `[1, 5]` and `[2, 7]`, and these two rows of `d4` end in the same leaf of both trees
example : Between (F := E) [1, 5] [2, 7] [2, 5] := by
  intro j a b v ha hb hv
  match j with
  | 0 => simp at ha hb hv; subst ha hb hv; decide +kernel
  | 1 => simp at ha hb hv; subst ha hb hv; decide +kernel
  | j + 2 => simp at ha

example : (regressionTrain d4 (exCfg 1) 1 (Ext.fin (1 / 2) : E)).toOption.map
    (fun m => m.trees.map (fun tree : TreeNode E (GradBoostLeaf E) => (tree.route [1, 5] == tree.route [2, 7], tree.route [1, 5] == tree.route [0, 5]))) =
    some [(true, false)] := by decide +kernel

-- the classification ensembles on `d5`
example := C109_classification (K := ℚ) d5 2 3 d5_wf (by decide) (by decide) (by decide +kernel) (exCfg 3) rfl 2 (1 / 2)

end Verif
