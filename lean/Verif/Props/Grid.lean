import Mathlib.Data.Set.Card
import Mathlib.Algebra.BigOperators.Group.Finset.Basic
import Verif.Spec.Grid
import Verif.Props.Place
import Verif.Props.Size
/-!
# C114: every prediction of a model is its prediction for a row composed of training values

A model is a function on all rows, but it takes each of its finitely many values on the grid spanned by the training values.
-/

set_option linter.unusedSectionVars false

namespace Verif

variable {F : Type} [F64 F] {L : Type}

open Sample

/-! ## counting -/

theorem encard_lists {α : Type} (sets : List (Set α)) : {l | List.Forall₂ (· ∈ ·) l sets}.encard ≤ (sets.map Set.encard).prod := by
  induction sets with
  | nil =>
    have : {l : List α | List.Forall₂ (· ∈ ·) l ([] : List (Set α))} ⊆ {[]} := by
      intro l hl
      cases hl
      rfl
    exact (Set.encard_le_encard this).trans (by simp)
  | cons s sets ih =>
    have : {l : List α | List.Forall₂ (· ∈ ·) l (s :: sets)} ⊆
        (fun p : α × List α => p.1 :: p.2) '' (s ×ˢ {l | List.Forall₂ (· ∈ ·) l sets}) := by
      intro l hl
      cases hl with
      | cons h1 h2 => exact ⟨(_, _), ⟨h1, h2⟩, rfl⟩
    refine (Set.encard_le_encard this).trans ((Set.encard_image_le _ _).trans ?_)
    rw [Set.encard_prod, List.map_cons, List.prod_cons]
    exact mul_le_mul_right ih _

/-- a quantity that is determined by another one takes no more values -/
theorem encard_determined {α β γ : Type} {P : α → Prop} {f : α → β} {g : α → γ}
    (h : ∀ a b, P a → P b → g a = g b → f a = f b) : {y | ∃ a, P a ∧ f a = y}.encard ≤ {z | ∃ a, P a ∧ g a = z}.encard := by
  classical
  by_cases hne : ∃ a, P a
  · obtain ⟨a0, _⟩ := hne
    refine (Set.encard_le_encard (t := (fun z => if hz : ∃ a, P a ∧ g a = z then f hz.choose else f a0) '' {z | ∃ a, P a ∧ g a = z}) ?_).trans
      (Set.encard_image_le _ _)
    rintro _ ⟨a, ha, rfl⟩
    have hz : ∃ b, P b ∧ g b = g a := ⟨a, ha, rfl⟩
    refine ⟨g a, hz, ?_⟩
    simp only [hz, ↓reduceDIte]
    exact h _ _ hz.choose_spec.1 ha hz.choose_spec.2
  · have : {y | ∃ a, P a ∧ f a = y} = (∅ : Set β) := by
      ext y
      simp only [Set.mem_ofPred_eq, Set.mem_empty_iff_false, iff_false]
      rintro ⟨a, ha, _⟩
      exact hne ⟨a, ha⟩
    rw [this]
    simp

theorem prod_le_pow {l : List ℕ∞} {b : ℕ∞} (h : ∀ x ∈ l, x ≤ b) : l.prod ≤ b ^ l.length := by
  induction l with
  | nil => simp
  | cons x l ih =>
    rw [List.prod_cons, List.length_cons, pow_succ']
    exact mul_le_mul' (h x List.mem_cons_self) (ih (fun y hy => h y (List.mem_cons_of_mem _ hy)))

theorem encard_grid (rows : List (List F)) (c : Nat) :
    {row | OnGrid rows c row}.encard ≤ ∏ j ∈ Finset.range c, {v | TrainingValue rows j v}.encard := by
  have hsub : {row | OnGrid rows c row} ⊆
      {l | List.Forall₂ (· ∈ ·) l ((List.range c).map (fun j => {v | TrainingValue rows j v}))} := by
    rintro row ⟨hl, hv⟩
    rw [Set.mem_ofPred_eq, List.forall₂_iff_get]
    refine ⟨by simp [hl], fun j h1 h2 => ?_⟩
    obtain ⟨v, h3, h4⟩ := hv j (by omega)
    rw [List.getElem?_eq_getElem h1] at h3
    simpa [Option.some.inj h3] using h4
  refine (Set.encard_le_encard hsub).trans ((encard_lists _).trans ?_)
  rw [List.map_map]
  apply le_of_eq
  clear hsub
  induction c with
  | zero => rfl
  | succ c ih => rw [List.range_succ, List.map_append, List.prod_append, ih, Finset.prod_range_succ]; simp

/-! ## the grid row for a row -/

section
variable [LawfulOrder F]

theorem exists_greatest {l : List F} (hl : ∀ v ∈ l, NN v) {p : F → Bool} (h : ∃ v ∈ l, p v = true) :
    ∃ v ∈ l, p v = true ∧ ∀ w ∈ l, p w = true → (w <=. v) = true := by
  induction l with
  | nil => obtain ⟨v, hv, _⟩ := h; cases hv
  | cons a l ih =>
    have ha : NN a := hl a List.mem_cons_self
    have haa : (a <=. a) = true := (LawfulOrder.eq_iff.mp ha).1
    by_cases hr : ∃ v ∈ l, p v = true
    · obtain ⟨v, hv, hpv, hmax⟩ := ih (fun w hw => hl w (List.mem_cons_of_mem _ hw)) hr
      by_cases hpa : p a = true ∧ (v <=. a) = true
      · refine ⟨a, List.mem_cons_self, hpa.1, fun w hw hpw => ?_⟩
        rcases List.mem_cons.mp hw with rfl | hw
        · exact haa
        · exact LawfulOrder.le_trans (hmax w hw hpw) hpa.2
      · refine ⟨v, List.mem_cons_of_mem _ hv, hpv, fun w hw hpw => ?_⟩
        rcases List.mem_cons.mp hw with rfl | hw
        · exact (LawfulOrder.le_total ha (hl v (List.mem_cons_of_mem _ hv))).resolve_right (fun h' => hpa ⟨hpw, h'⟩)
        · exact hmax w hw hpw
    · obtain ⟨v, hv, hpv⟩ := h
      rcases List.mem_cons.mp hv with rfl | hv
      · refine ⟨v, List.mem_cons_self, hpv, fun w hw hpw => ?_⟩
        rcases List.mem_cons.mp hw with rfl | hw
        · exact haa
        · exact absurd ⟨w, hw, hpw⟩ hr
      · exact absurd ⟨v, hv, hpv⟩ hr

theorem exists_least {l : List F} (hl : ∀ v ∈ l, NN v) (h : l ≠ []) : ∃ v ∈ l, ∀ w ∈ l, (v <=. w) = true := by
  induction l with
  | nil => exact absurd rfl h
  | cons a l ih =>
    have ha : NN a := hl a List.mem_cons_self
    have haa : (a <=. a) = true := (LawfulOrder.eq_iff.mp ha).1
    by_cases hn : l = []
    · subst hn
      exact ⟨a, List.mem_cons_self, fun w hw => by rw [List.mem_singleton.mp hw]; exact haa⟩
    · obtain ⟨v, hv, hmin⟩ := ih (fun w hw => hl w (List.mem_cons_of_mem _ hw)) hn
      rcases LawfulOrder.le_total ha (hl v (List.mem_cons_of_mem _ hv)) with h1 | h1
      · refine ⟨a, List.mem_cons_self, fun w hw => ?_⟩
        rcases List.mem_cons.mp hw with rfl | hw
        · exact haa
        · exact LawfulOrder.le_trans h1 (hmin w hw)
      · refine ⟨v, List.mem_cons_of_mem _ hv, fun w hw => ?_⟩
        rcases List.mem_cons.mp hw with rfl | hw
        · exact h1
        · exact hmin w hw

/-- the training value that stands for `x`: the largest one that is at most `x`, or else the smallest one -/
theorem exists_snap {d : DataSet F} {c t : Nat} (hw : d.WF c t) {j : Nat} (hj : j < c) (x : F) :
    ∃ y, TrainingValue d.featureRows j y ∧ ∀ v, InnerValue d.featureRows j v → (v <=. x) = (v <=. y) := by
  let l := d.featureRows.filterMap (fun r => r[j]?)
  have hmem : ∀ v, v ∈ l ↔ TrainingValue d.featureRows j v := fun v => by simp [l, TrainingValue, List.mem_filterMap]
  have hnn : ∀ v ∈ l, NN v := by
    intro v hv
    obtain ⟨r, hr, hrv⟩ := (hmem v).mp hv
    exact nn_of_isNaN_false (hw.no_nan r hr v (List.mem_of_getElem? hrv))
  by_cases h : ∃ v ∈ l, (v <=. x) = true
  · obtain ⟨y, hy, hyx, hmax⟩ := exists_greatest hnn h
    refine ⟨y, (hmem y).mp hy, fun v hv => ?_⟩
    rw [Bool.eq_iff_iff]
    exact ⟨fun h1 => hmax v ((hmem v).mpr hv.1) h1, fun h1 => LawfulOrder.le_trans h1 hyx⟩
  · have hne : l ≠ [] := by
      obtain ⟨r, hr⟩ := List.exists_mem_of_ne_nil _ hw.rows_ne
      have hlt : j < r.length := by rw [hw.row_len r hr]; exact hj
      exact List.ne_nil_of_mem ((hmem r[j]).mpr ⟨r, hr, List.getElem?_eq_getElem hlt⟩)
    obtain ⟨y, hy, hmin⟩ := exists_least hnn hne
    refine ⟨y, (hmem y).mp hy, fun v hv => ?_⟩
    obtain ⟨r, hr, u, hu, huv⟩ := hv.2
    have h1 : (v <=. x) = false := by
      by_contra hc
      exact h ⟨v, (hmem v).mpr hv.1, by simpa using hc⟩
    have h2 := hmin u ((hmem u).mpr ⟨r, hr, hu⟩)
    have h3 : (v <=. y) = false := by
      by_contra hc
      rw [Bool.not_eq_false] at hc
      have := LawfulOrder.le_trans hc h2
      rw [(LawfulOrder.lt_iff.mp huv).2] at this
      cases this
    rw [h1, h3]

/-- **C114** (grid).  For every row there is a row composed of training values in the same place among the training rows. -/
theorem C114_grid (d : DataSet F) (c t : Nat) (hw : d.WF c t) (row : List F) :
    ∃ row', OnGrid d.featureRows c row' ∧ SamePlace d.featureRows row row' := by
  have : Nonempty F := ⟨F64.zero⟩
  choose! f hf using fun (j : Nat) (hj : j < c) => exists_snap hw hj (row.getD j F64.zero)
  refine ⟨(List.range c).map f, ⟨by simp, fun j hj => ⟨f j, by simp [hj], (hf j hj).1⟩⟩, ?_⟩
  intro j v x y hv hx hy
  have hj : j < c := by
    by_contra hc
    rw [List.getElem?_eq_none (by simpa using hc)] at hy
    cases hy
  have h1 := (hf j hj).2 v hv
  simp only [List.getD, hx, Option.getD_some] at h1
  rw [h1]
  simp only [List.getElem?_map, List.getElem?_range hj, Option.map_some, Option.some.injEq] at hy
  rw [hy]

/-- **C114** (trees).  Every row ends in the leaf in which some row composed of training values ends. -/
theorem C114_tree (d : DataSet F) (c t : Nat) (hw : d.WF c t) (cfg : TreeConfig) (hc : cfg.numberOfClasses = t) (k : LeafOutputType)
    (row : List F) (hrow : c ≤ row.length) :
    ∃ row', OnGrid d.featureRows c row' ∧
      (∀ tree, regressionTreeNew d cfg = .ok tree → findLeafNodeForData row tree = findLeafNodeForData row' tree) ∧
      (∀ tree, gradBoostTreeNew d cfg k = .ok tree → findLeafNodeForData row tree = findLeafNodeForData row' tree) ∧
      (∀ tree, amgTreeNew d cfg k = .ok tree → findLeafNodeForData row tree = findLeafNodeForData row' tree) := by
  obtain ⟨row', h1, h2⟩ := C114_grid d c t hw row
  have h := C58_tree d c t hw cfg hc k row row' hrow (_root_.le_of_eq h1.1.symm) h2
  exact ⟨row', h1, fun tree ht => (h.1 tree ht).2, fun tree ht => (h.2.1 tree ht).2, fun tree ht => (h.2.2 tree ht).2⟩

/-- **C114** (tree on sorted features). -/
theorem C114_sorted_tree (d : DataSet F) (c t : Nat) (hw : d.WF c t) (ht : t < 2 ^ 32) (cfg : TreeConfig) (s : SortedDataSet F)
    (hs : createDatasetWithSortedFeatures d = .ok s) (tree : TreeNode F (RegressionLeafNewPartition F))
    (htree : regressionTreeNewPartitionNew s cfg = .ok tree) (row : List F) (hrow : c ≤ row.length) :
    ∃ row', OnGrid d.featureRows c row' ∧ findLeafNodeForData row tree = findLeafNodeForData row' tree := by
  obtain ⟨row', h1, h2⟩ := C114_grid d c t hw row
  exact ⟨row', h1, (C58_sorted_tree d c t hw ht cfg s hs tree htree row row' hrow (_root_.le_of_eq h1.1.symm) h2).2⟩

/-- **C114** (ensembles).  Whatever the row, there is a row composed of training values for which all three ensembles predict the same,
bit for bit, however many iterations they were trained for. -/
theorem C114_ensembles (d : DataSet F) (c t : Nat) (hw : d.WF c t) (cfg : TreeConfig) (hc : cfg.numberOfClasses = t) (row : List F)
    (hrow : c ≤ row.length) :
    ∃ row', OnGrid d.featureRows c row' ∧ ∀ (n : Nat) (lr : F),
      (∀ m, regressionTrain d cfg n lr = .ok m → regressionPredict m row = regressionPredict m row') ∧
      (∀ m, multiClassTrain d cfg n lr = .ok m → multiClassPredict m row = multiClassPredict m row') ∧
      (∀ m, amgTrain d cfg n lr = .ok m → amgPredict m row = amgPredict m row') := by
  obtain ⟨row', h1, h2⟩ := C114_grid d c t hw row
  exact ⟨row', h1, fun n lr => C58_ensembles d c t hw cfg hc n lr row row' hrow (_root_.le_of_eq h1.1.symm) h2⟩

theorem grid_single {d : DataSet F} {t : Nat} (hw : d.WF 1 t) {row : List F} (h : OnGrid d.featureRows 1 row) : row ∈ d.featureRows := by
  obtain ⟨hl, hv⟩ := h
  obtain ⟨v, h1, r, hr, h2⟩ := hv 0 (by omega)
  match row, hl with
  | [x], _ =>
    have hrl := hw.row_len r hr
    match r, hrl with
    | [y], _ =>
      simp only [List.getElem?_cons_zero, Option.some.injEq] at h1 h2
      rw [h1, ← h2]
      exact hr

/-- **C114** (one feature).  With a single feature an ensemble never predicts anything that it does not predict for a training row. -/
theorem C114_one_feature (d : DataSet F) (t : Nat) (hw : d.WF 1 t) (cfg : TreeConfig) (hc : cfg.numberOfClasses = t) (row : List F)
    (hrow : 1 ≤ row.length) :
    ∃ row' ∈ d.featureRows, ∀ (n : Nat) (lr : F),
      (∀ m, regressionTrain d cfg n lr = .ok m → regressionPredict m row = regressionPredict m row') ∧
      (∀ m, multiClassTrain d cfg n lr = .ok m → multiClassPredict m row = multiClassPredict m row') ∧
      (∀ m, amgTrain d cfg n lr = .ok m → amgPredict m row = amgPredict m row') := by
  obtain ⟨row', h1, h2⟩ := C114_ensembles d 1 t hw cfg hc row hrow
  exact ⟨row', grid_single hw h1, h2⟩

theorem grid_count {α : Type} {rows : List (List F)} {c : Nat} {f : List F → α}
    (h : ∀ row, c ≤ row.length → ∃ row', OnGrid rows c row' ∧ f row = f row') :
    {p | ∃ row, c ≤ row.length ∧ f row = p}.encard ≤ ∏ j ∈ Finset.range c, {v | TrainingValue rows j v}.encard := by
  refine (Set.encard_le_encard (t := f '' {row | OnGrid rows c row}) ?_).trans ((Set.encard_image_le _ _).trans (encard_grid rows c))
  rintro _ ⟨row, hrow, rfl⟩
  obtain ⟨row', h1, h2⟩ := h row hrow
  exact ⟨row', h1, h2.symm⟩

/-- **C114** (number of predictions).  An ensemble gives at most as many different predictions, over all rows, as there are ways to compose
a row of training values: the product over the features of the number of different values. -/
theorem C114_grid_count (d : DataSet F) (c t : Nat) (hw : d.WF c t) (cfg : TreeConfig) (hc : cfg.numberOfClasses = t) (n : Nat) (lr : F) :
    (∀ m, regressionTrain d cfg n lr = .ok m → {p | ∃ row, c ≤ row.length ∧ regressionPredict m row = p}.encard ≤
      ∏ j ∈ Finset.range c, {v | TrainingValue d.featureRows j v}.encard) ∧
    (∀ m, multiClassTrain d cfg n lr = .ok m → {p | ∃ row, c ≤ row.length ∧ multiClassPredict m row = p}.encard ≤
      ∏ j ∈ Finset.range c, {v | TrainingValue d.featureRows j v}.encard) ∧
    (∀ m, amgTrain d cfg n lr = .ok m → {p | ∃ row, c ≤ row.length ∧ amgPredict m row = p}.encard ≤
      ∏ j ∈ Finset.range c, {v | TrainingValue d.featureRows j v}.encard) := by
  refine ⟨fun m hm => grid_count fun row hrow => ?_, fun m hm => grid_count fun row hrow => ?_, fun m hm => grid_count fun row hrow => ?_⟩
  all_goals
    obtain ⟨row', h1, h2⟩ := C114_ensembles d c t hw cfg hc row hrow
    have := h2 n lr
  · exact ⟨row', h1, this.1 m hm⟩
  · exact ⟨row', h1, this.2.1 m hm⟩
  · exact ⟨row', h1, this.2.2 m hm⟩

/-! ## the bound by the leaves -/

theorem find_mem_leaves {tree : TreeNode F L} (hp : tree.Proper) {c : Nat} (hq : ∀ p q, tree.questionAt p = some q → q.column < c)
    {row : List F} (hrow : c ≤ row.length) : ∃ l ∈ tree.leaves, findLeafNodeForData row tree = .ok l := by
  induction hp with
  | leaf q l => exact ⟨l, by simp [TreeNode.leaves], rfl⟩
  | node q a b _ _ iha ihb =>
    obtain ⟨la, ha1, ha2⟩ := iha (fun p q h => hq (true :: p) q h)
    obtain ⟨lb, hb1, hb2⟩ := ihb (fun p q h => hq (false :: p) q h)
    have hlt : q.column < row.length := by have := hq [] q rfl; omega
    simp only [findLeafNodeForData, Question.solve, idx_lt hlt, R.ok_bind, Option.isNone_some, Bool.and_self, Bool.not_false, if_true,
      TreeNode.leaves]
    cases hs : (q.value <=. row[q.column]) with
    | true => exact ⟨la, List.mem_append_left _ ha1, by simp [ha2, R.ok_bind, pure, Except.pure]⟩
    | false => exact ⟨lb, List.mem_append_right _ hb1, by simp [hb2, R.ok_bind, pure, Except.pure]⟩

theorem trees_count {d : DataSet F} {c t m : Nat} {leafOf : DataSet F → L} {trees : List (TreeNode F L)}
    (ht : ∀ tree ∈ trees, ∃ r, ({ d with labels := r } : DataSet F).WF c t ∧ tree = treeOf leafOf c t m { d with labels := r })
    {α : Type} {f : List F → α} (hf : ∀ row row', (∀ tree ∈ trees, findLeafNodeForData row tree = findLeafNodeForData row' tree) → f row = f row') :
    {p | ∃ row, c ≤ row.length ∧ f row = p}.encard ≤ ((min d.featureRows.length (2 ^ m) : Nat) : ℕ∞) ^ trees.length := by
  classical
  refine (encard_determined (P := fun row : List F => c ≤ row.length) (g := fun row => trees.map (findLeafNodeForData row))
    (fun row row' _ _ h => hf row row' (List.map_inj_left.mp h))).trans ?_
  refine (Set.encard_le_encard (t := {l | List.Forall₂ (· ∈ ·) l
    (trees.map (fun tree => {x | ∃ l ∈ tree.leaves, x = (Except.ok l : R L)}))}) ?_).trans ((encard_lists _).trans ?_)
  · rintro _ ⟨row, hrow, rfl⟩
    rw [Set.mem_ofPred_eq, List.forall₂_map_left_iff, List.forall₂_map_right_iff, List.forall₂_same]
    intro tree htree
    obtain ⟨r, hr, rfl⟩ := ht tree htree
    obtain ⟨l, hl, he⟩ := find_mem_leaves (treeOf_proper _ _) (fun p q hq => (grown_questions (treeOf_greedy _ _ hr) hq).1) hrow
    exact ⟨l, hl, he⟩
  · refine (prod_le_pow (b := ((min d.featureRows.length (2 ^ m) : Nat) : ℕ∞)) ?_).trans (by simp)
    intro x hx
    rw [List.map_map] at hx
    obtain ⟨tree, htree, rfl⟩ := List.mem_map.mp hx
    obtain ⟨r, hr, he⟩ := ht tree htree
    have hs : SizeBounds d.featureRows.length m tree := he ▸ treeOf_size m hr
    have hset : {x | ∃ l ∈ tree.leaves, x = (Except.ok l : R L)} ⊆ (Except.ok : L → R L) '' (tree.leaves.toFinset : Set L) := by
      rintro _ ⟨l, hl, rfl⟩
      exact ⟨l, by simpa using hl, rfl⟩
    refine (Set.encard_le_encard hset).trans ((Set.encard_image_le _ _).trans ?_)
    rw [Set.encard_coe_eq_coe_finsetCard]
    have h1 := tree.leaves.toFinset_card_le
    have h2 := hs.leaves_le
    have h3 := hs.leaves_le_pow
    exact_mod_cast (by omega : tree.leaves.toFinset.card ≤ min d.featureRows.length (2 ^ m))

/-- **C114** (number of predictions, by the size of the trees).  After `n` iterations an ensemble gives at most `b ^ n` different
predictions, where `b` is the number of training rows or `2 ^ max_levels`, whichever is smaller. -/
theorem C114_leaf_count [LawfulCount F] (d : DataSet F) (c t : Nat) (hw : d.WF c t) (cfg : TreeConfig) (hc : cfg.numberOfClasses = t) (n : Nat)
    (lr : F) :
    (∀ m, regressionTrain d cfg n lr = .ok m → {p | ∃ row, c ≤ row.length ∧ regressionPredict m row = p}.encard ≤
      ((min d.featureRows.length (2 ^ cfg.maxLevels) : Nat) : ℕ∞) ^ n) ∧
    (∀ m, multiClassTrain d cfg n lr = .ok m → {p | ∃ row, c ≤ row.length ∧ multiClassPredict m row = p}.encard ≤
      ((min d.featureRows.length (2 ^ cfg.maxLevels) : Nat) : ℕ∞) ^ n) ∧
    (∀ m, amgTrain d cfg n lr = .ok m → {p | ∃ row, c ≤ row.length ∧ amgPredict m row = p}.encard ≤
      ((min d.featureRows.length (2 ^ cfg.maxLevels) : Nat) : ℕ∞) ^ n) := by
  refine ⟨fun m h => ?_, fun m h => ?_, fun m h => ?_⟩
  · have hl := (C31_regression d cfg n lr m h).1
    rw [← hl]
    refine trees_count (regression_trees_of hw hc h) (fun row row' hr => ?_)
    simp only [regressionPredict, predictInstance_eq]
    exact rawScore_congr (fun tree ht => by simp only [gradOut, hr tree ht])
  · have hl := (C31_multiClass d cfg n lr m h).1
    rw [← hl]
    refine trees_count (multiClass_trees_of hw hc h) (fun row row' hr => ?_)
    simp only [multiClassPredict, predictInstance_eq]
    rw [rawScore_congr (row' := row') (fun tree ht => by simp only [gradOut, hr tree ht])]
  · have hl := (C31_amg d cfg n lr m h).1
    rw [← hl]
    refine trees_count (amg_trees_of hw hc h) (fun row row' hr => ?_)
    simp only [amgPredict, amgPredictInstance_eq]
    rw [rawScore_congr (row' := row') (fun tree ht => by simp only [amgOut, hr tree ht])]

end

/-! ## examples -/

/-- the row that stands for a row between and beyond the training values: `1` is the largest training value up to `3/2`, `7` the largest up to `100` -/
example : OnGrid d4.featureRows 2 ([1, 7] : List E) := by
  refine ⟨rfl, fun j hj => ?_⟩
  match j, hj with
  | 0, _ => exact ⟨1, rfl, [1, 7], by decide +kernel, rfl⟩
  | 1, _ => exact ⟨7, rfl, [1, 7], by decide +kernel, rfl⟩

/-- a row of the grid that is no training row -/
example : OnGrid d4.featureRows 2 ([0, 7] : List E) ∧ ([0, 7] : List E) ∉ d4.featureRows := by
  refine ⟨⟨rfl, fun j hj => ?_⟩, by decide +kernel⟩
  match j, hj with
  | 0, _ => exact ⟨0, rfl, [0, 5], by decide +kernel, rfl⟩
  | 1, _ => exact ⟨7, rfl, [1, 7], by decide +kernel, rfl⟩

/-- three corners of a square, with the largest label in the corner `[1, 0]` -/
def corner3 : DataSet E :=
  { featureRows := [[0, 0], [0, 1], [1, 0]]
    labels := [[0], [1], [3]]
    featureColumns := [[0, 0, 1], [0, 1, 0]] }

theorem corner3_wf : corner3.WF 2 1 :=
  ⟨by decide +kernel, by decide +kernel, by decide +kernel, by decide +kernel, by decide +kernel, by decide +kernel, by decide +kernel⟩

/-- **C114** (two features).  With two features an ensemble can predict what it predicts for no training row: here for the missing corner
`[1, 1]`, which is on the grid.  So the rows of the grid cannot be replaced by the training rows in `C114_ensembles`. -/
theorem C114_training_rows_violated : corner3.WF 2 1 ∧ OnGrid corner3.featureRows 2 [1, 1] ∧
    ∃ m, regressionTrain corner3 (exCfg 1) 2 1 = .ok m ∧ ∀ row ∈ corner3.featureRows, regressionPredict m [1, 1] ≠ regressionPredict m row := by
  refine ⟨corner3_wf, ⟨rfl, fun j hj => ?_⟩, ?_⟩
  · match j, hj with
    | 0, _ => exact ⟨1, rfl, [1, 0], by decide +kernel, rfl⟩
    | 1, _ => exact ⟨1, rfl, [0, 1], by decide +kernel, rfl⟩
  · obtain ⟨m, hm, _⟩ := C42_regression corner3 2 1 corner3_wf (exCfg 1) rfl 2 1
    refine ⟨m, hm, ?_⟩
    have : (match regressionTrain corner3 (exCfg 1) 2 1 with
      | .ok m => corner3.featureRows.all (fun row => !decide (regressionPredict m [1, 1] = regressionPredict m row))
      | .error _ => false) = true := by decide +kernel
    rw [hm] at this
    simpa using this

/-- one feature, three values -/
def ladder3 : DataSet E :=
  { featureRows := [[0], [1], [2]]
    labels := [[0], [1], [5]]
    featureColumns := [[0, 1, 2]] }

theorem ladder3_wf : ladder3.WF 1 1 :=
  ⟨by decide +kernel, by decide +kernel, by decide +kernel, by decide +kernel, by decide +kernel, by decide +kernel, by decide +kernel⟩

/-- `C114_one_feature` applies to a row far outside of the training range -/
example : ∃ row' ∈ ladder3.featureRows, ∀ n m, regressionTrain ladder3 (exCfg 1) n 1 = .ok m →
    regressionPredict m [1000] = regressionPredict m row' := by
  obtain ⟨row', h1, h2⟩ := C114_one_feature ladder3 1 ladder3_wf (exCfg 1) rfl [1000] (by simp)
  exact ⟨row', h1, fun n m hm => (h2 n 1).1 m hm⟩

/-- the bound by the grid is attained: three different predictions for three values -/
example : ∃ m, regressionTrain ladder3 (exCfg 1) 2 1 = .ok m ∧ (ladder3.featureRows.map (regressionPredict m)).Nodup := by
  obtain ⟨m, hm, _⟩ := C42_regression ladder3 1 1 ladder3_wf (exCfg 1) rfl 2 1
  refine ⟨m, hm, ?_⟩
  have : (match regressionTrain ladder3 (exCfg 1) 2 1 with
    | .ok m => decide ((ladder3.featureRows.map (regressionPredict m)).Nodup)
    | .error _ => false) = true := by decide +kernel
  rw [hm] at this
  simpa using this

end Verif
