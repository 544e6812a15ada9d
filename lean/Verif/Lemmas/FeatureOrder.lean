import Verif.Spec.FeatureOrder
import Verif.Lemmas.Greedy
import Verif.Lemmas.Relabel
import Verif.Lemmas.Twin
/-! # The order of the features -/

set_option linter.unusedSectionVars false

namespace Verif

variable {F : Type} [F64 F] {L : Type}

theorem Reorders.surj {c : Nat} {σ : Nat → Nat} (h : Reorders c σ) {k : Nat} (hk : k < c) : ∃ j < c, σ j = k := by
  have := (Reorders.perm h).mem_iff (a := k)
  simp only [List.mem_map, List.mem_range] at this
  exact this.mpr hk

theorem reorderRow_length {c : Nat} {σ : Nat → Nat} {row : List F} : (reorderRow c σ row).length = c := by simp [reorderRow]

theorem reorderRow_getD {c j : Nat} {σ : Nat → Nat} {row : List F} (hj : j < c) : (reorderRow c σ row).getD j F64.zero = row.getD (σ j) F64.zero := by
  simp [reorderRow, hj]

theorem column_reorder {c j : Nat} {σ : Nat → Nat} {rows : List (List F)} (hj : j < c) :
    column (rows.map (reorderRow c σ)) j = column rows (σ j) := by
  simp only [column, List.map_map]
  apply List.map_congr_left
  intro row _
  exact reorderRow_getD hj

theorem columnsOf_reorder {c : Nat} {σ : Nat → Nat} {rows : List (List F)} :
    columnsOf (rows.map (reorderRow c σ)) c = (List.range c).map (fun j => column rows (σ j)) := by
  apply List.map_congr_left
  intro j hj
  exact column_reorder (List.mem_range.mp hj)

theorem reorder_columns {d : DataSet F} {c t : Nat} {σ : Nat → Nat} (h : d.WF c t) (hσ : Reorders c σ) :
    (d.reorderFeatures c σ).featureColumns = (List.range c).map (fun j => column d.featureRows (σ j)) := by
  apply List.map_congr_left
  intro j hj
  have := hσ.1 j (List.mem_range.mp hj)
  simp [h.cols, columnsOf, this]

theorem reorder_wf {d : DataSet F} {c t : Nat} {σ : Nat → Nat} (h : d.WF c t) (hσ : Reorders c σ) : (d.reorderFeatures c σ).WF c t := by
  refine ⟨?_, ?_, ?_, h.label_len, ?_, ?_, h.cols_u32⟩
  · simpa [DataSet.reorderFeatures] using h.rows_ne
  · intro row hr
    obtain ⟨r, _, rfl⟩ := List.mem_map.mp hr
    exact reorderRow_length
  · simpa [DataSet.reorderFeatures] using h.label_count
  · rw [reorder_columns h hσ]
    exact columnsOf_reorder.symm
  · intro row hr x hx
    obtain ⟨r, hr', rfl⟩ := List.mem_map.mp hr
    obtain ⟨j, hj, rfl⟩ := List.mem_map.mp hx
    have h1 := hσ.1 j (List.mem_range.mp hj)
    have h2 := h.row_len r hr'
    apply h.no_nan r hr'
    rw [List.getD_eq_getElem?_getD, List.getElem?_eq_getElem (by omega), Option.getD_some]
    exact List.getElem_mem _

theorem onlyFeature_wf {d : DataSet F} {c t j : Nat} (h : d.WF c t) (hj : j < c) : (d.onlyFeature j).WF 1 t := by
  refine ⟨?_, ?_, ?_, h.label_len, ?_, ?_, by norm_num⟩
  · simpa [DataSet.onlyFeature] using h.rows_ne
  · intro row hr
    obtain ⟨r, _, rfl⟩ := List.mem_map.mp hr
    rfl
  · simpa [DataSet.onlyFeature] using h.label_count
  · simp [DataSet.onlyFeature, h.cols, columnsOf, hj, column]
  · intro row hr x hx
    obtain ⟨r, hr', rfl⟩ := List.mem_map.mp hr
    simp only [List.mem_singleton] at hx
    subst hx
    have h2 := h.row_len r hr'
    apply h.no_nan r hr'
    rw [List.getD_eq_getElem?_getD, List.getElem?_eq_getElem (by omega), Option.getD_some]
    exact List.getElem_mem _

theorem satisfies_reorder {q : Question F} {c : Nat} {σ : Nat → Nat} (hσ : Reorders c σ) (hq : q.column < c) {row : List F} (hr : c ≤ row.length) :
    satisfies (q.inOldOrder σ) row = satisfies q (reorderRow c σ row) := by
  have := hσ.1 _ hq
  simp only [satisfies, Question.inOldOrder, reorderRow, List.getElem?_map, List.getElem?_range hq, Option.map_some]
  rw [List.getElem?_eq_getElem (by omega), List.getD_eq_getElem?_getD, List.getElem?_eq_getElem (by omega)]
  rfl

theorem restrict_reorder {d : DataSet F} {c t : Nat} {σ : Nat → Nat} (h : d.WF c t) (hσ : Reorders c σ) {p q : List F → Bool}
    (hpq : ∀ row, c ≤ row.length → q row = p (reorderRow c σ row)) :
    (d.restrict c q).reorderFeatures c σ = (d.reorderFeatures c σ).restrict c p := by
  have hex : (d.reorderFeatures c σ).examples = d.examples.map (fun e => (reorderRow c σ e.1, e.2)) := by
    simp only [DataSet.examples, DataSet.reorderFeatures, List.zip_map_left]; rfl
  have hf : (d.reorderFeatures c σ).examples.filter (fun e => p e.1) = (d.examples.filter (fun e => q e.1)).map (fun e => (reorderRow c σ e.1, e.2)) := by
    rw [hex, List.filter_map]
    congr 1
    apply List.filter_congr
    intro e he
    exact (hpq _ (h.row_len _ (examples_fst_mem he)).ge).symm
  have hr : ((d.examples.filter (fun e => q e.1)).map (fun e => (reorderRow c σ e.1, e.2))).map Prod.fst =
      ((d.examples.filter (fun e => q e.1)).map Prod.fst).map (reorderRow c σ) := by simp [Function.comp_def]
  have hc : ∀ rows : List (List F), (List.range c).map (fun j => (columnsOf rows c).getD (σ j) []) = columnsOf (rows.map (reorderRow c σ)) c := by
    intro rows
    rw [columnsOf_reorder]
    apply List.map_congr_left
    intro j hj
    have := hσ.1 j (List.mem_range.mp hj)
    simp [columnsOf, this]
  simp only [DataSet.restrict, hf, hr]
  simp only [DataSet.reorderFeatures, hc]
  simp [Function.comp_def]

section
variable [LawfulOrder F]
open LawfulOrder

theorem splitOf_only {d : DataSet F} {c t j : Nat} (h : d.WF c t) (hj : j < c) :
    (splitOf (d.onlyFeature j) t).gain =
      if F64.zero <. gainOf (totalVariance d.labels t) (colResult d.labels t (column d.featureRows j))
        then gainOf (totalVariance d.labels t) (colResult d.labels t (column d.featureRows j)) else F64.zero := by
  have : (d.onlyFeature j).featureColumns = [column d.featureRows j] := by simp [DataSet.onlyFeature, h.cols, columnsOf, hj]
  rw [splitOf, this]
  simp only [List.map_cons, List.map_nil, bestColumn, List.zipIdx_cons, List.zipIdx_nil, List.foldl_cons, List.foldl_nil, pickColumn]
  show (if F64.zero <. gainOf (totalVariance d.labels t) (colResult d.labels t (column d.featureRows j)) then _ else _ : BestSplitResult F).gain = _
  split <;> rfl

/-- the winner is found in every order -/
theorem splitOf_reorder {d : DataSet F} {c t : Nat} {σ : Nat → Nat} (h : d.WF c t) (hσ : Reorders c σ) :
    (((splitOf d t).gain ==. F64.zero) = true → ((splitOf (d.reorderFeatures c σ) t).gain ==. F64.zero) = true) ∧
    (((splitOf d t).gain ==. F64.zero) = false → ClearWinner d c t (splitOf d t).question.column →
      (splitOf (d.reorderFeatures c σ) t).gain = (splitOf d t).gain ∧ (splitOf (d.reorderFeatures c σ) t).question.column < c ∧
      (splitOf (d.reorderFeatures c σ) t).question.inOldOrder σ = (splitOf d t).question) := by
  have hget : ∀ j r, (d.featureColumns.map (colResult d.labels t))[j]? = some r ↔ j < c ∧ r = colResult d.labels t (column d.featureRows j) := by
    intro j r
    rw [h.cols]
    by_cases hj : j < c
    · simp [columnsOf, hj, eq_comm]
    · simp [columnsOf, hj]
  have hget' : ∀ j r, ((d.reorderFeatures c σ).featureColumns.map (colResult d.labels t))[j]? = some r ↔
      j < c ∧ r = colResult d.labels t (column d.featureRows (σ j)) := by
    intro j r
    rw [reorder_columns h hσ]
    by_cases hj : j < c
    · simp [hj, eq_comm]
    · simp [hj]
  have hl : (d.reorderFeatures c σ).labels = d.labels := rfl
  have hs := bestColumn_spec (totalVariance d.labels t) (d.featureColumns.map (colResult d.labels t))
  have hs' := bestColumn_spec (totalVariance d.labels t) ((d.reorderFeatures c σ).featureColumns.map (colResult d.labels t))
  have e : splitOf d t = bestColumn (totalVariance d.labels t) (d.featureColumns.map (colResult d.labels t)) := rfl
  have e' : splitOf (d.reorderFeatures c σ) t =
    bestColumn (totalVariance d.labels t) ((d.reorderFeatures c σ).featureColumns.map (colResult d.labels t)) := rfl
  rw [← e] at hs
  rw [← e'] at hs'
  constructor
  · intro hg
    rcases hs with ⟨_, h2⟩ | ⟨i, r, _, h1, h2, _⟩
    · rcases hs' with ⟨h1', _⟩ | ⟨i, r, h0, _, h2', _⟩
      · rw [h1']; exact zero_eq
      · obtain ⟨hi, rfl⟩ := (hget' i r).mp h0
        rw [h2 _ (List.mem_of_getElem? ((hget (σ i) _).mpr ⟨hσ.1 i hi, rfl⟩))] at h2'
        cases h2'
    · rw [h1] at hg
      rw [eq_iff] at hg
      rw [lt_iff] at h2
      simp [hg.1] at h2
  · intro hg hclear
    rcases hs with ⟨h1, _⟩ | ⟨i, r, h0, h1, h2, _⟩
    · rw [h1, zero_eq] at hg; cases hg
    · obtain ⟨hi, rfl⟩ := (hget i r).mp h0
      rcases hs' with ⟨_, h2'⟩ | ⟨i', r', h0', h1', h2', h3', _⟩
      · obtain ⟨k, hk, rfl⟩ := hσ.surj hi
        rw [h2' _ (List.mem_of_getElem? ((hget' k _).mpr ⟨hk, rfl⟩))] at h2
        cases h2
      · obtain ⟨hi', rfl⟩ := (hget' i' r').mp h0'
        have hii : σ i' = i := by
          by_contra hne
          have hcol : (splitOf d t).question.column = i := by rw [h1]
          obtain ⟨s, s', k1, k2, k3⟩ := hclear (σ i') (hσ.1 i' hi') (by rw [hcol]; exact hne)
          rw [findBestSplit_ok (onlyFeature_wf h (hσ.1 i' hi'))] at k1
          rw [hcol, findBestSplit_ok (onlyFeature_wf h hi)] at k2
          cases k1
          cases k2
          rw [splitOf_only h (hσ.1 i' hi'), splitOf_only h hi, if_pos h2, if_pos h2'] at k3
          obtain ⟨k, hk, hki⟩ := hσ.surj hi
          have := h3' _ (List.mem_of_getElem? ((hget' k _).mpr ⟨hk, rfl⟩))
          rw [hki, k3] at this
          cases this
        refine ⟨?_, ?_, ?_⟩
        · rw [h1, h1', hii]
        · rw [h1']; exact hi'
        · rw [h1, h1']
          simp [Question.inOldOrder, hii]

theorem NoTiedFeatures.branches {d : DataSet F} {c t : Nat} {q : Question F} {a b : TreeNode F L}
    (h : NoTiedFeatures d c t (TreeNode.new q a b)) :
    NoTiedFeatures (d.restrict c (satisfies q)) c t a ∧ NoTiedFeatures (d.restrict c (fun r => !satisfies q r)) c t b := by
  constructor
  · intro p q' hq dd hw he
    refine h (true :: p) q' hq dd hw ?_
    rw [he, reaching, reaching, restrict_examples, List.filter_filter]
    apply List.filter_congr
    intro e _
    rw [TreeNode.route_new]
    cases hs : satisfies q e.1 <;> simp [List.isPrefixOf]
  · intro p q' hq dd hw he
    refine h (false :: p) q' hq dd hw ?_
    rw [he, reaching, reaching, restrict_examples, List.filter_filter]
    apply List.filter_congr
    intro e _
    rw [TreeNode.route_new]
    cases hs : satisfies q e.1 <;> simp [List.isPrefixOf]

/-- the tree of the reordered data and the original tree -/
def OrderRel {L' : Type} (c : Nat) (σ : Nat → Nat) (g : L → L') (x : TreeNode F L) (y : TreeNode F L') : Prop :=
  (∀ p, x.questionAt p = (y.questionAt p).map (Question.inOldOrder σ)) ∧ (∀ p, y.leafAt p = (x.leafAt p).map g) ∧
    ∀ row, c ≤ row.length → y.route (reorderRow c σ row) = x.route row

theorem treeOf_reorder {L' : Type} {leafOf : DataSet F → L} {leafOf' : DataSet F → L'} {g : L → L'} {c t : Nat} {σ : Nat → Nat}
    (hσ : Reorders c σ) (hleaf : ∀ d : DataSet F, leafOf' (d.reorderFeatures c σ) = g (leafOf d)) (m : Nat) (d : DataSet F) (hw : d.WF c t)
    (h : NoTiedFeatures d c t (treeOf leafOf c t m d)) : OrderRel c σ g (treeOf leafOf c t m d) (treeOf leafOf' c t m (d.reorderFeatures c σ)) := by
  have hl : ∀ (q q' : Question F) (d : DataSet F), OrderRel c σ g (TreeNode.leafNode q (leafOf d)) (TreeNode.leafNode q' (leafOf' (d.reorderFeatures c σ))) := by
    intro q q' d
    refine ⟨fun p => by cases p <;> rfl, fun p => ?_, fun _ _ => rfl⟩
    cases p with
    | nil => exact congrArg some (hleaf d)
    | cons a p => cases a <;> rfl
  refine treeOf_induct (motive := fun m d => NoTiedFeatures d c t (treeOf leafOf c t m d) →
    OrderRel c σ g (treeOf leafOf c t m d) (treeOf leafOf' c t m (d.reorderFeatures c σ))) ?_ ?_ ?_ m d hw h
  · intro d _ _
    exact hl _ _ d
  · intro m d hw hg h
    rw [treeOf_leaf hg, treeOf_leaf ((splitOf_reorder hw hσ).1 hg)]
    exact hl _ _ d
  · intro m d hw hg h1 h2 h
    rw [treeOf_node hg] at h
    obtain ⟨hb1, hb2⟩ := h.branches
    have hclear : ClearWinner d c t (splitOf d t).question.column := h [] _ rfl d hw (reaching_nil _ _).symm
    obtain ⟨k1, k2, k3⟩ := (splitOf_reorder hw hσ).2 hg hclear
    have hg' : ((splitOf (d.reorderFeatures c σ) t).gain ==. F64.zero) = false := by rw [k1]; exact hg
    have hsat : ∀ row, c ≤ row.length → satisfies (splitOf d t).question row =
        satisfies (splitOf (d.reorderFeatures c σ) t).question (reorderRow c σ row) := by
      intro row hr
      rw [← k3]
      exact satisfies_reorder hσ k2 hr
    rw [treeOf_node hg, treeOf_node hg']
    rw [← restrict_reorder hw hσ (p := satisfies (splitOf (d.reorderFeatures c σ) t).question) hsat,
      ← restrict_reorder hw hσ (p := fun r => !satisfies (splitOf (d.reorderFeatures c σ) t).question r)
        (q := fun r => !satisfies (splitOf d t).question r) (fun row hr => by rw [hsat row hr])]
    have r1 := h1 hb1
    have r2 := h2 hb2
    refine ⟨fun p => ?_, fun p => ?_, fun row hr => ?_⟩
    · match p with
      | [] => exact congrArg some k3.symm
      | true :: p => exact r1.1 p
      | false :: p => exact r2.1 p
    · match p with
      | [] => rfl
      | true :: p => exact r1.2.1 p
      | false :: p => exact r2.2.1 p
    · rw [TreeNode.route_new, TreeNode.route_new, ← hsat row hr, r1.2.2 row hr, r2.2.2 row hr]

end

end Verif
