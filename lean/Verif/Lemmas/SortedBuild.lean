import Verif.Lemmas.NewPartition
import Verif.Lemmas.Build
/-! # The builder on sorted columns -/

set_option linter.unusedSectionVars false

namespace Verif

variable {F : Type} [F64 F]

/-- The rows `ids` of a data set. -/
def DataSet.sub (d : DataSet F) (c : Nat) (ids : List Nat) : DataSet F :=
  { featureRows := ids.map (fun i => d.featureRows.getD i [])
    labels := ids.map (fun i => d.labels.getD i [])
    featureColumns := columnsOf (ids.map (fun i => d.featureRows.getD i [])) c }

theorem getD_mem {α : Type} {l : List α} {i : Nat} {a : α} (h : i < l.length) : l.getD i a ∈ l := by
  rw [getD_of_lt h]; exact List.getElem_mem h

theorem sub_wf {d : DataSet F} {c t : Nat} (h : d.WF c t) {ids : List Nat} (hne : ids ≠ [])
    (hb : ∀ i ∈ ids, i < d.featureRows.length) : (d.sub c ids).WF c t := by
  refine ⟨by simpa [DataSet.sub] using hne, ?_, by simp [DataSet.sub], ?_, rfl, ?_, h.cols_u32⟩
  · intro row hrow
    simp only [DataSet.sub, List.mem_map] at hrow
    obtain ⟨i, hi, rfl⟩ := hrow
    exact h.row_len _ (getD_mem (hb i hi))
  · intro l hl
    simp only [DataSet.sub, List.mem_map] at hl
    obtain ⟨i, hi, rfl⟩ := hl
    exact h.label_len _ (getD_mem (by rw [h.label_count]; exact hb i hi))
  · intro row hrow
    simp only [DataSet.sub, List.mem_map] at hrow
    obtain ⟨i, hi, rfl⟩ := hrow
    exact h.no_nan _ (getD_mem (hb i hi))

theorem sub_all {d : DataSet F} {c t : Nat} (h : d.WF c t) : d.sub c (List.range d.featureRows.length) = d := by
  have h1 : (List.range d.featureRows.length).map (fun i => d.featureRows.getD i []) = d.featureRows := by
    apply List.ext_getElem
    · simp
    · intro i h1 h2
      simp only [List.getElem_map, List.getElem_range]
      exact getD_of_lt h2
  have h2 : (List.range d.featureRows.length).map (fun i => d.labels.getD i []) = d.labels := by
    apply List.ext_getElem
    · simp [h.label_count]
    · intro i h1 h2
      simp only [List.getElem_map, List.getElem_range]
      exact getD_of_lt h2
  cases d with
  | mk rows labels cols =>
    simp only [DataSet.sub] at *
    rw [h1, h2, ← h.cols]

theorem satisfies_feature {d : DataSet F} {c t : Nat} (h : d.WF c t) {q : Question F} (hq : q.column < c) {i : Nat}
    (hi : i < d.featureRows.length) :
    satisfies q (d.featureRows.getD i []) = (q.value <=. d.feature i q.column) := by
  have hl : (d.featureRows.getD i []).length = c := h.row_len _ (getD_mem hi)
  simp only [satisfies, DataSet.feature]
  generalize d.featureRows.getD i [] = row at hl
  rw [List.getElem?_eq_getElem (by omega), getD_of_lt (by omega)]

theorem restrict_sub {d : DataSet F} {c : Nat} {ids : List Nat} (p : List F → Bool) :
    (d.sub c ids).restrict c p = d.sub c (ids.filter (fun i => p (d.featureRows.getD i []))) := by
  have hex : (d.sub c ids).examples = ids.map (fun i => (d.featureRows.getD i [], d.labels.getD i [])) := by
    simp only [DataSet.sub, DataSet.examples]
    rw [List.zip_map']
  have : (d.sub c ids).examples.filter (fun e => p e.1) =
      (ids.filter (fun i => p (d.featureRows.getD i []))).map
        (fun i => (d.featureRows.getD i [], d.labels.getD i [])) := by
    rw [hex, List.filter_map]; rfl
  unfold DataSet.restrict
  rw [this]
  simp only [List.map_map, Function.comp_def]
  rfl

theorem idx_map_col {d : DataSet F} {c : Nat} {ids : List Nat} {j : Nat} :
    column (d.sub c ids).featureRows j = ids.map (fun i => d.feature i j) := by
  simp [column, DataSet.sub, DataSet.feature, Function.comp_def]

section
variable [LawfulOrder F]
open LawfulOrder

/-- The row builder's scanned sequence is the sorted column. -/
theorem seqOf_sub {d : DataSet F} {c t : Nat} (h : d.WF c t) {s : SortedDataSet F} {ids : List Nat}
    (hr : s.Represents d c ids) {j : Nat} {col : List (F × Nat)} (hcol : s.sortedFeatureColumns[j]? = some col) :
    seqOf (d.sub c ids).labels (column (d.sub c ids).featureRows j) =
      col.map (fun p => (p.1, d.labels.getD p.2 [])) := by
  have hj : j < c := by rw [← hr.width]; exact (List.getElem?_eq_some_iff.mp hcol).1
  have hwf : ∀ p ∈ (column (d.sub c ids).featureRows j).zipIdx, NN p.1 := by
    intro p hp
    have hm := List.fst_mem_of_mem_zipIdx hp
    by_cases hne : ids = []
    · simp [hne, DataSet.sub, column] at hm
    · exact nn_of_isNaN_false ((sub_wf h hne hr.ids_bound).col_nan hj _ hm)
  set v := (column (d.sub c ids).featureRows j).zipIdx with hv
  let φ : F × Nat → F × Nat := fun p => (p.1, ids.getD p.2 0)
  have hlen : (column (d.sub c ids).featureRows j).length = ids.length := by simp [idx_map_col]
  have hlt : ∀ p ∈ sorted v, p.2 < ids.length := by
    intro p hp
    have := List.snd_lt_of_mem_zipIdx ((sorted_perm v).mem_iff.mp hp)
    simpa [hlen] using this
  -- the mapped list is sorted
  have hpair : ((sorted v).map φ).Pairwise (fun a b => tupleLe a b = true) := by
    have h0 := sorted_pairwise hwf
    rw [List.pairwise_map]
    refine List.Pairwise.imp_of_mem ?_ h0
    intro a b ha hb hab
    simp only [tupleLe, Bool.or_eq_true, Bool.and_eq_true, decide_eq_true_eq] at hab ⊢
    rcases hab with hab | ⟨h1, h2⟩
    · exact .inl hab
    · refine .inr ⟨h1, ?_⟩
      have hla := hlt a ha
      have hlb := hlt b hb
      simp only [φ]
      rw [getD_of_lt hla, getD_of_lt hlb]
      rcases Nat.lt_or_eq_of_le h2 with h3 | h3
      · exact Nat.le_of_lt (List.pairwise_iff_getElem.mp hr.ids_increasing a.2 b.2 hla hlb h3)
      · simp [h3]
  have hperm : ((sorted v).map φ).Perm (ids.map (fun i => (d.feature i j, i))) := by
    refine ((sorted_perm v).map φ).trans (List.Perm.of_eq ?_)
    rw [hv, idx_map_col]
    apply List.ext_getElem
    · simp
    · intro k h1 h2
      simp only [List.length_map] at h2
      simp only [φ, List.getElem_map, List.getElem_zipIdx, Nat.zero_add]
      rw [getD_of_lt h2]
  have hEq : (sorted v).map φ = col := by
    refine sorted_unique (hperm.trans (hr.content j col hcol).symm) ?_ hpair
      ((hr.order col (List.mem_of_getElem? hcol)).imp (fun h => tupleLe_of_before h))
    intro a ha b hb hab
    rw [hperm.mem_iff, List.mem_map] at ha hb
    obtain ⟨i, _, rfl⟩ := ha
    obtain ⟨i', _, rfl⟩ := hb
    simp only at hab
    rw [hab]
  rw [← hEq]
  unfold seqOf
  rw [← hv, List.map_map]
  apply List.map_congr_left
  intro p hp
  have hl := hlt p hp
  simp only [φ, Function.comp, DataSet.sub, Prod.mk.injEq, true_and]
  rw [getD_of_lt (by simpa using hl), List.getElem_map, getD_of_lt hl]

theorem findBestSplitNewPartition_ok {d : DataSet F} {c t : Nat} (h : d.WF c t) {s : SortedDataSet F} {ids : List Nat}
    (hr : s.Represents d c ids) (hne : ids ≠ []) :
    findBestSplitNewPartition s d.labels t c = .ok (splitOf (d.sub c ids) t) := by
  have hlab : s.labels = (d.sub c ids).labels := hr.labels
  have hw := sub_wf h hne hr.ids_bound
  obtain ⟨hm, hshape⟩ := getLabelMetrics_ok hw.label_len
  unfold findBestSplitNewPartition
  simp only [hlab, hm, R.ok_bind, getTotalVarianceSum_ok hw.label_len]
  have hres : s.sortedFeatureColumns.mapM (fun featureColumn =>
      determineBestThresholdNew (d.sub c ids).labels.length d.labels featureColumn
        (metricsOf (d.sub c ids).labels t) t) =
      .ok ((d.sub c ids).featureColumns.map (colResult (d.sub c ids).labels t)) := by
    have h1 : s.sortedFeatureColumns.mapM (fun featureColumn =>
        determineBestThresholdNew (d.sub c ids).labels.length d.labels featureColumn
          (metricsOf (d.sub c ids).labels t) t) =
        .ok (s.sortedFeatureColumns.map (fun col => scanResult (d.sub c ids).labels.length t
          (metricsOf (d.sub c ids).labels t) (col.map (fun p => (p.1, d.labels.getD p.2 []))))) := by
      refine mapM_ok (fun col hcol => ?_)
      obtain ⟨j, hj⟩ := List.getElem?_of_mem hcol
      refine determineBestThresholdNew_ok h.label_len hshape ?_ (hr.bound h.label_count hj)
      intro hnil
      have := (hr.content j col hj).length_eq
      rw [hnil] at this
      simp only [List.length_nil, List.length_map] at this
      exact hne (List.eq_nil_of_length_eq_zero this.symm)
    rw [h1]
    congr 1
    apply List.ext_getElem?
    intro j
    simp only [List.getElem?_map]
    cases hcol : s.sortedFeatureColumns[j]? with
    | none =>
      rw [List.getElem?_eq_none_iff, hr.width] at hcol
      rw [List.getElem?_eq_none (by simpa [DataSet.sub, columnsOf] using hcol)]
      rfl
    | some col =>
      have hj : j < c := by rw [← hr.width]; exact (List.getElem?_eq_some_iff.mp hcol).1
      have : (d.sub c ids).featureColumns[j]? = some (column (d.sub c ids).featureRows j) := by
        rw [hw.cols]; simp [columnsOf, hj]
      rw [this]
      simp only [Option.map_some, colResult, seqOf_sub h hr hcol]
  have hlen : ((d.sub c ids).featureColumns.map (colResult (d.sub c ids).labels t)).length = c := by
    simp [DataSet.sub, columnsOf]
  rw [hres]
  simp only [R.ok_bind, hlen, assertEq_self]
  have := selectBestColumn_ok (total := totalVariance (d.sub c ids).labels t)
    (results := (d.sub c ids).featureColumns.map (colResult (d.sub c ids).labels t)) (by rw [hlen]; exact h.cols_u32)
  rw [hlen] at this
  exact this

theorem createSorted_ok {d : DataSet F} {c t : Nat} (h : d.WF c t) :
    ∃ s, createDatasetWithSortedFeatures d = .ok s ∧ s.labels = d.labels ∧
      s.Represents d c (List.range d.featureRows.length) := by
  have hnn : ∀ j, j < c → ∀ p ∈ (column d.featureRows j).zipIdx, isNaN p.1 = false := fun j hj p hp =>
    h.col_nan hj p.1 (List.fst_mem_of_mem_zipIdx hp)
  have hcols : d.featureColumns.mapM getSortedFeatureTupleVector =
      .ok (d.featureColumns.map (fun col => sorted col.zipIdx)) := by
    refine mapM_ok (fun col hcol => ?_)
    rw [h.cols, columnsOf, List.mem_map] at hcol
    obtain ⟨j, hj, rfl⟩ := hcol
    rw [List.mem_range] at hj
    exact sortTuples_ok (hnn j hj)
  refine ⟨{ labels := d.labels, sortedFeatureColumns := d.featureColumns.map (fun col => sorted col.zipIdx) },
    by simp [createDatasetWithSortedFeatures, hcols], rfl, ?_⟩
  have hsub := sub_all h
  refine ⟨List.pairwise_lt_range, fun i hi => List.mem_range.mp hi, ?_, by simp [h.cols, columnsOf], ?_, ?_⟩
  · exact (congrArg DataSet.labels hsub).symm
  · intro j col hcol
    simp only [h.cols, columnsOf, List.map_map, List.getElem?_map, Option.map_eq_some_iff, Function.comp] at hcol
    obtain ⟨j', hj', rfl⟩ := hcol
    have hjc : j < c := by
      have := (List.getElem?_eq_some_iff.mp hj').1
      simpa using this
    rw [List.getElem?_range hjc] at hj'
    cases hj'
    refine (sorted_perm _).trans (List.Perm.of_eq ?_)
    apply List.ext_getElem
    · simp [column]
    · intro k h1 h2
      simp only [List.length_zipIdx, column, List.length_map] at h1
      simp only [List.getElem_zipIdx, List.getElem_map, List.getElem_range, column, DataSet.feature, Nat.zero_add]
      rw [getD_of_lt (l := d.featureRows) h1]
  · intro col hcol
    simp only [h.cols, columnsOf, List.map_map, List.mem_map, Function.comp, List.mem_range] at hcol
    obtain ⟨j, hj, rfl⟩ := hcol
    have hp := sorted_pairwise (fun p hp => nn_of_isNaN_false (hnn j hj p hp))
    have hnd : ((sorted (column d.featureRows j).zipIdx).map Prod.snd).Nodup := by
      refine (((sorted_perm _).map Prod.snd).nodup_iff).mpr ?_
      have h2 : (column d.featureRows j).zipIdx.map Prod.snd = List.range (column d.featureRows j).length := by
        simp [List.zipIdx_map_snd, List.range_eq_range']
      rw [h2]
      exact List.nodup_range
    rw [List.Nodup, List.pairwise_map] at hnd
    exact List.Pairwise.imp₂ (fun _ _ h1 h2 => before_of_tupleLe h1 h2) hp hnd

/-- The sorted-column builder builds the same tree as the row builder. -/
theorem buildSorted_ok {d : DataSet F} {c t : Nat} (h : d.WF c t) (ht : t < 2 ^ 32) (cfg : TreeConfig) (m : Nat) :
    ∀ (s : SortedDataSet F) (ids : List Nat) (level : Nat), s.Represents d c ids → ids ≠ [] →
    level + m = cfg.maxLevels →
    ∃ tree, buildRegressionTreeNewPartition cfg d.labels s level = .ok tree ∧
      tree.mapLeaves (fun l => l.data.map SortedDataSet.labels) =
      (treeOf (fun d => ({ data := some d } : RegressionLeaf F)) c t m (d.sub c ids)).mapLeaves
        (fun l => l.data.map DataSet.labels) := by
  induction m with
  | zero =>
    intro s ids level hr hne hlev
    have hlab : s.labels = (d.sub c ids).labels := hr.labels
    have hw := sub_wf h hne hr.ids_bound
    obtain ⟨l0, hl0⟩ : ∃ l0, idx s.labels 0 = .ok l0 ∧ l0.length = t := by
      rw [hlab]
      cases hids : ids with
      | nil => exact absurd hids hne
      | cons i rest =>
        refine ⟨d.labels.getD i [], rfl, h.label_len _ (getD_mem ?_)⟩
        rw [h.label_count]; exact hr.ids_bound i (by simp [hids])
    unfold buildRegressionTreeNewPartition
    have h1 : (level == cfg.maxLevels) = true := by simp; omega
    simp only [hl0.1, R.ok_bind, hl0.2, castU32_of_lt ht, hr.width, findBestSplitNewPartition_ok h hr hne, h1,
      Bool.or_true, if_true, R.pure_eq]
    refine ⟨_, rfl, ?_⟩
    simp [treeOf, TreeNode.leafNode, TreeNode.mapLeaves, hlab]
  | succ m ih =>
    intro s ids level hr hne hlev
    have hlab : s.labels = (d.sub c ids).labels := hr.labels
    have hw := sub_wf h hne hr.ids_bound
    obtain ⟨l0, hl0⟩ : ∃ l0, idx s.labels 0 = .ok l0 ∧ l0.length = t := by
      rw [hlab]
      cases hids : ids with
      | nil => exact absurd hids hne
      | cons i rest =>
        refine ⟨d.labels.getD i [], rfl, h.label_len _ (getD_mem ?_)⟩
        rw [h.label_count]; exact hr.ids_bound i (by simp [hids])
    unfold buildRegressionTreeNewPartition
    have h1 : (level == cfg.maxLevels) = false := by simp; omega
    have h2 : level < cfg.maxLevels := by omega
    simp only [hl0.1, R.ok_bind, hl0.2, castU32_of_lt ht, hr.width, findBestSplitNewPartition_ok h hr hne, h1,
      Bool.or_false, R.pure_eq, treeOf]
    cases hg : ((splitOf (d.sub c ids) t).gain ==. F64.zero) with
    | true =>
      simp only [if_true]
      exact ⟨_, rfl, by simp [TreeNode.leafNode, TreeNode.mapLeaves, hlab]⟩
    | false =>
      simp only [Bool.false_eq_true, if_false, h2, ↓reduceDIte]
      set q := (splitOf (d.sub c ids) t).question with hq
      obtain ⟨_, hc, _, ⟨row, hrow, hsat⟩, ⟨row2, hrow2, hsat2⟩⟩ := splitOf_separates hw hg
      rw [← hq] at hc hsat hsat2
      simp only [DataSet.sub, List.mem_map] at hrow hrow2
      obtain ⟨i, hi, rfl⟩ := hrow
      obtain ⟨i2, hi2, rfl⟩ := hrow2
      have hs := satisfies_feature h hc (hr.ids_bound i hi)
      have hs2 := satisfies_feature h hc (hr.ids_bound i2 hi2)
      rw [newPartition_ok hr h.label_count hc ⟨i, hi, by rw [← hs]; exact hsat⟩]
      simp only [R.ok_bind]
      have hrT := hr.filter (fun i => q.value <=. d.feature i q.column)
      have hrF := hr.filter (fun i => !(q.value <=. d.feature i q.column))
      have hneT : ids.filter (fun i => q.value <=. d.feature i q.column) ≠ [] := by
        intro hnil
        have : i ∈ ids.filter (fun i => q.value <=. d.feature i q.column) := by
          rw [List.mem_filter]; exact ⟨hi, by rw [← hs]; exact hsat⟩
        rw [hnil] at this; simp at this
      have hneF : ids.filter (fun i => !(q.value <=. d.feature i q.column)) ≠ [] := by
        intro hnil
        have : i2 ∈ ids.filter (fun i => !(q.value <=. d.feature i q.column)) := by
          rw [List.mem_filter]; exact ⟨hi2, by rw [← hs2, hsat2]; rfl⟩
        rw [hnil] at this; simp at this
      obtain ⟨lt, hlt, elt⟩ := ih _ _ (level + 1) hrT hneT (by omega)
      obtain ⟨rt, hrt, ert⟩ := ih _ _ (level + 1) hrF hneF (by omega)
      rw [hlt]
      simp only [R.ok_bind]
      rw [hrt]
      simp only [R.ok_bind]
      refine ⟨_, rfl, ?_⟩
      have eT : (d.sub c ids).restrict c (satisfies q) =
          d.sub c (ids.filter (fun i => q.value <=. d.feature i q.column)) := by
        rw [restrict_sub]
        congr 1
        apply List.filter_congr
        intro k hk
        exact satisfies_feature h hc (hr.ids_bound k hk)
      have eF : (d.sub c ids).restrict c (fun r => !satisfies q r) =
          d.sub c (ids.filter (fun i => !(q.value <=. d.feature i q.column))) := by
        rw [restrict_sub]
        congr 1
        apply List.filter_congr
        intro k hk
        rw [satisfies_feature h hc (hr.ids_bound k hk)]
      simp only [TreeNode.new, TreeNode.mapLeaves, elt, ert, eT, eF, Option.map_none]

end

end Verif
