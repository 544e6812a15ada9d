import Verif.Props.SingleRow
/-!
# C88: which tables the builder on sorted columns accepts
-/

set_option linter.unusedSectionVars false

namespace Verif

open Sample

variable {F : Type} [F64 F]

/-! ## Surplus labels are never looked at -/

/-- every index in the sorted columns is below `n` -/
def SortedDataSet.Below (s : SortedDataSet F) (n : Nat) : Prop := ∀ col ∈ s.sortedFeatureColumns, ∀ p ∈ col, p.2 < n

theorem range_filter_extra {labels extra : List (List F)} {p : Nat → Bool} (hp : ∀ i, p i = true → i < labels.length) :
    ((List.range (labels ++ extra).length).filter p).map (fun i => (labels ++ extra).getD i []) =
      ((List.range labels.length).filter p).map (fun i => labels.getD i []) := by
  rw [List.length_append, List.range_add, List.filter_append, List.map_append]
  have h2 : ((List.range extra.length).map (fun x => labels.length + x)).filter p = [] := by
    rw [List.filter_eq_nil_iff]
    intro i hi
    obtain ⟨x, _, rfl⟩ := List.mem_map.mp hi
    intro hpi
    have := hp _ hpi
    omega
  rw [h2, List.map_nil, List.append_nil]
  apply List.map_congr_left
  intro i hi
  have hi := List.mem_range.mp (List.mem_filter.mp hi).1
  simp [List.getD_eq_getElem?_getD, List.getElem?_append_left hi]

theorem trueSide_sub {v : F} {col : List (F × Nat)} {p : F × Nat} (hp : p ∈ trueSide v col) : p ∈ col := by
  unfold trueSide at hp
  split at hp
  · exact hp
  · exact List.mem_of_mem_drop hp

theorem newPartition_extra {s : SortedDataSet F} {labels : List (List F)} (hb : s.Below labels.length) (extra : List (List F)) (j : Nat) (v : F) :
    newPartition s j v (labels ++ extra) = newPartition s j v labels ∧
      ∀ a b, newPartition s j v labels = .ok (a, b) → a.Below labels.length ∧ b.Below labels.length := by
  cases hcol : s.sortedFeatureColumns[j]? with
  | none =>
    have hlen : s.sortedFeatureColumns.length ≤ j := List.getElem?_eq_none_iff.mp hcol
    have hx : ∀ L : List (List F), newPartition s j v L = .error .index := fun L => by
      simp only [newPartition, collectIndicesForPartitioning, idx_none hlen]
      rfl
    rw [hx, hx]
    exact ⟨rfl, fun a b h => by cases h⟩
  | some col =>
    have hbc := hb col (List.mem_of_getElem? hcol)
    have hbx : ∀ p ∈ col, p.2 < (labels ++ extra).length := fun p hp => by
      have := hbc p hp
      simp; omega
    have raw : ∀ L : List (List F), (∀ col ∈ s.sortedFeatureColumns, ∀ p ∈ col, p.2 < L.length) → newPartition s j v L = .ok
      ({ labels := ((List.range L.length).filter
            (fun i => decide (i ∈ (trueSide v col).map Prod.snd))).map (fun i => L.getD i [])
         sortedFeatureColumns := s.sortedFeatureColumns.map
            (fun col' => col'.filter (fun p => decide (p.2 ∈ (trueSide v col).map Prod.snd))) },
       { labels := ((List.range L.length).filter
            (fun i => decide (i ∉ (trueSide v col).map Prod.snd) &&
              decide (i ∈ (falsePrefix v col).map Prod.snd))).map (fun i => L.getD i [])
         sortedFeatureColumns := s.sortedFeatureColumns.map
            (fun col' => col'.filter (fun p => decide (p.2 ∉ (trueSide v col).map Prod.snd))) }) := by
      intro L hL
      obtain ⟨mt, mf, h1, ht, hf⟩ := collectIndices_ok (v := v) hcol (hL col (List.mem_of_getElem? hcol))
      unfold newPartition
      simp only [h1, R.ok_bind, collectLabels_ok ht hf]
      have hcols : s.sortedFeatureColumns.mapM (splitSortedColumn mt) = .ok (s.sortedFeatureColumns.map (fun col' =>
          (col'.filter (fun p => decide (p.2 ∈ (trueSide v col).map Prod.snd)),
           col'.filter (fun p => decide (p.2 ∉ (trueSide v col).map Prod.snd))))) :=
        mapM_ok (fun col' hcol' => splitSortedColumn_ok ht (hL col' hcol'))
      unfold collectPartitionedFeatureColumns
      simp only [hcols, R.ok_bind, R.pure_eq, List.map_map]
      rfl
    rw [raw _ (fun col hc p hp => by have := hb col hc p hp; simp; omega), raw _ hb]
    refine ⟨?_, ?_⟩
    · rw [range_filter_extra, range_filter_extra]
      · intro i hi
        simp only [Bool.and_eq_true, decide_eq_true_eq] at hi
        obtain ⟨p, hp, rfl⟩ := List.mem_map.mp hi.2
        exact hbc p ((List.takeWhile_prefix _).subset hp)
      · intro i hi
        simp only [decide_eq_true_eq] at hi
        obtain ⟨p, hp, rfl⟩ := List.mem_map.mp hi
        exact hbc p (trueSide_sub hp)
    · intro a b hab
      have hab := Except.ok.inj hab
      simp only [Prod.mk.injEq] at hab
      obtain ⟨rfl, rfl⟩ := hab
      constructor <;>
      · intro col' hcol' p hp
        simp only [List.mem_map] at hcol'
        obtain ⟨col0, h0, rfl⟩ := hcol'
        exact hb col0 h0 p (List.mem_filter.mp hp).1

theorem scan_extra {labels extra : List (List F)} {t : Nat} {pv : F} (col : List (F × Nat)) (hb : ∀ p ∈ col, p.2 < labels.length) (s : ScanState F) :
    col.foldlM (scanStep (labels ++ extra) pv t) s = col.foldlM (scanStep labels pv t) s := by
  induction col generalizing s with
  | nil => rfl
  | cons p col ih =>
    have hp := hb p (by simp)
    have h1 : scanStep (labels ++ extra) pv t s p = scanStep labels pv t s p := by
      have : idx (labels ++ extra) p.2 = idx labels p.2 := by
        simp only [idx, List.getElem?_append_left hp]
      simp only [scanStep, this]
    simp only [List.foldlM_cons, h1]
    congr 1
    funext s'
    exact ih (fun p hp => hb p (by simp [hp])) s'

theorem splitNew_extra {s : SortedDataSet F} {labels : List (List F)} (hb : s.Below labels.length) (extra : List (List F)) (k c : Nat) :
    findBestSplitNewPartition s (labels ++ extra) k c = findBestSplitNewPartition s labels k c := by
  unfold findBestSplitNewPartition
  dsimp only
  congr 1; funext total
  congr 1; funext tv
  rw [mapM_congr (g := fun col => determineBestThresholdNew s.labels.length labels col total k)]
  intro col hcol
  simp only [determineBestThresholdNew, scan_extra col (hb col hcol)]

theorem buildSorted_extra (cfg : TreeConfig) {labels : List (List F)} (extra : List (List F)) (m : Nat) : ∀ (s : SortedDataSet F) (level : Nat),
    s.Below labels.length → level + m = cfg.maxLevels →
    buildRegressionTreeNewPartition cfg (labels ++ extra) s level = buildRegressionTreeNewPartition cfg labels s level := by
  induction m with
  | zero =>
    intro s level hb hl
    have h1 : (level == cfg.maxLevels) = true := by simp; omega
    rw [buildRegressionTreeNewPartition, buildRegressionTreeNewPartition]
    simp only [splitNew_extra hb, h1, Bool.or_true, if_true]
  | succ m ih =>
    intro s level hb hl
    rw [buildRegressionTreeNewPartition, buildRegressionTreeNewPartition]
    simp only [splitNew_extra hb]
    congr 1; funext l0
    congr 1; funext sp
    split
    · rfl
    · split
      · obtain ⟨e1, e2⟩ := newPartition_extra hb extra sp.question.column sp.question.value
        rw [e1]
        cases hp : newPartition s sp.question.column sp.question.value labels with
        | error e => rfl
        | ok ab =>
          obtain ⟨a, b⟩ := ab
          obtain ⟨ha, hb'⟩ := e2 a b hp
          simp only [R.ok_bind]
          rw [ih a (level + 1) ha (by omega), ih b (level + 1) hb' (by omega)]
      · rfl

/-! ## The root -/

/-- what sorting the columns returns, when it returns -/
theorem createSorted_inv {d : DataSet F} {s : SortedDataSet F} (h : createDatasetWithSortedFeatures d = .ok s) :
    s.labels = d.labels ∧ d.featureColumns.mapM getSortedFeatureTupleVector = .ok s.sortedFeatureColumns := by
  simp only [createDatasetWithSortedFeatures, R.bind_eq_ok] at h
  obtain ⟨cols, h1, h2⟩ := h
  cases h2
  exact ⟨rfl, h1⟩

theorem mapM_bind {α β γ : Type} {f : α → R β} {g : β → R γ} {l : List α} {ys : List β} (h : l.mapM f = .ok ys) :
    l.mapM (fun x => f x >>= g) = ys.mapM g := by
  induction l generalizing ys with
  | nil => simp only [mapM_nil_R, Except.ok.injEq] at h; subst h; rfl
  | cons x xs ih =>
    rw [mapM_cons_R] at h
    simp only [R.bind_eq_ok] at h
    obtain ⟨y, h1, ys', h2, h3⟩ := h
    cases h3
    rw [mapM_cons_R, mapM_cons_R, ih h2, h1, R.ok_bind]

/-- the search at the root is the same search -/
theorem root_split {d : DataSet F} {c t : Nat} (h : d.Tables c t) (hc : 0 < c) {s : SortedDataSet F} (hs : createDatasetWithSortedFeatures d = .ok s) (k : Nat)
    (r : BestSplitResult F) : findBestSplitNewPartition s s.labels k c = .ok r ↔ findBestSplit d k = .ok r := by
  obtain ⟨hl, hcols⟩ := createSorted_inv hs
  have hthr : ∀ n labels total, d.featureColumns.mapM (fun col => determineBestThreshold n labels col total k) =
      s.sortedFeatureColumns.mapM (fun col => determineBestThresholdNew n labels col total k) := fun n labels total =>
    mapM_bind (g := fun col => determineBestThresholdNew n labels col total k) hcols
  have hlen : s.sortedFeatureColumns.length = c := by
    rw [mapM_length hcols, h.cols]
    simp [columnsOf]
  cases hrows : d.featureRows with
  | cons row rows =>
    have hrow : row.length = c := h.row_len row (by rw [hrows]; simp)
    unfold findBestSplit findBestSplitNewPartition
    simp only [hthr, hl, hrows, idx_cons_zero, R.ok_bind, hrow]
  | nil =>
    constructor
    · intro h1
      exfalso
      simp only [findBestSplitNewPartition, R.bind_eq_ok] at h1
      obtain ⟨total, _, tv, _, results, h2, _⟩ := h1
      have hmem : column d.featureRows 0 ∈ d.featureColumns := by
        rw [h.cols, columnsOf]
        exact List.mem_map.mpr ⟨0, List.mem_range.mpr hc, rfl⟩
      rw [hl, ← hthr] at h2
      obtain ⟨i, hi⟩ := List.getElem?_of_mem hmem
      obtain ⟨b, _, hb⟩ := mapM_get h2 hi
      rw [hrows] at hb
      simp [determineBestThreshold, getSortedFeatureTupleVector, sortTuples, column, bind, Except.bind] at hb
    · intro h1
      exfalso
      simp only [findBestSplit, R.bind_eq_ok, hrows, idx_nil] at h1
      obtain ⟨_, _, _, _, _, h2, _⟩ := h1
      cases h2

/-- C23 with surplus labels -/
theorem sorted_enough [LawfulOrder F] {d : DataSet F} {c t : Nat} (h : d.Enough c t) (ht : t < 2 ^ 32) (hc : 0 < c) (cfg : TreeConfig)
    (hk : cfg.numberOfClasses = t) :
    ∃ s tree treeSorted, createDatasetWithSortedFeatures d = .ok s ∧ regressionTreeNew d cfg = .ok tree ∧
      regressionTreeNewPartitionNew s cfg = .ok treeSorted ∧
      treeSorted.mapLeaves (fun l => l.data.map SortedDataSet.labels) = tree.mapLeaves (fun l => l.data.map DataSet.labels) := by
  have hw := h.cut_wf
  obtain ⟨s0, hs0, hl0, hr0⟩ := createSorted_ok hw
  have hcols0 := (createSorted_inv hs0).2
  have hs : createDatasetWithSortedFeatures d = .ok { s0 with labels := d.labels } := by
    simp only [createDatasetWithSortedFeatures]
    rw [show d.featureColumns.mapM getSortedFeatureTupleVector = .ok s0.sortedFeatureColumns from hcols0]
    rfl
  have hsplit : ∃ extra, d.labels = d.cutLabels.labels ++ extra := ⟨d.labels.drop d.featureRows.length, (List.take_append_drop _ _).symm⟩
  obtain ⟨extra, hextra⟩ := hsplit
  have hbelow : s0.Below d.cutLabels.labels.length := fun col hcol p hp => by
    obtain ⟨j, hj⟩ := List.getElem?_of_mem hcol
    exact hr0.bound hw.label_count hj p hp
  have hpos := List.length_pos_of_ne_nil h.rows_ne
  have hlpos : 0 < d.labels.length := Nat.lt_of_lt_of_le hpos h.label_count
  have hf := findBestSplit_enough h
  have hroot := (root_split h.tables hc hs t (splitOf d t)).mpr hf
  have h0 : idx d.labels 0 = .ok d.labels[0] := idx_lt hlpos
  have h0t : (d.labels[0]).length = t := h.tables.label_len _ (List.getElem_mem _)
  refine ⟨{ s0 with labels := d.labels }, ?_⟩
  rw [regressionTreeNew_fuel, hk]
  unfold regressionTreeNewPartitionNew
  dsimp only at hroot
  rw [buildRegressionTreeNewPartition]
  dsimp only
  simp only [h0, R.ok_bind, h0t, castU32_of_lt ht, hr0.width, hroot]
  cases hm : cfg.maxLevels with
  | zero =>
    refine ⟨_, _, hs, by simp [buildFuel, hf, regressionLeafR]; rfl, by simp; rfl, ?_⟩
    simp [TreeNode.leafNode, TreeNode.mapLeaves]
  | succ m =>
    cases hg : ((splitOf d t).gain ==. F64.zero) with
    | true =>
      refine ⟨_, _, hs, by simp [buildFuel, hf, hg, regressionLeafR]; rfl, by simp; rfl, ?_⟩
      simp [TreeNode.leafNode, TreeNode.mapLeaves]
    | false =>
      obtain ⟨hcq, hT, hF⟩ := splitOf_separates_enough h hg
      set q := (splitOf d t).question with hq
      have hp := partition_ok hw hcq hT hF
      rw [cut_partition] at hp
      have hleafOf : ∀ e : DataSet F, e.WF c t → regressionLeafR e = .ok ({ data := some e } : RegressionLeaf F) := fun e _ => rfl
      have h1 := buildFuel_ok hleafOf m (restrict_wf hw hT)
      have hF' := hF
      obtain ⟨rowF, hrowF, hsF⟩ := hF
      have h2 := buildFuel_ok hleafOf m (restrict_wf hw (p := fun r => !satisfies q r) ⟨rowF, hrowF, by simp [hsF]⟩)
      obtain ⟨rowT, hrowT, hsT⟩ := hT
      obtain ⟨i, hi, rfl⟩ := List.getElem_of_mem hrowT
      obtain ⟨i2, hi2, rfl⟩ := List.getElem_of_mem hrowF
      have hst := satisfies_feature hw hcq (i := i) hi
      have hsf := satisfies_feature hw hcq (i := i2) hi2
      have g1 : d.cutLabels.featureRows.getD i [] = d.featureRows[i] := getD_of_lt hi
      have g2 : d.cutLabels.featureRows.getD i2 [] = d.featureRows[i2] := getD_of_lt hi2
      rw [g1, hsT] at hst
      rw [g2, hsF] at hsf
      set ids := List.range d.cutLabels.featureRows.length with hids
      have hmi : i ∈ ids := List.mem_range.mpr hi
      have hmi2 : i2 ∈ ids := List.mem_range.mpr hi2
      have hnp := newPartition_ok hr0 hw.label_count hcq ⟨i, hmi, hst.symm⟩ (v := q.value)
      obtain ⟨x1, x2⟩ := newPartition_extra hbelow extra q.column q.value
      obtain ⟨bT, bF⟩ := x2 _ _ hnp
      rw [hnp, ← hextra] at x1
      have hrT := hr0.filter (fun i => q.value <=. d.cutLabels.feature i q.column)
      have hrF := hr0.filter (fun i => !(q.value <=. d.cutLabels.feature i q.column))
      have hneT : ids.filter (fun i => q.value <=. d.cutLabels.feature i q.column) ≠ [] :=
        List.ne_nil_of_mem (List.mem_filter.mpr ⟨hmi, hst.symm⟩)
      have hneF : ids.filter (fun i => !(q.value <=. d.cutLabels.feature i q.column)) ≠ [] :=
        List.ne_nil_of_mem (List.mem_filter.mpr ⟨hmi2, by simp [← hsf]⟩)
      obtain ⟨lt, hlt, elt⟩ := buildSorted_ok hw ht cfg m _ _ 1 hrT hneT (by omega)
      obtain ⟨rt, hrt, ert⟩ := buildSorted_ok hw ht cfg m _ _ 1 hrF hneF (by omega)
      rw [← buildSorted_extra cfg extra m _ 1 bT (by omega), ← hextra] at hlt
      rw [← buildSorted_extra cfg extra m _ 1 bF (by omega), ← hextra] at hrt
      have eT : d.cutLabels.restrict c (satisfies q) = d.cutLabels.sub c (ids.filter (fun i => q.value <=. d.cutLabels.feature i q.column)) := by
        conv_lhs => rw [← sub_all hw]
        rw [restrict_sub]
        congr 1
        exact List.filter_congr (fun k hk => satisfies_feature hw hcq (List.mem_range.mp hk))
      have eF : d.cutLabels.restrict c (fun r => !satisfies q r) =
          d.cutLabels.sub c (ids.filter (fun i => !(q.value <=. d.cutLabels.feature i q.column))) := by
        conv_lhs => rw [← sub_all hw]
        rw [restrict_sub]
        congr 1
        exact List.filter_congr (fun k hk => by rw [satisfies_feature hw hcq (List.mem_range.mp hk)])
      refine ⟨.new q (treeOf (fun d => ({ data := some d } : RegressionLeaf F)) c t m (d.cutLabels.restrict c (satisfies q)))
        (treeOf (fun d => ({ data := some d } : RegressionLeaf F)) c t m (d.cutLabels.restrict c (fun r => !satisfies q r))), .new q lt rt, hs, ?_, ?_, ?_⟩
      · simp [buildFuel, hf, hg, ← hq, hp, h1, h2]
      · have x1' : newPartition { s0 with labels := d.labels } q.column q.value d.labels = _ := x1
        simp only [Bool.false_or, Nat.zero_lt_succ, ↓reduceDIte, x1', R.ok_bind, hlt, hrt]
        rfl
      · simp only [TreeNode.new, TreeNode.mapLeaves, elt, ert, eT, eF, Option.map_none]

theorem single_sorts {d : DataSet F} {c t : Nat} (h : d.Tables c t) (h1 : d.featureRows.length = 1) :
    ∃ s, createDatasetWithSortedFeatures d = .ok s := by
  have : d.featureColumns.mapM getSortedFeatureTupleVector = .ok (d.featureColumns.map (fun col => col.zipIdx)) := by
    refine mapM_ok (fun col hcol => ?_)
    rw [h.cols, columnsOf, List.mem_map] at hcol
    obtain ⟨j, _, rfl⟩ := hcol
    obtain ⟨x, hx⟩ := List.length_eq_one_iff.mp (show (column d.featureRows j).length = 1 by rw [column_length, h1])
    rw [hx]
    rfl
  exact ⟨_, by simp [createDatasetWithSortedFeatures, this]; rfl⟩

/-- **C88** (the builder on sorted columns).  For two tables (`c ≥ 1` feature columns, `1 ≤ t < 2³²` label columns), sorting the columns and
building from them returns a tree if and only if there is a row, there are at least as many labels as rows and, with two or more rows, no
feature is NaN.  The configured number of targets plays no part. -/
theorem C88_sorted_tree [LawfulOrder F] [LawfulEmpty F] (d : DataSet F) (c t : Nat) (h : d.Tables c t) (hc : 0 < c) (ht0 : 0 < t) (ht : t < 2 ^ 32)
    (cfg : TreeConfig) :
    (∃ s tree, createDatasetWithSortedFeatures d = .ok s ∧ regressionTreeNewPartitionNew s cfg = .ok tree) ↔
      0 < d.featureRows.length ∧ d.featureRows.length ≤ d.labels.length ∧ (2 ≤ d.featureRows.length → d.NoNaN) := by
  constructor
  · rintro ⟨s, tree, hs, htree⟩
    unfold regressionTreeNewPartitionNew at htree
    rw [buildRegressionTreeNewPartition] at htree
    simp only [R.bind_eq_ok] at htree
    obtain ⟨l0, _, sp, h2, _⟩ := htree
    obtain ⟨hl, hcols⟩ := createSorted_inv hs
    have hlen : s.sortedFeatureColumns.length = c := by
      rw [mapM_length hcols, h.cols]
      simp [columnsOf]
    rw [hlen] at h2
    obtain ⟨k1, k2, _, k4⟩ := split_accepts h hc ((root_split h hc hs _ sp).mp h2)
    exact ⟨k1, k2, k4⟩
  · rintro ⟨h1, h2, h3⟩
    rcases Nat.lt_or_ge d.featureRows.length 2 with hlt | hge
    · have hone : d.featureRows.length = 1 := by omega
      have hne : d.labels ≠ [] := List.ne_nil_of_length_pos (by omega)
      obtain ⟨s, hs⟩ := single_sorts h hone
      obtain ⟨hl, hcols⟩ := createSorted_inv hs
      have hlen : s.sortedFeatureColumns.length = c := by
        rw [mapM_length hcols, h.cols]
        simp [columnsOf]
      have hf := findBestSplit_single h hone hne
      rw [splitOf_single h ht0 hone] at hf
      have hroot := (root_split h hc hs t _).mpr hf
      have h0 : idx s.labels 0 = .ok d.labels[0] := by rw [hl]; exact idx_lt (by omega)
      have h0t : (d.labels[0]).length = t := h.label_len _ (List.getElem_mem _)
      refine ⟨s, .leafNode { column := 0, value := F64.zero } { data := some s }, hs, ?_⟩
      unfold regressionTreeNewPartitionNew
      rw [buildRegressionTreeNewPartition]
      simp only [h0, R.ok_bind, h0t, castU32_of_lt ht, hlen, hroot, LawfulOrder.zero_eq, Bool.true_or, if_true]
      rfl
    · obtain ⟨s, _, tree, hs, _, htree, _⟩ := sorted_enough ⟨h, List.ne_nil_of_length_pos h1, h2, h3 hge⟩ ht hc { cfg with numberOfClasses := t } rfl
      rw [C44_sorted_ignores] at htree
      exact ⟨s, tree, hs, htree⟩

/-- **C23** (surplus labels).  The two builders agree with more labels than rows as well: the same questions, the same shape and the same
labels in every leaf. -/
theorem C23_surplus_labels [LawfulOrder F] (d : DataSet F) (c t : Nat) (h : d.Tables c t) (hc : 0 < c) (ht : t < 2 ^ 32) (hrows : d.featureRows ≠ [])
    (hcount : d.featureRows.length ≤ d.labels.length) (hn : d.NoNaN) (cfg : TreeConfig) (hk : cfg.numberOfClasses = t) :
    ∃ s tree treeSorted, createDatasetWithSortedFeatures d = .ok s ∧ regressionTreeNew d cfg = .ok tree ∧
      regressionTreeNewPartitionNew s cfg = .ok treeSorted ∧
      treeSorted.mapLeaves (fun l => l.data.map SortedDataSet.labels) = tree.mapLeaves (fun l => l.data.map DataSet.labels) :=
  sorted_enough ⟨h, hrows, hcount, hn⟩ ht hc cfg hk

/-- three rows and four labels -/
def spare4 : DataSet E := { featureRows := [[1], [2], [5]], labels := [[0], [0], [3], [7]], featureColumns := [[1, 2, 5]] }

example : spare4.Tables 1 1 := by
  refine ⟨?_, ?_, ?_, ?_⟩
  · decide +kernel
  · decide +kernel
  · decide +kernel
  · decide
example : spare4.NoNaN := by
  unfold DataSet.NoNaN
  decide +kernel
example : (do let s ← createDatasetWithSortedFeatures spare4; let tree ← regressionTreeNewPartitionNew s (exCfg 9); pure tree.questionCount) = .ok 1 := by
  decide +kernel
example : (do let s ← createDatasetWithSortedFeatures lone2; let tree ← regressionTreeNewPartitionNew s (exCfg 9); pure tree.questionCount) = .ok 0 := by
  decide +kernel
example : panicOf (do let s ← createDatasetWithSortedFeatures ({ spare4 with labels := [[0], [0]] } : DataSet E); regressionTreeNewPartitionNew s (exCfg 1)) =
    some .index := by decide +kernel

end Verif
