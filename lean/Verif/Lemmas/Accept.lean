import Verif.Spec.Accept
import Verif.Lemmas.Leaf
import Verif.Props.Reject
/-!
# Data sets with more labels than rows

The proofs of `Lemmas/Split.lean` with `≤` in place of `=` between the numbers of rows and labels.
-/

set_option linter.unusedSectionVars false

namespace Verif

variable {F : Type} [F64 F]

theorem DataSet.Tables.wf {d : DataSet F} {c t : Nat} (h : d.Tables c t) (hne : d.featureRows ≠ [])
    (hl : d.labels.length = d.featureRows.length) (hn : d.NoNaN) : d.WF c t :=
  ⟨hne, h.row_len, hl, h.label_len, h.cols, hn, h.cols_u32⟩

/-- at least one label per row -/
structure DataSet.Enough (d : DataSet F) (c t : Nat) : Prop where
  tables : d.Tables c t
  rows_ne : d.featureRows ≠ []
  label_count : d.featureRows.length ≤ d.labels.length
  no_nan : d.NoNaN

/-- the first labels, one for each row -/
def DataSet.cutLabels (d : DataSet F) : DataSet F := { d with labels := d.labels.take d.featureRows.length }

theorem DataSet.Enough.cut_wf {d : DataSet F} {c t : Nat} (h : d.Enough c t) : d.cutLabels.WF c t :=
  ⟨h.rows_ne, h.tables.row_len, by simp [DataSet.cutLabels, h.label_count], fun l hl => h.tables.label_len l (List.mem_of_mem_take hl),
    h.tables.cols, h.no_nan, h.tables.cols_u32⟩

theorem cut_examples (d : DataSet F) : d.cutLabels.examples = d.examples := by
  simp only [DataSet.cutLabels, DataSet.examples]
  generalize d.featureRows = rows
  generalize d.labels = labels
  induction rows generalizing labels with
  | nil => rfl
  | cons r rows ih => cases labels with
    | nil => rfl
    | cons l labels => simp [ih labels]

theorem cut_restrict (d : DataSet F) (c : Nat) (p : List F → Bool) : d.cutLabels.restrict c p = d.restrict c p := by
  simp only [DataSet.restrict, cut_examples]

theorem cut_partition (d : DataSet F) (q : Question F) : partition d.cutLabels q = partition d q := by
  have := cut_examples d
  simp only [DataSet.examples] at this
  simp only [partition, this]

theorem determineBestThreshold_enough {labels : List (List F)} {t : Nat}
    (hlab : ∀ l ∈ labels, l.length = t)
    {col : List F} (hne : col ≠ []) (hlen : col.length ≤ labels.length) (hnan : ∀ x ∈ col, isNaN x = false) :
    determineBestThreshold labels.length labels col (metricsOf labels t) t = .ok (colResult labels t col) := by
  have hsort : getSortedFeatureTupleVector col = .ok (sorted col.zipIdx) :=
    sortTuples_ok (fun p hp => hnan p.1 (List.fst_mem_of_mem_zipIdx hp))
  have hnew := determineBestThresholdNew_ok (n := labels.length) hlab (getLabelMetrics_ok hlab).2
    (sorted := sorted col.zipIdx)
    (by
      intro h
      have := (sorted_perm col.zipIdx).length_eq
      rw [h] at this
      simp only [List.length_nil, List.length_zipIdx] at this
      exact hne (List.eq_nil_of_length_eq_zero this.symm))
    (fun p hp => by
      have := List.snd_lt_of_mem_zipIdx ((sorted_perm _).mem_iff.mp hp)
      omega)
  unfold determineBestThreshold
  rw [hsort]
  exact hnew

theorem findBestSplit_enough {d : DataSet F} {c t : Nat} (h : d.Enough c t) :
    findBestSplit d t = .ok (splitOf d t) := by
  obtain ⟨hm, _⟩ := getLabelMetrics_ok h.tables.label_len
  obtain ⟨first, hf, hc⟩ := h.cut_wf.first
  change idx d.featureRows 0 = .ok first at hf
  unfold findBestSplit
  simp only [hm, R.ok_bind, getTotalVarianceSum_ok h.tables.label_len, hf, hc]
  have hres : d.featureColumns.mapM (fun featureColumn =>
      determineBestThreshold d.labels.length d.labels featureColumn (metricsOf d.labels t) t) =
      .ok (d.featureColumns.map (colResult d.labels t)) := by
    refine mapM_ok (fun col hcol => ?_)
    rw [h.tables.cols, columnsOf, List.mem_map] at hcol
    obtain ⟨j, hj, rfl⟩ := hcol
    rw [List.mem_range] at hj
    refine determineBestThreshold_enough h.tables.label_len ?_ (by rw [column_length]; exact h.label_count) (h.cut_wf.col_nan hj)
    have := h.rows_ne
    simpa [column] using this
  have hlen : (d.featureColumns.map (colResult d.labels t)).length = c := by
    simp [h.tables.cols, columnsOf]
  rw [hres]
  simp only [R.ok_bind, hlen, assertEq_self]
  have := selectBestColumn_ok (total := totalVariance d.labels t)
    (results := d.featureColumns.map (colResult d.labels t)) (by rw [hlen]; exact h.tables.cols_u32)
  rw [hlen] at this
  exact this

section
variable [LawfulOrder F]
open LawfulOrder

theorem splitOf_separates_enough {d : DataSet F} {c t : Nat} (h : d.Enough c t)
    (hg : ((splitOf d t).gain ==. F64.zero) = false) :
    (splitOf d t).question.column < c ∧
    (∃ row ∈ d.featureRows, satisfies (splitOf d t).question row = true) ∧
    (∃ row ∈ d.featureRows, satisfies (splitOf d t).question row = false) := by
  unfold splitOf at *
  rcases bestColumn_spec (totalVariance d.labels t) (d.featureColumns.map (colResult d.labels t)) with
    ⟨h1, _⟩ | ⟨i, r, h0, h1, h2, _, _⟩
  · rw [h1, zero_eq] at hg; simp at hg
  · rw [h1]
    rw [h.tables.cols, columnsOf] at h0
    simp only [List.map_map, List.getElem?_map, Option.map_eq_some_iff, Function.comp] at h0
    obtain ⟨j, hj, hr⟩ := h0
    have hic : i < c := by
      have := (List.getElem?_eq_some_iff.mp hj).1
      simpa using this
    have hij : j = i := by
      rw [List.getElem?_range hic] at hj; simpa using hj.symm
    subst hij
    have hnn : ∀ p ∈ (column d.featureRows j).zipIdx, NN p.1 := fun p hp =>
      nn_of_isNaN_false (h.cut_wf.col_nan hic p.1 (List.fst_mem_of_mem_zipIdx hp))
    rcases scanResult_cases d.labels.length t (metricsOf d.labels t) (seqOf d.labels (column d.featureRows j)) with
      hcase | ⟨hmem, hne⟩
    · exfalso
      unfold colResult at hr
      rw [hcase] at hr
      rw [← hr] at h2
      simp only [gainOf] at h2
      rw [LawfulOrder.sub_inf] at h2; simp at h2
    · have hr' : scanResult d.labels.length t (metricsOf d.labels t) (seqOf d.labels (column d.featureRows j)) = r := hr
      rw [hr'] at hmem hne
      have hfst : (seqOf d.labels (column d.featureRows j)).map Prod.fst =
          (sorted (column d.featureRows j).zipIdx).map Prod.fst := by
        simp [seqOf, Function.comp_def]
      rw [hfst] at hmem hne
      rw [List.mem_map] at hmem
      obtain ⟨p, hp, hpv⟩ := hmem
      have hpc := List.fst_mem_of_mem_zipIdx ((sorted_perm _).mem_iff.mp hp)
      obtain ⟨row, hrow, hrowv⟩ := mem_column h.tables.row_len hic hpc
      have hnnp : NN p.1 := hnn p ((sorted_perm _).mem_iff.mp hp)
      obtain ⟨m, hm⟩ : ∃ m, m ∈ sorted (column d.featureRows j).zipIdx ∧
          ((sorted (column d.featureRows j).zipIdx).map Prod.fst).headD F64.zero = m.1 := by
        cases hs : sorted (column d.featureRows j).zipIdx with
        | nil => rw [hs] at hp; simp at hp
        | cons a rest => exact ⟨a, by simp, rfl⟩
      have hle := sorted_head_le hnn hp
      rw [hm.2] at hle hne
      have hlt : (m.1 <. r.thresholdValue) = true := by
        rcases lt_or_eq hle with hlt | heq
        · rw [← hpv]; exact hlt
        · rw [← hpv, eq_symm' heq] at hne; simp at hne
      obtain ⟨row2, hrow2, hrow2v⟩ := mem_column h.tables.row_len hic
        (List.fst_mem_of_mem_zipIdx ((sorted_perm _).mem_iff.mp hm.1))
      refine ⟨hic, ⟨row, hrow, ?_⟩, ⟨row2, hrow2, ?_⟩⟩
      · simp only [satisfies, hrowv, hpv]
        rw [← hpv]; exact le_rfl' hnnp
      · simp only [satisfies, hrow2v]
        exact (lt_iff.mp hlt).2

/-- Building returns with surplus labels as well. -/
theorem buildFuel_enough {L : Type} {leafR : DataSet F → R L} {c t : Nat}
    (hleaf : ∀ d : DataSet F, d.labels ≠ [] → (∀ l ∈ d.labels, l.length = t) → ∃ l, leafR d = .ok l) (m : Nat) {d : DataSet F}
    (h : d.Enough c t) : ∃ tree, buildFuel leafR t m d = .ok tree := by
  have hne : d.labels ≠ [] := by
    have h1 := List.length_pos_of_ne_nil h.rows_ne
    have h2 := h.label_count
    exact List.ne_nil_of_length_pos (by omega)
  obtain ⟨l, hl⟩ := hleaf d hne h.tables.label_len
  have hex : ∀ e : DataSet F, ∃ l, e.WF c t → leafR e = .ok l := by
    intro e
    by_cases he : e.WF c t
    · obtain ⟨l, hl⟩ := hleaf e he.labels_ne he.label_len
      exact ⟨l, fun _ => hl⟩
    · exact ⟨l, fun h => absurd h he⟩
  choose leafOf hleafOf using hex
  have hf := findBestSplit_enough h
  cases m with
  | zero => exact ⟨_, by simp [buildFuel, hf, hl]; rfl⟩
  | succ m =>
    cases hg : ((splitOf d t).gain ==. F64.zero) with
    | true => exact ⟨_, by simp [buildFuel, hf, hl, hg]; rfl⟩
    | false =>
      obtain ⟨hc, ht, hfa⟩ := splitOf_separates_enough h hg
      have hp := partition_ok h.cut_wf hc ht hfa
      rw [cut_partition, cut_restrict, cut_restrict] at hp
      have h1 := buildFuel_ok hleafOf m (restrict_wf h.cut_wf ht)
      obtain ⟨row, hrow, hs⟩ := hfa
      have h2 := buildFuel_ok hleafOf m (restrict_wf h.cut_wf (p := fun r => !satisfies (splitOf d t).question r) ⟨row, hrow, by simp [hs]⟩)
      rw [cut_restrict] at h1 h2
      exact ⟨_, by simp [buildFuel, hf, hg, hp, h1, h2]; rfl⟩

end

/-! ## What a successful split search tells -/

theorem foldlM_each {α σ : Type} {f : σ → α → R σ} {l : List α} {s s' : σ} (h : l.foldlM f s = .ok s') {x : α} (hx : x ∈ l) :
    ∃ a b, f a x = .ok b := by
  induction l generalizing s with
  | nil => cases hx
  | cons y l ih =>
    rw [foldlM_cons_R, R.bind_eq_ok] at h
    obtain ⟨s1, h1, h2⟩ := h
    rcases List.mem_cons.mp hx with rfl | hx
    · exact ⟨s, s1, h1⟩
    · exact ih h2 hx

theorem scanStep_label {labels : List (List F)} {prev : F} {t : Nat} {a b : ScanState F} {p : F × Nat}
    (h : scanStep labels prev t a p = .ok b) : p.2 < labels.length := by
  rw [scanStep] at h
  dsimp only at h
  have : ∃ lv, idx labels p.2 = .ok lv := by
    split at h
    · simp only [R.bind_eq_ok] at h
      obtain ⟨st, _, lv, h7, _⟩ := h
      exact ⟨lv, h7⟩
    · simp only [R.bind_eq_ok] at h
      obtain ⟨st, _, lv, h7, _⟩ := h
      exact ⟨lv, h7⟩
  obtain ⟨lv, hlv⟩ := this
  rw [idx_eq_ok] at hlv
  exact (List.getElem?_eq_some_iff.mp hlv).1

theorem findBestSplit_labels {d : DataSet F} {t : Nat} {s : BestSplitResult F} (h : findBestSplit d t = .ok s) :
    d.featureRows ≠ [] ∧ ∀ col ∈ d.featureColumns, col.length ≤ d.labels.length := by
  simp only [findBestSplit, R.bind_eq_ok] at h
  obtain ⟨total, h1, _, _, first, hfirst, results, h2, _⟩ := h
  refine ⟨?_, ?_⟩
  · rintro h0
    rw [h0] at hfirst
    cases hfirst
  intro col hcol
  obtain ⟨i, hi⟩ := List.getElem?_of_mem hcol
  obtain ⟨b, _, h3⟩ := mapM_get h2 hi
  simp only [determineBestThreshold, R.bind_eq_ok] at h3
  obtain ⟨srt, hs, p0, h4, final, h5, _⟩ := h3
  have hsrt : srt = sorted col.zipIdx := by
    rw [getSortedFeatureTupleVector, sortTuples] at hs
    split at hs
    · cases hs
    · exact (Except.ok.inj hs).symm
  rcases Nat.eq_zero_or_pos col.length with h0 | h0
  · omega
  · have hmem : (col[col.length - 1]'(by omega), col.length - 1) ∈ sorted col.zipIdx := by
      rw [(sorted_perm _).mem_iff, List.mem_iff_getElem?]
      exact ⟨col.length - 1, by simp [show col.length - 1 < col.length by omega]⟩
    rw [hsrt] at h5
    obtain ⟨a, b, hab⟩ := foldlM_each h5 hmem
    have := scanStep_label hab
    simp only at this
    omega

end Verif
