import Mathlib.Data.List.Induction
import Verif.Lemmas.Scan
import Verif.Lemmas.Order
/-! # The split finder and the partitioner on well-formed data -/

namespace Verif

variable {F : Type} [F64 F]

/-! ## Columns -/

theorem getD_of_lt {α : Type} {l : List α} {i : Nat} {d : α} (h : i < l.length) : l.getD i d = l[i] := by
  simp [List.getD, h]

theorem createFeatureColumns_ok {rows : List (List F)} {c : Nat} (hne : rows ≠ [])
    (hlen : ∀ row ∈ rows, row.length = c) : createFeatureColumns rows = .ok (columnsOf rows c) := by
  cases rows with
  | nil => exact absurd rfl hne
  | cons first rest =>
    unfold createFeatureColumns
    simp only [idx_cons_zero, R.ok_bind, hlen first (by simp)]
    refine mapM_ok (fun j hj => ?_)
    rw [List.mem_range] at hj
    have : column (first :: rest) j =
        (List.range (first :: rest).length).map (fun i => ((first :: rest).getD i []).getD j F64.zero) := by
      apply List.ext_getElem
      · simp [column]
      · intro i h1 h2
        simp only [column, List.length_map] at h1
        simp only [column, List.getElem_map, List.getElem_range]
        rw [getD_of_lt h1]
    rw [this]
    refine mapM_ok (fun i hi => ?_)
    rw [List.mem_range] at hi
    rw [idx_lt hi]
    simp only [R.ok_bind]
    have hrow : ((first :: rest)[i]).length = c := hlen _ (List.getElem_mem hi)
    rw [idx_lt (by omega), getD_of_lt hi, getD_of_lt (by omega)]

omit [F64 F] in
theorem createFeatureColumns_nil : createFeatureColumns ([] : List (List F)) = .error .index := rfl

/-! ## The split finder -/

/-- The (value, label) sequence scanned for a column. -/
def seqOf (labels : List (List F)) (col : List F) : List (F × List F) :=
  (sorted col.zipIdx).map (fun p => (p.1, labels.getD p.2 []))

/-- The result for one column. -/
def colResult (labels : List (List F)) (t : Nat) (col : List F) : BestThresholdResult F :=
  scanResult labels.length t (metricsOf labels t) (seqOf labels col)

/-- `find_best_split` without panics. -/
def splitOf (d : DataSet F) (t : Nat) : BestSplitResult F :=
  bestColumn (totalVariance d.labels t) (d.featureColumns.map (colResult d.labels t))

theorem determineBestThreshold_ok {labels : List (List F)} {t : Nat}
    (hlab : ∀ l ∈ labels, l.length = t)
    {col : List F} (hne : col ≠ []) (hlen : col.length = labels.length) (hnan : ∀ x ∈ col, isNaN x = false) :
    determineBestThreshold labels.length labels col (metricsOf labels t) t = .ok (colResult labels t col) := by
  have hsort : getSortedFeatureTupleVector col = .ok (sorted col.zipIdx) :=
    sortTuples_ok (fun p hp => hnan p.1 (by
      have := List.fst_mem_of_mem_zipIdx hp
      exact this))
  have hnew := determineBestThresholdNew_ok (n := labels.length) hlab (getLabelMetrics_ok hlab).2
    (sorted := sorted col.zipIdx)
    (by
      intro h
      have := (sorted_perm col.zipIdx).length_eq
      rw [h] at this
      simp only [List.length_nil, List.length_zipIdx] at this
      exact hne (List.eq_nil_of_length_eq_zero this.symm))
    (fun p hp => by
      have := List.snd_lt_of_mem_zipIdx ((sorted_perm _).mem_iff.mp hp)
      simpa [hlen] using this)
  unfold determineBestThreshold
  rw [hsort]
  exact hnew

theorem column_length {rows : List (List F)} {j : Nat} : (column rows j).length = rows.length := by
  simp [column]

theorem mem_column {rows : List (List F)} {c j : Nat} (hlen : ∀ row ∈ rows, row.length = c) (hj : j < c) {x : F}
    (hx : x ∈ column rows j) : ∃ row ∈ rows, row[j]? = some x := by
  simp only [column, List.mem_map] at hx
  obtain ⟨row, hrow, rfl⟩ := hx
  refine ⟨row, hrow, ?_⟩
  have := hlen row hrow
  simp [List.getD, show j < row.length by omega]

theorem DataSet.WF.col_nan {d : DataSet F} {c t : Nat} (h : d.WF c t) {j : Nat} (hj : j < c) :
    ∀ x ∈ column d.featureRows j, isNaN x = false := by
  intro x hx
  obtain ⟨row, hrow, hx⟩ := mem_column h.row_len hj hx
  exact h.no_nan row hrow x (List.mem_of_getElem? hx)

theorem DataSet.WF.first {d : DataSet F} {c t : Nat} (h : d.WF c t) :
    ∃ first, idx d.featureRows 0 = .ok first ∧ first.length = c := by
  cases hr : d.featureRows with
  | nil => exact absurd hr h.rows_ne
  | cons first rest => exact ⟨first, rfl, h.row_len first (by simp [hr])⟩

theorem findBestSplit_ok {d : DataSet F} {c t : Nat} (h : d.WF c t) :
    findBestSplit d t = .ok (splitOf d t) := by
  obtain ⟨hm, _⟩ := getLabelMetrics_ok h.label_len
  obtain ⟨first, hf, hc⟩ := h.first
  unfold findBestSplit
  simp only [hm, R.ok_bind, getTotalVarianceSum_ok h.label_len, hf, hc]
  have hres : d.featureColumns.mapM (fun featureColumn =>
      determineBestThreshold d.labels.length d.labels featureColumn (metricsOf d.labels t) t) =
      .ok (d.featureColumns.map (colResult d.labels t)) := by
    refine mapM_ok (fun col hcol => ?_)
    rw [h.cols, columnsOf, List.mem_map] at hcol
    obtain ⟨j, hj, rfl⟩ := hcol
    rw [List.mem_range] at hj
    refine determineBestThreshold_ok h.label_len ?_ (by rw [column_length, h.label_count]) (h.col_nan hj)
    have := h.rows_ne
    simpa [column] using this
  have hlen : (d.featureColumns.map (colResult d.labels t)).length = c := by
    simp [h.cols, columnsOf]
  rw [hres]
  simp only [R.ok_bind, hlen, assertEq_self]
  have := selectBestColumn_ok (total := totalVariance d.labels t)
    (results := d.featureColumns.map (colResult d.labels t)) (by rw [hlen]; exact h.cols_u32)
  rw [hlen] at this
  exact this

/-! ## What the scan can return -/

theorem foldl_pickBest_mem {l : List (BestThresholdResult F)} {b : BestThresholdResult F} :
    l.foldl pickBest b = b ∨ (l.foldl pickBest b ∈ l) := by
  induction l generalizing b with
  | nil => exact .inl rfl
  | cons c rest ih =>
    rw [List.foldl_cons]
    rcases ih (b := pickBest b c) with h | h
    · rw [h]
      unfold pickBest
      split
      · exact .inr (by simp)
      · exact .inl rfl
    · exact .inr (by simp [h])

theorem cands_mem {prev : F} {l r : Tracker F} {seq : List (F × List F)} {b : BestThresholdResult F}
    (h : b ∈ cands prev l r seq) :
    b.thresholdValue ∈ seq.map Prod.fst ∧ (b.thresholdValue ==. prev) = false := by
  induction seq generalizing l r with
  | nil => simp [cands] at h
  | cons p rest ih =>
    obtain ⟨v, lab⟩ := p
    rw [cands, List.mem_append] at h
    rcases h with h | h
    · split at h
      · next hv =>
        simp only [List.mem_singleton] at h
        subst h
        simpa using hv
      · simp at h
    · have := ih h
      simp only [List.map_cons, List.mem_cons]
      exact ⟨.inr this.1, this.2⟩

/-- The result of a scan is either the initial container or a value of the column that differs from the smallest one. -/
theorem scanResult_cases (n t : Nat) (total : LabelMetrics F) (seq : List (F × List F)) :
    scanResult n t total seq = { loss := F64.infinity, thresholdValue := F64.zero } ∨
    ((scanResult n t total seq).thresholdValue ∈ seq.map Prod.fst ∧
      ((scanResult n t total seq).thresholdValue ==. (seq.map Prod.fst).headD F64.zero) = false) := by
  unfold scanResult
  rcases foldl_pickBest_mem (l := cands ((seq.map Prod.fst).headD F64.zero) (leftStart t) (rightStart n total) seq)
    (b := { loss := F64.infinity, thresholdValue := F64.zero }) with h | h
  · exact .inl h
  · exact .inr (cands_mem h)

/-! ## What the column selection can return -/

section
variable [LawfulOrder F]
open LawfulOrder

/-- gain of a column result -/
abbrev gainOf (total : F) (r : BestThresholdResult F) : F := total -. r.loss

/-- The selected column: the placeholder when no gain is positive, else the first column with the largest gain. -/
theorem bestColumn_spec (total : F) (results : List (BestThresholdResult F)) :
    (bestColumn total results = { gain := F64.zero, question := { column := 0, value := F64.zero } } ∧
      ∀ r ∈ results, (F64.zero <. gainOf total r) = false) ∨
    ∃ i r, results[i]? = some r ∧
      bestColumn total results =
        { gain := gainOf total r, question := { column := i, value := r.thresholdValue } } ∧
      (F64.zero <. gainOf total r) = true ∧
      (∀ r' ∈ results, (gainOf total r <. gainOf total r') = false) ∧
      (∀ k r', k < i → results[k]? = some r' → (gainOf total r <=. gainOf total r') = false) := by
  unfold bestColumn
  induction results using List.reverseRecOn with
  | nil => exact .inl ⟨rfl, by simp⟩
  | append_singleton results r ih =>
    rw [List.zipIdx_append, List.foldl_append]
    simp only [List.zipIdx_cons, List.zipIdx_nil, List.foldl_cons, List.foldl_nil, Nat.zero_add]
    rcases ih with ⟨h1, h2⟩ | ⟨i, r0, h0, h1, h2, h3, h4⟩
    · rw [h1]
      by_cases hg : (F64.zero <. gainOf total r) = true
      · refine .inr ⟨results.length, r, by simp, ?_, hg, ?_, ?_⟩
        · simp [pickColumn, hg]
        · intro r' hr'
          rcases List.mem_append.mp hr' with h | h
          · have := h2 r' h
            cases hlt : (gainOf total r <. gainOf total r') with
            | false => rfl
            | true => rw [lt_trans' hg hlt] at this; simp at this
          · simp only [List.mem_singleton] at h; subst h; exact lt_irrefl'
        · intro k r' hk hr'
          rw [List.getElem?_append_left hk] at hr'
          have := h2 r' (List.mem_of_getElem? hr')
          cases hle : (gainOf total r <=. gainOf total r') with
          | false => rfl
          | true => rw [lt_of_lt_of_le hg hle] at this; simp at this
      · refine .inl ⟨by simp [pickColumn, hg], ?_⟩
        intro r' hr'
        rcases List.mem_append.mp hr' with h | h
        · exact h2 r' h
        · simp only [List.mem_singleton] at h; subst h; simpa using hg
    · rw [h1]
      have hi : i < results.length := (List.getElem?_eq_some_iff.mp h0).1
      by_cases hg : (gainOf total r0 <. gainOf total r) = true
      · refine .inr ⟨results.length, r, by simp, ?_, lt_trans' h2 hg, ?_, ?_⟩
        · simp [pickColumn, hg]
        · intro r' hr'
          rcases List.mem_append.mp hr' with h | h
          · have := h3 r' h
            cases hlt : (gainOf total r <. gainOf total r') with
            | false => rfl
            | true => rw [lt_trans' hg hlt] at this; simp at this
          · simp only [List.mem_singleton] at h; subst h; exact lt_irrefl'
        · intro k r' hk hr'
          rw [List.getElem?_append_left hk] at hr'
          have := h3 r' (List.mem_of_getElem? hr')
          cases hle : (gainOf total r <=. gainOf total r') with
          | false => rfl
          | true => rw [lt_of_lt_of_le hg hle] at this; simp at this
      · refine .inr ⟨i, r0, by rw [List.getElem?_append_left hi, h0], by simp [pickColumn, hg], h2, ?_, ?_⟩
        · intro r' hr'
          rcases List.mem_append.mp hr' with h | h
          · exact h3 r' h
          · simp only [List.mem_singleton] at h; subst h; simpa using hg
        · intro k r' hk hr'
          rw [List.getElem?_append_left (by omega)] at hr'
          exact h4 k r' hk hr'

theorem sorted_head_le {v : List (F × Nat)} (h : ∀ p ∈ v, NN p.1) {p : F × Nat} (hp : p ∈ sorted v) :
    (((sorted v).map Prod.fst).headD F64.zero <=. p.1) = true := by
  have hs := sorted_pairwise h
  cases hv : sorted v with
  | nil => rw [hv] at hp; simp at hp
  | cons a rest =>
    rw [hv] at hp hs
    simp only [List.map_cons, List.headD_cons]
    rcases List.mem_cons.mp hp with rfl | hp
    · exact le_rfl' (h p ((sorted_perm v).mem_iff.mp (by simp [hv])))
    · exact tupleLe_le ((List.pairwise_cons.mp hs).1 p hp)

/-- A selected split has a row on each side. -/
theorem splitOf_separates {d : DataSet F} {c t : Nat} (h : d.WF c t)
    (hg : ((splitOf d t).gain ==. F64.zero) = false) :
    (F64.zero <. (splitOf d t).gain) = true ∧ (splitOf d t).question.column < c ∧
    (∃ row ∈ d.featureRows, row[(splitOf d t).question.column]? = some (splitOf d t).question.value) ∧
    (∃ row ∈ d.featureRows, satisfies (splitOf d t).question row = true) ∧
    (∃ row ∈ d.featureRows, satisfies (splitOf d t).question row = false) := by
  unfold splitOf at *
  rcases bestColumn_spec (totalVariance d.labels t) (d.featureColumns.map (colResult d.labels t)) with
    ⟨h1, _⟩ | ⟨i, r, h0, h1, h2, _, _⟩
  · rw [h1, zero_eq] at hg; simp at hg
  · rw [h1]
    rw [h.cols, columnsOf] at h0
    simp only [List.map_map, List.getElem?_map, Option.map_eq_some_iff, Function.comp] at h0
    obtain ⟨j, hj, hr⟩ := h0
    have hic : i < c := by
      have := (List.getElem?_eq_some_iff.mp hj).1
      simpa using this
    have hij : j = i := by
      rw [List.getElem?_range hic] at hj; simpa using hj.symm
    subst hij
    have hnn : ∀ p ∈ (column d.featureRows j).zipIdx, NN p.1 := fun p hp =>
      nn_of_isNaN_false (h.col_nan hic p.1 (List.fst_mem_of_mem_zipIdx hp))
    rcases scanResult_cases d.labels.length t (metricsOf d.labels t) (seqOf d.labels (column d.featureRows j)) with
      hcase | ⟨hmem, hne⟩
    · exfalso
      unfold colResult at hr
      rw [hcase] at hr
      rw [← hr] at h2
      simp only [gainOf] at h2
      rw [LawfulOrder.sub_inf] at h2; simp at h2
    · have hr' : scanResult d.labels.length t (metricsOf d.labels t) (seqOf d.labels (column d.featureRows j)) = r := hr
      rw [hr'] at hmem hne
      have hfst : (seqOf d.labels (column d.featureRows j)).map Prod.fst =
          (sorted (column d.featureRows j).zipIdx).map Prod.fst := by
        simp [seqOf, Function.comp_def]
      rw [hfst] at hmem hne
      rw [List.mem_map] at hmem
      obtain ⟨p, hp, hpv⟩ := hmem
      have hpc := List.fst_mem_of_mem_zipIdx ((sorted_perm _).mem_iff.mp hp)
      obtain ⟨row, hrow, hrowv⟩ := mem_column h.row_len hic hpc
      have hnnp : NN p.1 := hnn p ((sorted_perm _).mem_iff.mp hp)
      -- the smallest value
      obtain ⟨m, hm⟩ : ∃ m, m ∈ sorted (column d.featureRows j).zipIdx ∧
          ((sorted (column d.featureRows j).zipIdx).map Prod.fst).headD F64.zero = m.1 := by
        cases hs : sorted (column d.featureRows j).zipIdx with
        | nil => rw [hs] at hp; simp at hp
        | cons a rest => exact ⟨a, by simp, rfl⟩
      have hle := sorted_head_le hnn hp
      rw [hm.2] at hle hne
      have hlt : (m.1 <. r.thresholdValue) = true := by
        rcases lt_or_eq hle with hlt | heq
        · rw [← hpv]; exact hlt
        · rw [← hpv, eq_symm' heq] at hne; simp at hne
      obtain ⟨row2, hrow2, hrow2v⟩ := mem_column h.row_len hic
        (List.fst_mem_of_mem_zipIdx ((sorted_perm _).mem_iff.mp hm.1))
      refine ⟨h2, hic, ⟨row, hrow, by rw [hrowv, hpv]⟩, ⟨row, hrow, ?_⟩, ⟨row2, hrow2, ?_⟩⟩
      · simp only [satisfies, hrowv, hpv]
        rw [← hpv]; exact le_rfl' hnnp
      · simp only [satisfies, hrow2v]
        exact (lt_iff.mp hlt).2

end

/-! ## The partitioner -/

/-- The examples of `d` whose row satisfies `p`, as a data set with `c` columns. -/
def DataSet.restrict (d : DataSet F) (c : Nat) (p : List F → Bool) : DataSet F :=
  { featureRows := (d.examples.filter (fun e => p e.1)).map Prod.fst
    labels := (d.examples.filter (fun e => p e.1)).map Prod.snd
    featureColumns := columnsOf ((d.examples.filter (fun e => p e.1)).map Prod.fst) c }

theorem solve_eq {q : Question F} {row : List F} (h : q.column < row.length) :
    q.solve row = .ok (satisfies q row) := by
  simp [Question.solve, satisfies, idx_lt h, h]

omit [F64 F] in
theorem examples_fst_mem {d : DataSet F} {e : List F × List F} (h : e ∈ d.examples) : e.1 ∈ d.featureRows :=
  (List.of_mem_zip h).1

omit [F64 F] in
theorem examples_snd_mem {d : DataSet F} {e : List F × List F} (h : e ∈ d.examples) : e.2 ∈ d.labels :=
  (List.of_mem_zip h).2

theorem restrict_examples {d : DataSet F} {c : Nat} {p : List F → Bool} :
    (d.restrict c p).examples = d.examples.filter (fun e => p e.1) := by
  simp only [DataSet.restrict, DataSet.examples]
  exact (List.zip_of_prod rfl rfl).symm

theorem partition_loop {q : Question F} (l : List (List F × List F))
    (h : ∀ e ∈ l, q.column < e.1.length) (acc : PartitionAcc F) :
    l.foldlM (fun (acc : PartitionAcc F) p => do
      if ← q.solve p.1 then
        pure { acc with trueRows := acc.trueRows ++ [p.1], trueLabels := acc.trueLabels ++ [p.2] }
      else
        pure { acc with falseRows := acc.falseRows ++ [p.1], falseLabels := acc.falseLabels ++ [p.2] }) acc =
    (.ok { trueRows := acc.trueRows ++ (l.filter (fun e => satisfies q e.1)).map Prod.fst
           falseRows := acc.falseRows ++ (l.filter (fun e => !satisfies q e.1)).map Prod.fst
           trueLabels := acc.trueLabels ++ (l.filter (fun e => satisfies q e.1)).map Prod.snd
           falseLabels := acc.falseLabels ++ (l.filter (fun e => !satisfies q e.1)).map Prod.snd } : R (PartitionAcc F)) := by
  induction l generalizing acc with
  | nil => simp
  | cons e rest ih =>
    rw [foldlM_cons_R, solve_eq (h e (by simp))]
    simp only [R.ok_bind]
    by_cases hs : satisfies q e.1 = true
    · rw [if_pos hs]
      refine (ih (fun e he => h e (by simp [he])) _).trans ?_
      simp [hs]
    · rw [if_neg hs]
      refine (ih (fun e he => h e (by simp [he])) _).trans ?_
      simp [hs]

theorem partition_ok {d : DataSet F} {c t : Nat} (h : d.WF c t) {q : Question F} (hq : q.column < c)
    (ht : ∃ row ∈ d.featureRows, satisfies q row = true) (hf : ∃ row ∈ d.featureRows, satisfies q row = false) :
    partition d q = .ok (d.restrict c (fun r => !satisfies q r), d.restrict c (satisfies q)) := by
  have hlen : ∀ e ∈ d.examples, e.1.length = c := fun e he => h.row_len _ (examples_fst_mem he)
  have hex : ∀ row ∈ d.featureRows, ∃ e ∈ d.examples, e.1 = row := by
    intro row hrow
    obtain ⟨i, hi⟩ := List.getElem?_of_mem hrow
    have hi' : i < d.labels.length := by
      have := (List.getElem?_eq_some_iff.mp hi).1
      rw [h.label_count]; exact this
    refine ⟨(row, d.labels[i]), ?_, rfl⟩
    have : d.examples[i]? = some (row, d.labels[i]) := by
      simp [DataSet.examples, List.getElem?_zip_eq_some, hi, hi']
    exact List.mem_of_getElem? this
  unfold partition
  rw [show d.featureRows.zip d.labels = d.examples from rfl,
    partition_loop d.examples (fun e he => by rw [hlen e he]; exact hq)]
  simp only [List.nil_append, R.ok_bind]
  rw [createFeatureColumns_ok (c := c) (by
      obtain ⟨row, hrow, hs⟩ := hf
      obtain ⟨e, he, rfl⟩ := hex row hrow
      intro hnil
      have : e ∈ d.examples.filter (fun e => !satisfies q e.1) := by simp [he, hs]
      rw [List.map_eq_nil_iff] at hnil
      rw [hnil] at this; simp at this)
    (by
      intro row hrow
      simp only [List.mem_map, List.mem_filter] at hrow
      obtain ⟨e, ⟨he, _⟩, rfl⟩ := hrow
      exact hlen e he),
    createFeatureColumns_ok (c := c) (by
      obtain ⟨row, hrow, hs⟩ := ht
      obtain ⟨e, he, rfl⟩ := hex row hrow
      intro hnil
      have : e ∈ d.examples.filter (fun e => satisfies q e.1) := by simp [he, hs]
      rw [List.map_eq_nil_iff] at hnil
      rw [hnil] at this; simp at this)
    (by
      intro row hrow
      simp only [List.mem_map, List.mem_filter] at hrow
      obtain ⟨e, ⟨he, _⟩, rfl⟩ := hrow
      exact hlen e he)]
  rfl

theorem restrict_wf {d : DataSet F} {c t : Nat} (h : d.WF c t) {p : List F → Bool}
    (hne : ∃ row ∈ d.featureRows, p row = true) : (d.restrict c p).WF c t := by
  refine ⟨?_, ?_, ?_, ?_, rfl, ?_, h.cols_u32⟩
  · obtain ⟨row, hrow, hs⟩ := hne
    obtain ⟨i, hi⟩ := List.getElem?_of_mem hrow
    have hi' : i < d.labels.length := by
      have := (List.getElem?_eq_some_iff.mp hi).1
      rw [h.label_count]; exact this
    have : (row, d.labels[i]) ∈ d.examples := by
      have : d.examples[i]? = some (row, d.labels[i]) := by
        simp [DataSet.examples, List.getElem?_zip_eq_some, hi, hi']
      exact List.mem_of_getElem? this
    intro hnil
    simp only [DataSet.restrict, List.map_eq_nil_iff] at hnil
    have h2 : (row, d.labels[i]) ∈ d.examples.filter (fun e => p e.1) := by simp [this, hs]
    rw [hnil] at h2; simp at h2
  · intro row hrow
    simp only [DataSet.restrict, List.mem_map, List.mem_filter] at hrow
    obtain ⟨e, ⟨he, _⟩, rfl⟩ := hrow
    exact h.row_len _ (examples_fst_mem he)
  · simp [DataSet.restrict]
  · intro l hl
    simp only [DataSet.restrict, List.mem_map, List.mem_filter] at hl
    obtain ⟨e, ⟨he, _⟩, rfl⟩ := hl
    exact h.label_len _ (examples_snd_mem he)
  · intro row hrow
    simp only [DataSet.restrict, List.mem_map, List.mem_filter] at hrow
    obtain ⟨e, ⟨he, _⟩, rfl⟩ := hrow
    exact h.no_nan _ (examples_fst_mem he)

end Verif
