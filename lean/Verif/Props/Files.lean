import Verif.Spec.Files
import Verif.Props.Data
import Verif.Props.Print
/-!
# C50: what the file readers accept and return
-/

set_option linter.unusedSectionVars false

namespace Verif

variable {F : Type} [F64 F]

open Sample

theorem record_mapM_iff {parse : String → Option F} {record : List String} {vals : List F} :
    record.mapM (fun field => match parse field with
      | some x => (.ok x : R F)
      | none => .error .unwrapErr) = .ok vals ↔ record.map parse = vals.map some := by
  rw [mapM_eq_ok]
  constructor
  · intro h
    induction h with
    | nil => rfl
    | cons hx _ ih =>
      simp only [List.map_cons, List.cons.injEq]
      refine ⟨?_, ih⟩
      split at hx
      · next hp => cases hx; exact hp
      · cases hx
  · intro h
    induction record generalizing vals with
    | nil => cases vals with
      | nil => exact .nil
      | cons v vs => simp at h
    | cons r rs ih => cases vals with
      | nil => simp at h
      | cons v vs =>
        simp only [List.map_cons, List.cons.injEq] at h
        exact .cons (by simp [h.1]) (ih h.2)

theorem readData_iff {parse : String → Option F} {file : Option CsvRecords} {values : List (List F)} :
    readData parse file = .ok values ↔ HoldsRecords parse file values := by
  refine ⟨readData_inv, ?_⟩
  rintro (⟨rfl, rfl⟩ | ⟨header, records, rfl, h⟩)
  · rfl
  · rw [readData, mapM_eq_ok]
    refine h.imp ?_
    rintro record vals ⟨h1, h2⟩
    rw [if_pos h1]
    exact record_mapM_iff.mpr h2

/-- **C50**.  A file is either readable, with determined numeric content, or there is something wrong with it. -/
theorem C50_readable_iff (parse : String → Option F) (file : Option CsvRecords) :
    (∃ values, HoldsRecords parse file values) ↔ ¬ Unreadable parse file := by
  constructor
  · rintro ⟨values, ⟨rfl, rfl⟩ | ⟨header, records, rfl, h⟩⟩ (h0 | ⟨header', records', h0, record, hr, hbad⟩)
    · cases h0
    · simp at h0
    · cases h0
    · simp only [Option.some.injEq, List.cons.injEq] at h0
      obtain ⟨rfl, rfl⟩ := h0
      obtain ⟨i, hi⟩ := List.getElem?_of_mem hr
      obtain ⟨vals, _, h1, h2⟩ := forall₂_get h hi
      rcases hbad with hbad | ⟨field, hf, hp⟩
      · exact hbad h1
      · have : (none : Option F) ∈ record.map parse := List.mem_map.mpr ⟨field, hf, hp⟩
        rw [h2] at this
        simp at this
  · intro h
    rcases file with _ | (_ | ⟨header, records⟩)
    · exact absurd (.inl rfl) h
    · exact ⟨[], .inl ⟨rfl, rfl⟩⟩
    · refine ⟨records.map (fun r => r.filterMap parse), .inr ⟨header, records, rfl, ?_⟩⟩
      have hgood : ∀ record ∈ records, record.length = header.length ∧ ∀ field ∈ record, parse field ≠ none := by
        intro record hr
        refine ⟨?_, fun field hf hp => h (.inr ⟨header, records, rfl, record, hr, .inr ⟨field, hf, hp⟩⟩)⟩
        by_contra hlen
        exact h (.inr ⟨header, records, rfl, record, hr, .inl hlen⟩)
      clear h
      induction records with
      | nil => exact .nil
      | cons r rs ih =>
        refine .cons ⟨(hgood r (by simp)).1, ?_⟩ (ih (fun x hx => hgood x (by simp [hx])))
        have hr := (hgood r (by simp)).2
        clear hgood ih
        induction r with
        | nil => rfl
        | cons x xs ih =>
          obtain ⟨y, hy⟩ := Option.ne_none_iff_exists'.mp (hr x (by simp))
          simp [hy, ih (fun z hz => hr z (by simp [hz]))]

/-- **C50**.  The content of a file is unique. -/
theorem C50_content_unique (parse : String → Option F) (file : Option CsvRecords) (v w : List (List F))
    (hv : HoldsRecords parse file v) (hw : HoldsRecords parse file w) : v = w := by
  have h1 := readData_iff.mpr hv
  rw [readData_iff.mpr hw] at h1
  exact (Except.ok.inj h1).symm

/-- **C50**.  `read_csv_data` returns exactly on readable files whose records (if any) are not empty; the last field of each record is
the label, the fields before it the features. -/
theorem C50_single_target (parse : String → Option F) (file : Option CsvRecords) (s : SingleTargetDataSet F) :
    readCsvData parse file = .ok s ↔ ∃ values, HoldsRecords parse file values ∧ [] ∉ values ∧
      s = { features := values.map List.dropLast, labels := values.map (fun v => v.getLastD F64.zero) } := by
  simp only [readCsvData, R.bind_eq_ok, readData_iff]
  refine exists_congr (fun values => and_congr_right (fun _ => ?_))
  rw [parseDataIntoFeaturesAndLabels, parse_fold]
  by_cases h0 : [] ∈ values
  · simp [h0]
  · simp only [h0, if_false, List.nil_append, Except.ok.injEq, not_false_eq_true, true_and]
    exact eq_comm

theorem createFeatureColumns_iff {rows cols : List (List F)} :
    createFeatureColumns rows = .ok cols ↔ rows ≠ [] ∧ (∀ row ∈ rows, (rows.headD []).length ≤ row.length) ∧
      cols = columnsOf rows (rows.headD []).length := by
  constructor
  · intro h
    obtain ⟨first, rest, rfl, h1, h2⟩ := createFeatureColumns_inv h
    exact ⟨by simp, by simpa using h1, by simpa using h2⟩
  · rintro ⟨h0, h1, rfl⟩
    by_cases he : ∃ e, createFeatureColumns rows = .error e
    · rcases (C01_panics_iff rows).mp he with h | ⟨first, row, hf, hr, hlt⟩
      · exact absurd h h0
      · have := h1 row hr
        rw [List.headD_eq_head?_getD, hf] at this
        simp at this
        omega
    · rcases R.ok_or_error (createFeatureColumns rows) with ⟨cols, hc⟩ | h
      · obtain ⟨first, rest, rfl, _, h2⟩ := createFeatureColumns_inv hc
        rw [hc, h2]
        rfl
      · exact absurd h he

theorem holds_width {parse : String → Option F} {file : Option CsvRecords} {values : List (List F)}
    (h : HoldsRecords parse file values) : ∀ row ∈ values, row.length = (values.headD []).length := by
  rcases h with ⟨_, rfl⟩ | ⟨header, records, _, h⟩
  · simp
  · have hlen : ∀ vals ∈ values, vals.length = header.length := by
      intro vals hvals
      obtain ⟨record, _, h1, h2⟩ := forall₂_mem_right h hvals
      have := congrArg List.length h2
      simp at this
      omega
    intro row hrow
    cases values with
    | nil => cases hrow
    | cons v vs => rw [hlen row hrow, List.headD_cons, hlen v (by simp)]

/-- **C50**.  `read_csv_data_one_hot_multi_target` returns exactly on readable files with at least one record, no empty record, and
last fields that truncate to a class below `n`; the result is determined by the numbers in the file. -/
theorem C50_one_hot (parse : String → Option F) (file : Option CsvRecords) (n : Nat) (d : DataSet F) :
    readCsvDataOneHotMultiTarget parse file n = .ok d ↔ ∃ values, HoldsRecords parse file values ∧ values ≠ [] ∧ [] ∉ values ∧
      (∀ v ∈ values, F64.toUsize (v.getLastD F64.zero) < n) ∧
      d.featureRows = values.map List.dropLast ∧
      d.labels = values.map (fun v => oneHot n (F64.toUsize (v.getLastD F64.zero))) ∧
      d.featureColumns = columnsOf d.featureRows (d.featureRows.headD []).length := by
  simp only [readCsvDataOneHotMultiTarget, R.bind_eq_ok, readData_iff, R.pure_eq]
  refine exists_congr (fun values => and_congr_right (fun hv => ?_))
  rw [parseDataIntoFeaturesAndLabels, parse_fold]
  have hw := holds_width hv
  by_cases h0 : [] ∈ values
  · simp [h0]
  · simp only [h0, if_false, List.nil_append, Except.ok.injEq, not_false_eq_true, true_and, exists_eq_left', C03_one_hot,
      createFeatureColumns_iff]
    have hw' : ∀ row ∈ values.map List.dropLast, ((values.map List.dropLast).headD []).length ≤ row.length := by
      intro row hrow
      obtain ⟨v, hv', rfl⟩ := List.mem_map.mp hrow
      cases values with
      | nil => cases hv'
      | cons v0 vs =>
        have := hw v hv'
        simp at this
        simp [this]
    constructor
    · rintro ⟨ls, ⟨h1, rfl⟩, cols, ⟨h2, _, rfl⟩, rfl⟩
      refine ⟨by simpa using h2, fun v hv => h1 _ (List.mem_map.mpr ⟨v, hv, rfl⟩), rfl, by simp, rfl⟩
    · rintro ⟨h2, h1, h3, h4, h5⟩
      refine ⟨_, ⟨?_, rfl⟩, _, ⟨by simpa using h2, hw', rfl⟩, ?_⟩
      · intro l hl
        obtain ⟨v, hv, rfl⟩ := List.mem_map.mp hl
        exact h1 v hv
      · cases d
        simp only at h3 h4 h5
        subst h3 h4 h5
        simp

/-- **C50**.  `read_csv_data_multi_target` returns exactly if both files are readable and the first one has a record; nothing is
required of the number of labels. -/
theorem C50_multi_target (parse : String → Option F) (fileFeatures fileLabels : Option CsvRecords) (d : DataSet F) :
    readCsvDataMultiTarget parse fileFeatures fileLabels = .ok d ↔
      HoldsRecords parse fileFeatures d.featureRows ∧ HoldsRecords parse fileLabels d.labels ∧ d.featureRows ≠ [] ∧
      d.featureColumns = columnsOf d.featureRows (d.featureRows.headD []).length := by
  simp only [readCsvDataMultiTarget, R.bind_eq_ok, readData_iff, R.pure_eq, createFeatureColumns_iff]
  constructor
  · rintro ⟨rows, h1, labels, h2, cols, ⟨h3, _, rfl⟩, h5⟩
    cases h5
    exact ⟨h1, h2, h3, rfl⟩
  · rintro ⟨h1, h2, h3, h4⟩
    refine ⟨_, h1, _, h2, _, ⟨h3, fun row hrow => le_of_eq (holds_width h1 row hrow).symm, rfl⟩, ?_⟩
    rw [← h4]

/-- **C50**.  `get_feature_names` returns the fields of the header (none for an empty file) and panics exactly if the file cannot be
opened. -/
theorem C50_feature_names (file : Option CsvRecords) (names : List String) :
    getFeatureNames file = .ok names ↔ (file = some [] ∧ names = []) ∨ ∃ records, file = some (names :: records) := by
  rcases file with _ | (_ | ⟨header, records⟩)
  · simp [getFeatureNames]
  · simp [getFeatureNames, eq_comm]
  · simp [getFeatureNames]

/-- **C50**.  A tree learned from a one-hot file without NaN can be printed with the feature names of that file. -/
theorem C50_names_fit [LawfulOrder F] (parse : String → Option F) (file : Option CsvRecords) (n : Nat) (d : DataSet F)
    (h : readCsvDataOneHotMultiTarget parse file n = .ok d)
    (hnan : ∀ row ∈ d.featureRows, ∀ x ∈ row, isNaN x = false) (hc : d.featureColumns.length ≤ 2 ^ 32)
    (cfg : TreeConfig) (ht : cfg.numberOfClasses = n) :
    ∃ names tree lines, getFeatureNames file = .ok names ∧ (∀ row ∈ d.featureRows, row.length + 1 = names.length) ∧
      regressionTreeNew d cfg = .ok tree ∧ printTreeRegression names tree "" = .ok lines := by
  obtain ⟨header, records, values, hfile, hr, hh, hf, h1, h2, h3, h4, h5, h6⟩ := C04_one_hot_consistent parse file n d h
  have hw : d.WF (header.length - 1) n := by
    refine ⟨?_, h4, h3, h5, h6, hnan, ?_⟩
    · rw [h1]
      intro h0
      have := forall₂_length hf
      simp only [List.map_eq_nil_iff] at h0
      rw [h0] at this
      exact hr (List.length_eq_zero_iff.mp (by simpa using this))
    · rw [h6] at hc; simpa [columnsOf] using hc
  have hpos := List.length_pos_of_ne_nil hh
  have htree := regressionTreeNew_ok hw ht
  obtain ⟨_, lines, hl⟩ := C47_built_trees_print d _ n hw cfg ht _ htree header (by omega) ""
  refine ⟨header, _, lines, by rw [hfile]; rfl, ?_, htree, hl⟩
  intro row hrow
  rw [h4 row hrow]
  omega

example : ¬ Unreadable digit (some [["a", "b", "class"], ["7", "3", "1"], ["1", "2", "0"]]) :=
  (C50_readable_iff digit _).mp ⟨[[7, 3, 1], [1, 2, 0]], .inr ⟨_, _, rfl, by
    refine .cons ⟨rfl, by decide +kernel⟩ (.cons ⟨rfl, by decide +kernel⟩ .nil)⟩⟩
-- a short record, a field that is no number, a missing file
example : (readCsvData digit (some [["a", "class"], ["7"]]), readCsvData digit (some [["a", "class"], ["7", "x"]]),
    readCsvData digit none) = (.error .unwrapErr, .error .unwrapErr, .error .unwrapErr) := by decide +kernel
example : readCsvData digit (some [["a", "b", "y"], ["7", "3", "1"], ["1", "2", "0"]]) =
    .ok { features := [[7, 3], [1, 2]], labels := [1, 0] } := by decide +kernel
example : getFeatureNames (some [["a", "b", "class"], ["7", "3", "1"]]) = .ok ["a", "b", "class"] := by decide +kernel
-- more rows than labels: accepted
example : readCsvDataMultiTarget digit (some [["a"], ["7"], ["1"]]) (some [["y"], ["1"]]) =
    .ok { featureRows := [[7], [1]], labels := [[1]], featureColumns := [[7, 1]] } := by decide +kernel

end Verif
