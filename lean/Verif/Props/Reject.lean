import Verif.Props.Boost
/-!
# C44, C45: wrong configurations and NaN features are rejected
-/

set_option linter.unusedSectionVars false

namespace Verif

variable {F : Type} [F64 F]

open Sample

/-! ## C44 -/

/-- every body of a successful loop succeeds -/
theorem forRange_each {σ : Type} {n : Nat} {body : Nat → σ → R σ} {s s' : σ} (h : forRange n body s = .ok s') {i : Nat} (hi : i < n) :
    ∃ a b, body i a = .ok b := by
  induction n generalizing s' with
  | zero => omega
  | succ n ih =>
    rw [forRange_succ, R.bind_eq_ok] at h
    obtain ⟨s1, h1, h2⟩ := h
    rcases Nat.lt_or_ge i n with hlt | hge
    · exact ih h1 hlt
    · have : i = n := by omega
      subst this
      exact ⟨s1, s', h2⟩

theorem updateLeftTracker_targets {tr tr' : Tracker F} {l : List F} {t : Nat} (h : updateLeftTracker tr l t = .ok tr') : t ≤ l.length := by
  rw [updateLeftTracker, R.bind_eq_ok] at h
  obtain ⟨m, h1, _⟩ := h
  by_contra hlt
  obtain ⟨a, b, h2⟩ := forRange_each h1 (i := l.length) (by omega)
  rw [idx_none (by omega)] at h2
  cases h2

theorem getLabelSumVectors_targets {labels : List (List F)} {t : Nat} {r : List F × List F} (h : getLabelSumVectors labels t = .ok r) :
    ∀ l ∈ labels, l.length ≤ t := by
  have hinner : ∀ (l : List F) (acc acc' : List F × List F), acc.1.length = t →
      forEnum l (fun i labelValue (acc : List F × List F) => do
        let s ← idx acc.1 i
        let sums ← setIdx acc.1 i (s +. labelValue)
        let q ← idx acc.2 i
        let squares ← setIdx acc.2 i (q +. labelValue *. labelValue)
        pure (sums, squares)) acc = .ok acc' → acc'.1.length = t ∧ l.length ≤ t := by
    intro l acc acc' hacc h
    have key : ∀ (m : List (F × Nat)) (acc : List F × List F), acc.1.length = t →
        m.foldlM (fun (acc : List F × List F) p => do
          let s ← idx acc.1 p.2
          let sums ← setIdx acc.1 p.2 (s +. p.1)
          let q ← idx acc.2 p.2
          let squares ← setIdx acc.2 p.2 (q +. p.1 *. p.1)
          pure (sums, squares)) acc = .ok acc' → acc'.1.length = t ∧ ∀ p ∈ m, p.2 < t := by
      intro m
      induction m with
      | nil => intro acc hacc h; cases h; exact ⟨hacc, by simp⟩
      | cons p m ih =>
        intro acc hacc h
        simp only [foldlM_cons_R, R.bind_eq_ok] at h
        obtain ⟨acc1, ⟨s, h1, sums, h2, q, h3, squares, h4, h5⟩, h6⟩ := h
        cases h5
        rw [setIdx_eq_ok] at h2
        obtain ⟨h7, h8⟩ := ih _ (by simp [h2.2, hacc]) h6
        refine ⟨h7, ?_⟩
        intro x hx
        rcases List.mem_cons.mp hx with rfl | hx
        · rw [← hacc]; exact h2.1
        · exact h8 x hx
    obtain ⟨h1, h2⟩ := key _ acc hacc h
    refine ⟨h1, ?_⟩
    by_contra hlt
    have hmem : (l[t]'(by omega), t) ∈ l.zipIdx := by
      rw [List.mem_iff_getElem?]
      exact ⟨t, by simp [show t < l.length by omega]⟩
    exact absurd (h2 _ hmem) (by simp)
  have key : ∀ (labels : List (List F)) (acc : List F × List F), acc.1.length = t →
      labels.foldlM (fun acc labelVector =>
        forEnum labelVector (fun i labelValue (acc : List F × List F) => do
          let s ← idx acc.1 i
          let sums ← setIdx acc.1 i (s +. labelValue)
          let q ← idx acc.2 i
          let squares ← setIdx acc.2 i (q +. labelValue *. labelValue)
          pure (sums, squares)) acc) acc = .ok r → ∀ l ∈ labels, l.length ≤ t := by
    intro labels
    induction labels with
    | nil => simp
    | cons l labels ih =>
      intro acc hacc h
      rw [foldlM_cons_R, R.bind_eq_ok] at h
      obtain ⟨acc1, h1, h2⟩ := h
      obtain ⟨h3, h4⟩ := hinner l acc acc1 hacc h1
      intro x hx
      rcases List.mem_cons.mp hx with rfl | hx
      · exact h4
      · exact ih acc1 h3 h2 x hx
  exact key labels _ (by simp) h

theorem findBestSplit_targets {d : DataSet F} {t t' : Nat} (hl : ∀ l ∈ d.labels, l.length = t) (hne : d.labels ≠ [])
    (hcol : d.featureColumns ≠ []) {s : BestSplitResult F} (h : findBestSplit d t' = .ok s) : t' = t := by
  simp only [findBestSplit, R.bind_eq_ok] at h
  obtain ⟨total, h1, _, _, _, _, results, h2, _⟩ := h
  simp only [getLabelMetrics, R.bind_eq_ok] at h1
  obtain ⟨sums, h1, _⟩ := h1
  obtain ⟨l, hlmem⟩ := List.exists_mem_of_ne_nil _ hne
  have hle : t ≤ t' := by rw [← hl l hlmem]; exact getLabelSumVectors_targets h1 l hlmem
  obtain ⟨col, hc⟩ := List.exists_mem_of_ne_nil _ hcol
  obtain ⟨i, hi⟩ := List.getElem?_of_mem hc
  obtain ⟨b, _, h3⟩ := mapM_get h2 hi
  simp only [determineBestThreshold, R.bind_eq_ok] at h3
  obtain ⟨srt, _, p0, h4, final, h5, _⟩ := h3
  cases srt with
  | nil => cases h4
  | cons p rest =>
    rw [foldlM_cons_R, R.bind_eq_ok] at h5
    obtain ⟨s1, h6, _⟩ := h5
    have h9 : ∃ (st : ScanState F) (lv : List F) (tr : Tracker F), idx d.labels p.2 = .ok lv ∧ updateLeftTracker st.left lv t' = .ok tr := by
      rw [scanStep] at h6
      dsimp only at h6
      split at h6
      · simp only [R.bind_eq_ok] at h6
        obtain ⟨st, _, lv, h7, tr, h8, _⟩ := h6
        exact ⟨st, lv, tr, h7, h8⟩
      · simp only [R.bind_eq_ok] at h6
        obtain ⟨st, _, lv, h7, tr, h8, _⟩ := h6
        exact ⟨st, lv, tr, h7, h8⟩
    obtain ⟨_, lv, _, h7, h8⟩ := h9
    rw [idx_eq_ok] at h7
    have := updateLeftTracker_targets h8
    rw [hl lv (List.mem_of_getElem? h7)] at this
    omega

theorem buildFuel_split_error {L : Type} {leafR : DataSet F → R L} {t m : Nat} {d : DataSet F} {e : Panic}
    (h : findBestSplit d t = .error e) : buildFuel leafR t m d = .error e := by
  cases m <;> simp [buildFuel, h]

theorem tree_targets {d : DataSet F} {cfg : TreeConfig} {t : Nat} (hl : ∀ l ∈ d.labels, l.length = t) (hne : d.labels ≠ [])
    (hcol : d.featureColumns ≠ []) (hc : cfg.numberOfClasses ≠ t) :
    ∃ e, findBestSplit d cfg.numberOfClasses = .error e ∧ regressionTreeNew d cfg = .error e ∧
      (∀ k, gradBoostTreeNew d cfg k = .error e) ∧ ∀ k, amgTreeNew d cfg k = .error e := by
  cases h : findBestSplit d cfg.numberOfClasses with
  | ok s => exact absurd (findBestSplit_targets hl hne hcol h) hc
  | error e =>
    refine ⟨e, rfl, ?_, ?_, ?_⟩
    · rw [regressionTreeNew_fuel, buildFuel_split_error h]
    · intro k; rw [gradBoostTreeNew_fuel, buildFuel_split_error h]
    · intro k; rw [amgTreeNew_fuel, buildFuel_split_error h]

theorem columns_ne {d : DataSet F} {c t : Nat} (h : d.WF c t) (hc : 0 < c) : d.featureColumns ≠ [] := by
  rw [h.cols, columnsOf]
  simp; omega

/-- **C44** (trees).  With a wrong number of classes, building any of the trees panics. -/
theorem C44_trees (d : DataSet F) (c t : Nat) (h : d.WF c t) (hc : 0 < c) (cfg : TreeConfig) (hw : cfg.numberOfClasses ≠ t) :
    (∃ e, regressionTreeNew d cfg = .error e) ∧ (∀ k, ∃ e, gradBoostTreeNew d cfg k = .error e) ∧
      ∀ k, ∃ e, amgTreeNew d cfg k = .error e := by
  obtain ⟨e, _, h1, h2, h3⟩ := tree_targets h.label_len h.labels_ne (columns_ne h hc) hw
  exact ⟨⟨e, h1⟩, fun k => ⟨e, h2 k⟩, fun k => ⟨e, h3 k⟩⟩

theorem multiClass_trees {d : DataSet F} {cfg : TreeConfig} {n : Nat} {lr : F} {m : BoostModel F (GradBoostLeaf F)}
    (h : multiClassTrain d cfg n lr = .ok m) : m.trees.length = n := by
  obtain ⟨final, h⟩ := train_inv h
  obtain ⟨_, _, hl⟩ := boostingLoop_inv h
  simp only [multiClassLoop_eq] at hl
  exact boostLoop_length hl

theorem amg_trees {d : DataSet F} {cfg : TreeConfig} {n : Nat} {lr : F} {m : BoostModel F (AMGBoostLeaf F)}
    (h : amgTrain d cfg n lr = .ok m) : m.trees.length = n := by
  obtain ⟨final, h⟩ := train_inv h
  obtain ⟨_, _, hl⟩ := boostingLoop_inv h
  simp only [amgLoop_eq] at hl
  exact boostLoop_length hl

theorem residual_labels {ls ms : List (List F)} {t : Nat} {g : List F → List F} (hl : ∀ l ∈ ls, l.length = t) (hne : ls ≠ [])
    (hg : ∀ v, (g v).length = v.length) (h : List.Forall₂ (fun l v : List F => l.length = v.length) ls ms) :
    (∀ r ∈ List.zipWith (fun l v => List.zipWith F64.sub l (g v)) ls ms, r.length = t) ∧
      List.zipWith (fun l v => List.zipWith F64.sub l (g v)) ls ms ≠ [] := by
  rw [List.forall₂_iff_get] at h
  constructor
  · intro r hr
    obtain ⟨i, hi, rfl⟩ := List.getElem_of_mem hr
    simp only [List.length_zipWith] at hi
    have h1 := h.2 i (by omega) (by omega)
    simp only [List.get_eq_getElem] at h1
    simp only [List.getElem_zipWith, List.length_zipWith, hg]
    rw [← h1, hl _ (List.getElem_mem _)]
    simp
  · intro h0
    have := congrArg List.length h0
    simp only [List.length_zipWith, List.length_nil] at this
    have h2 : 0 < ls.length := List.length_pos_of_ne_nil hne
    have := h.1
    omega

/-- **C44** (ensembles).  With a wrong number of classes, training an ensemble with at least one iteration panics. -/
theorem C44_ensembles (d : DataSet F) (c t : Nat) (h : d.WF c t) (hc : 0 < c) (cfg : TreeConfig) (hw : cfg.numberOfClasses ≠ t)
    (n : Nat) (hn : 0 < n) (lr : F) :
    (∃ e, regressionTrain d cfg n lr = .error e) ∧ (∃ e, multiClassTrain d cfg n lr = .error e) ∧
      ∃ e, amgTrain d cfg n lr = .error e := by
  have hlen : d.featureRows.length = d.labels.length := h.label_count.symm
  have hcols := columns_ne h hc
  refine ⟨?_, ?_, ?_⟩
  · rw [R.error_iff]
    rintro ⟨m, hm⟩
    obtain ⟨h1, _⟩ := C31_regression d cfg n lr m hm
    have hk : 0 < m.trees.length := by omega
    obtain ⟨preds, _, h2, h3⟩ := C33_regression_residual_tree d hlen cfg n lr m hm 0 _ (List.getElem?_eq_getElem hk)
    obtain ⟨h4, h5⟩ := residual_labels (g := id) h.label_len h.labels_ne (fun _ => rfl) h2
    obtain ⟨e, _, _, h6, _⟩ := tree_targets (d := { d with labels := List.zipWith (List.zipWith F64.sub) d.labels preds }) (cfg := cfg)
      h4 h5 hcols hw
    rw [h6] at h3
    cases h3
  · rw [R.error_iff]
    rintro ⟨m, hm⟩
    have h1 := multiClass_trees hm
    have hk : 0 < m.trees.length := by omega
    obtain ⟨scores, _, h2, h3⟩ := C33_multiClass_residual_tree d hlen cfg n lr m hm 0 _ (List.getElem?_eq_getElem hk)
    obtain ⟨h4, h5⟩ := residual_labels (g := softmaxOf) h.label_len h.labels_ne (fun _ => by simp [softmaxOf]) h2
    obtain ⟨e, _, _, h6, _⟩ := tree_targets (d := { d with labels := List.zipWith (fun l v => List.zipWith F64.sub l (softmaxOf v)) d.labels scores })
      (cfg := cfg) h4 h5 hcols hw
    rw [h6] at h3
    cases h3
  · rw [R.error_iff]
    rintro ⟨m, hm⟩
    have h1 := amg_trees hm
    have hk : 0 < m.trees.length := by omega
    obtain ⟨scores, _, h2, h3⟩ := C33_amg_residual_tree d hlen cfg n lr m hm 0 _ (List.getElem?_eq_getElem hk)
    obtain ⟨h4, h5⟩ := residual_labels (g := softmaxOf) h.label_len h.labels_ne (fun _ => by simp [softmaxOf]) h2
    obtain ⟨e, _, _, _, h6⟩ := tree_targets (d := { d with labels := List.zipWith (fun l v => List.zipWith F64.sub l (softmaxOf v)) d.labels scores })
      (cfg := cfg) h4 h5 hcols hw
    rw [h6] at h3
    cases h3

/-- **C44**.  The tree on pre-sorted features is the exception: it never looks at the configured number of classes. -/
theorem C44_sorted_ignores (d : SortedDataSet F) (cfg : TreeConfig) (k : Nat) :
    regressionTreeNewPartitionNew d { cfg with numberOfClasses := k } = regressionTreeNewPartitionNew d cfg := by
  have : ∀ (n : Nat) (all : List (List F)) (s : SortedDataSet F) (level : Nat), cfg.maxLevels - level = n →
      buildRegressionTreeNewPartition { cfg with numberOfClasses := k } all s level = buildRegressionTreeNewPartition cfg all s level := by
    intro n
    induction n with
    | zero =>
      intro all s level hn
      rw [buildRegressionTreeNewPartition, buildRegressionTreeNewPartition]
      have hlt : ¬ level < cfg.maxLevels := by omega
      simp only [hlt, dite_false]
    | succ n ih =>
      intro all s level hn
      rw [buildRegressionTreeNewPartition, buildRegressionTreeNewPartition]
      have hlt : level < cfg.maxLevels := by omega
      simp only [hlt, dite_true, ih all _ (level + 1) (by omega)]
  exact this _ _ _ _ rfl

-- too few and too many classes
example : panicOf (regressionTreeNew d5 { useMultiThreading := true, numberOfClasses := 2, maxLevels := 3 }) = some .index := by decide +kernel
example : panicOf (regressionTreeNew d5 { useMultiThreading := true, numberOfClasses := 4, maxLevels := 3 }) = some .index := by decide +kernel
example : panicOf (amgTrain d5 { useMultiThreading := false, numberOfClasses := 2, maxLevels := 3 } 1 1) = some .index := by decide +kernel

/-! ## C45 -/

theorem sortTuples_nan {v : List (F × Nat)} (h2 : 2 ≤ v.length) {p : F × Nat} (hp : p ∈ v) (hn : isNaN p.1 = true) :
    sortTuples v = .error .unwrapNone := by
  rw [sortTuples, if_pos]
  exact ⟨h2, List.any_eq_true.mpr ⟨p, hp, hn⟩⟩

theorem sorted_nan {col : List F} (h2 : 2 ≤ col.length) {x : F} (hx : x ∈ col) (hn : isNaN x = true) :
    getSortedFeatureTupleVector col = .error .unwrapNone := by
  obtain ⟨i, hi, rfl⟩ := List.getElem_of_mem hx
  refine sortTuples_nan (p := (col[i], i)) (by simpa using h2) ?_ hn
  rw [List.mem_iff_getElem?]
  exact ⟨i, by simp [hi]⟩

theorem findBestSplit_nan {d : DataSet F} {t : Nat} {col : List F} (hcol : col ∈ d.featureColumns) (h2 : 2 ≤ col.length) {x : F} (hx : x ∈ col)
    (hn : isNaN x = true) : ∃ e, findBestSplit d t = .error e := by
  rw [R.error_iff]
  rintro ⟨s, h⟩
  simp only [findBestSplit, R.bind_eq_ok] at h
  obtain ⟨total, h1, _, _, _, _, results, h3, _⟩ := h
  obtain ⟨i, hi⟩ := List.getElem?_of_mem hcol
  obtain ⟨b, _, h4⟩ := mapM_get h3 hi
  rw [determineBestThreshold, sorted_nan h2 hx hn] at h4
  cases h4

/-- **C45**.  A data set with at least two rows whose feature columns contain a NaN anywhere: building any of the trees panics, and so
does sorting the features (for the tree on pre-sorted features).  The labels and the configuration do not matter. -/
theorem C45_nan_feature (d : DataSet F) (c : Nat) (hrow : ∀ row ∈ d.featureRows, row.length = c)
    (hcols : d.featureColumns = columnsOf d.featureRows c) (h2 : 2 ≤ d.featureRows.length)
    (hnan : ∃ row ∈ d.featureRows, ∃ x ∈ row, isNaN x = true) (cfg : TreeConfig) :
    (∃ e, regressionTreeNew d cfg = .error e) ∧ (∀ k, ∃ e, gradBoostTreeNew d cfg k = .error e) ∧
      (∀ k, ∃ e, amgTreeNew d cfg k = .error e) ∧ ∃ e, createDatasetWithSortedFeatures d = .error e := by
  obtain ⟨row, hr, x, hx, hn⟩ := hnan
  obtain ⟨j, hj, rfl⟩ := List.getElem_of_mem hx
  have hjc : j < c := by rw [← hrow row hr]; exact hj
  have hcol : column d.featureRows j ∈ d.featureColumns := by
    rw [hcols, columnsOf]
    exact List.mem_map.mpr ⟨j, List.mem_range.mpr hjc, rfl⟩
  have hlen : 2 ≤ (column d.featureRows j).length := by rw [column_length]; exact h2
  have hmem : row[j] ∈ column d.featureRows j := List.mem_map.mpr ⟨row, hr, by simp [hj]⟩
  obtain ⟨e, he⟩ := findBestSplit_nan (t := cfg.numberOfClasses) hcol hlen hmem hn
  refine ⟨⟨e, ?_⟩, fun k => ⟨e, ?_⟩, fun k => ⟨e, ?_⟩, ?_⟩
  · rw [regressionTreeNew_fuel, buildFuel_split_error he]
  · rw [gradBoostTreeNew_fuel, buildFuel_split_error he]
  · rw [amgTreeNew_fuel, buildFuel_split_error he]
  · obtain ⟨e', he'⟩ := mapM_error hcol (sorted_nan hlen hmem hn)
    exact ⟨e', by rw [createDatasetWithSortedFeatures, he']; rfl⟩

/-- **C45** (ensembles).  Training with at least one iteration panics as well. -/
theorem C45_ensembles (d : DataSet F) (c : Nat) (hrow : ∀ row ∈ d.featureRows, row.length = c)
    (hcols : d.featureColumns = columnsOf d.featureRows c) (hl : d.featureRows.length = d.labels.length) (h2 : 2 ≤ d.featureRows.length)
    (hnan : ∃ row ∈ d.featureRows, ∃ x ∈ row, isNaN x = true) (cfg : TreeConfig) (n : Nat) (hn : 0 < n) (lr : F) :
    (∃ e, regressionTrain d cfg n lr = .error e) ∧ (∃ e, multiClassTrain d cfg n lr = .error e) ∧
      ∃ e, amgTrain d cfg n lr = .error e := by
  refine ⟨?_, ?_, ?_⟩
  · rw [R.error_iff]
    rintro ⟨m, hm⟩
    obtain ⟨h1, _⟩ := C31_regression d cfg n lr m hm
    have hk : 0 < m.trees.length := by omega
    obtain ⟨preds, _, _, h3⟩ := C33_regression_residual_tree d hl cfg n lr m hm 0 _ (List.getElem?_eq_getElem hk)
    obtain ⟨e, h4⟩ := (C45_nan_feature { d with labels := List.zipWith (List.zipWith F64.sub) d.labels preds } c hrow hcols h2 hnan cfg).2.1 .regression
    rw [h4] at h3
    cases h3
  · rw [R.error_iff]
    rintro ⟨m, hm⟩
    have h1 := multiClass_trees hm
    have hk : 0 < m.trees.length := by omega
    obtain ⟨scores, _, _, h3⟩ := C33_multiClass_residual_tree d hl cfg n lr m hm 0 _ (List.getElem?_eq_getElem hk)
    obtain ⟨e, h4⟩ := (C45_nan_feature { d with labels := List.zipWith (fun l v => List.zipWith F64.sub l (softmaxOf v)) d.labels scores } c hrow hcols h2 hnan cfg).2.1 .multiClassClassification
    rw [h4] at h3
    cases h3
  · rw [R.error_iff]
    rintro ⟨m, hm⟩
    have h1 := amg_trees hm
    have hk : 0 < m.trees.length := by omega
    obtain ⟨scores, _, _, h3⟩ := C33_amg_residual_tree d hl cfg n lr m hm 0 _ (List.getElem?_eq_getElem hk)
    obtain ⟨e, h4⟩ := (C45_nan_feature { d with labels := List.zipWith (fun l v => List.zipWith F64.sub l (softmaxOf v)) d.labels scores } c hrow hcols h2 hnan cfg).2.2.1 .multiClassClassification
    rw [h4] at h3
    cases h3

example : panicOf (regressionTreeNew (F := E) { featureRows := [[3, 1], [1, .nan]], labels := [[1], [2]], featureColumns := [[3, 1], [1, .nan]] }
    { useMultiThreading := true, numberOfClasses := 1, maxLevels := 3 }) = some .unwrapNone := by decide +kernel

end Verif
