import Verif.Lemmas.Accept
import Verif.Props.Files
/-!
# C88: exactly which tables can be trained on
-/

set_option linter.unusedSectionVars false

namespace Verif

variable {F : Type} [F64 F]

open Sample

theorem split_accepts {d : DataSet F} {c t k : Nat} (h : d.Tables c t) (hc : 0 < c) {s : BestSplitResult F}
    (hs : findBestSplit d k = .ok s) :
    0 < d.featureRows.length ∧ d.featureRows.length ≤ d.labels.length ∧ k = t ∧ (2 ≤ d.featureRows.length → d.NoNaN) := by
  obtain ⟨h1, h2⟩ := findBestSplit_labels hs
  have hcol : column d.featureRows 0 ∈ d.featureColumns := by
    rw [h.cols, columnsOf]
    exact List.mem_map.mpr ⟨0, List.mem_range.mpr hc, rfl⟩
  have hle := h2 _ hcol
  rw [column_length] at hle
  have hpos := List.length_pos_of_ne_nil h1
  refine ⟨hpos, hle, ?_, ?_⟩
  · exact findBestSplit_targets h.label_len (List.ne_nil_of_length_pos (by omega)) (List.ne_nil_of_mem hcol) hs
  · intro hn2 row hrow x hx
    by_contra hnan
    obtain ⟨j, hj, rfl⟩ := List.getElem_of_mem hx
    have hjc : j < c := by rw [← h.row_len row hrow]; exact hj
    have hcolj : column d.featureRows j ∈ d.featureColumns := by
      rw [h.cols, columnsOf]
      exact List.mem_map.mpr ⟨j, List.mem_range.mpr hjc, rfl⟩
    obtain ⟨e, he⟩ := findBestSplit_nan (t := k) hcolj (by rw [column_length]; exact hn2)
      (x := row[j]) (List.mem_map.mpr ⟨row, hrow, by simp [hj]⟩) (by simpa using hnan)
    rw [hs] at he
    cases he

theorem fuel_accepts [LawfulOrder F] {L : Type} {leafR : DataSet F → R L} {d : DataSet F} {c t : Nat} (h : d.Tables c t) (hc : 0 < c)
    (hone : d.featureRows.length = 1 → d.NoNaN) (k m : Nat)
    (hleaf : ∀ d : DataSet F, d.labels ≠ [] → (∀ l ∈ d.labels, l.length = t) → ∃ l, leafR d = .ok l) :
    (∃ tree, buildFuel leafR k m d = .ok tree) ↔
      0 < d.featureRows.length ∧ d.featureRows.length ≤ d.labels.length ∧ k = t ∧ (2 ≤ d.featureRows.length → d.NoNaN) := by
  constructor
  · rintro ⟨tree, htree⟩
    have : ∃ s, findBestSplit d k = .ok s := by
      cases m with
      | zero => obtain ⟨s, _, hs, _⟩ := buildFuel_zero htree; exact ⟨s, hs⟩
      | succ m => obtain ⟨s, hs, _⟩ := buildFuel_cases htree; exact ⟨s, hs⟩
    obtain ⟨s, hs⟩ := this
    exact split_accepts h hc hs
  · rintro ⟨h1, h2, rfl, h4⟩
    refine buildFuel_enough hleaf m ⟨h, List.ne_nil_of_length_pos h1, h2, ?_⟩
    rcases Nat.lt_or_ge d.featureRows.length 2 with hlt | hge
    · exact hone (by omega)
    · exact h4 hge

/-- **C88** (trees).  For two tables (`c ≥ 1` feature columns), each of the three tree learners returns a tree if and only if there is
a row, there are at least as many labels as rows, the configured number of targets is the number of label columns and, with two or
more rows, no feature is NaN.  Missing labels are always noticed; surplus labels never are.  (A single row with a NaN is left out.) -/
theorem C88_trees [LawfulOrder F] (d : DataSet F) (c t : Nat) (h : d.Tables c t) (hc : 0 < c)
    (hone : d.featureRows.length = 1 → d.NoNaN) (cfg : TreeConfig) (k : LeafOutputType) :
    ((∃ tree, regressionTreeNew d cfg = .ok tree) ↔
      0 < d.featureRows.length ∧ d.featureRows.length ≤ d.labels.length ∧ cfg.numberOfClasses = t ∧
        (2 ≤ d.featureRows.length → d.NoNaN)) ∧
    ((∃ tree, gradBoostTreeNew d cfg k = .ok tree) ↔
      0 < d.featureRows.length ∧ d.featureRows.length ≤ d.labels.length ∧ cfg.numberOfClasses = t ∧
        (2 ≤ d.featureRows.length → d.NoNaN)) ∧
    ((∃ tree, amgTreeNew d cfg k = .ok tree) ↔
      0 < d.featureRows.length ∧ d.featureRows.length ≤ d.labels.length ∧ cfg.numberOfClasses = t ∧
        (2 ≤ d.featureRows.length → d.NoNaN)) := by
  rw [regressionTreeNew_fuel, gradBoostTreeNew_fuel, amgTreeNew_fuel]
  refine ⟨fuel_accepts h hc hone _ _ (fun d _ _ => ⟨_, rfl⟩), fuel_accepts h hc hone _ _ (fun d h1 h2 => ?_),
    fuel_accepts h hc hone _ _ (fun d h1 h2 => ?_)⟩
  · exact ⟨_, by simp only [gradLeafR, calculate_ok k h1 h2, R.ok_bind]; rfl⟩
  · exact ⟨_, by simp only [amgLeafR, calculate_ok k h1 h2, R.ok_bind]; rfl⟩

/-! ## Ensembles -/

/-- A loop with at least one iteration has as many rows as labels. -/
theorem loop_accepts {L : Type} {res : TrainingData F → R (List (List F))} {fit : DataSet F → R (TreeNode F L)}
    {upd : TrainingData F → TreeNode F L → R (TrainingData F)} {out : List F → TreeNode F L → R (List F)} {d : DataSet F} {c t : Nat}
    (h : d.Tables c t) (hc : 0 < c) {g : List F} {lr : F} (hu : UpdateAdds upd out lr g.length)
    (hres : ∀ s r, res s = .ok r → r.length = s.size)
    (hfit : ∀ e tree, fit e = .ok tree → ∃ k s, findBestSplit e k = .ok s)
    {n : Nat} (hn : 0 < n) {s : TrainingData F × List (TreeNode F L)} (hl : boostLoop res fit upd n (startState d g) = .ok s) :
    d.labels.length = d.featureRows.length ∧ 0 < d.featureRows.length := by
  obtain ⟨s1, h1, _⟩ := boostLoop_prefix (n := 1) hn hl
  rw [boostLoop_succ, R.bind_eq_ok] at h1
  obtain ⟨s0, h0, h2⟩ := h1
  cases h0
  obtain ⟨r, tree, t', h3, h4, h5, _⟩ := boostStep_inv h2
  obtain ⟨_, _, _, h6⟩ := hu _ _ _ (by simp [startState]) (by simp [startState]) h5
  obtain ⟨k, sp, h7⟩ := hfit _ _ h4
  have h8 := hres _ _ h3
  obtain ⟨h9, h10⟩ := findBestSplit_labels h7
  have hcol : column d.featureRows 0 ∈ d.featureColumns := by
    rw [h.cols, columnsOf]
    exact List.mem_map.mpr ⟨0, List.mem_range.mpr hc, rfl⟩
  have hle := h10 _ hcol
  rw [column_length] at hle
  simp only [startState] at h6 h8 hle h9
  rw [h8] at hle
  have hpos := List.length_pos_of_ne_nil h9
  refine ⟨?_, hpos⟩
  obtain ⟨row, _, _, h11, _⟩ := h6 (d.labels.length - 1) (by omega)
  have := (List.getElem?_eq_some_iff.mp h11).1
  omega

theorem fuel_split {L : Type} {leafR : DataSet F → R L} {k m : Nat} {e : DataSet F} {tree : TreeNode F L}
    (h : buildFuel leafR k m e = .ok tree) : ∃ k s, findBestSplit e k = .ok s := by
  cases m with
  | zero => obtain ⟨s, _, hs, _⟩ := buildFuel_zero h; exact ⟨k, s, hs⟩
  | succ m => obtain ⟨s, hs, _⟩ := buildFuel_cases h; exact ⟨k, s, hs⟩

theorem regressionResiduals_length (s : TrainingData F) (r : List (List F)) (h : regressionResiduals s = .ok r) : r.length = s.size := by
  have := mapM_length h
  simpa using this

theorem multiClassResiduals_length (s : TrainingData F) (r : List (List F)) (h : multiClassResiduals s = .ok r) : r.length = s.size := by
  have := mapM_length h
  simpa using this

/-- the remaining conditions, once the numbers of rows and labels agree -/
theorem rest_accepts {d : DataSet F} {c t : Nat} (h : d.Tables c t) (hone : d.featureRows.length = 1 → d.NoNaN)
    {cfg : TreeConfig} {Bad : Prop} (hlen : d.labels.length = d.featureRows.length) (hpos : 0 < d.featureRows.length)
    (h45 : 2 ≤ d.featureRows.length → (∃ row ∈ d.featureRows, ∃ x ∈ row, isNaN x = true) → Bad)
    (h44 : d.WF c t → cfg.numberOfClasses ≠ t → Bad) (hgood : ¬ Bad) : cfg.numberOfClasses = t ∧ d.NoNaN := by
  have hn : d.NoNaN := by
    rcases Nat.lt_or_ge d.featureRows.length 2 with hlt | hge
    · exact hone (by omega)
    · intro row hrow x hx
      by_contra hnan
      exact hgood (h45 hge ⟨row, hrow, x, hx, by simpa using hnan⟩)
  refine ⟨?_, hn⟩
  by_contra hw
  exact hgood (h44 (h.wf (List.ne_nil_of_length_pos hpos) hlen hn) hw)

/-- **C88** (regression ensembles).  With one or more iterations training returns if and only if there is a row, there are as many
labels as rows, the configured number of targets is the number of label columns and no feature is NaN: unlike a single tree, an
ensemble does not accept surplus labels. -/
theorem C88_regression_ensemble [LawfulOrder F] (d : DataSet F) (c t : Nat) (h : d.Tables c t) (hc : 0 < c)
    (hone : d.featureRows.length = 1 → d.NoNaN) (cfg : TreeConfig) (n : Nat) (hn : 0 < n) (lr : F) :
    (∃ m, regressionTrain d cfg n lr = .ok m) ↔
      0 < d.featureRows.length ∧ d.labels.length = d.featureRows.length ∧ cfg.numberOfClasses = t ∧ d.NoNaN := by
  constructor
  · rintro ⟨m, hm⟩
    obtain ⟨f, h1⟩ := train_inv hm
    obtain ⟨_, _, h2⟩ := boostingLoop_inv h1
    simp only [regressionLoop_eq] at h2
    obtain ⟨h3, h4⟩ := loop_accepts h hc (grad_updateAdds lr _) regressionResiduals_length
      (fun e tree he => by rw [gradBoostTreeNew_fuel] at he; exact fuel_split he) hn h2
    obtain ⟨h5, h6⟩ := rest_accepts (cfg := cfg) (Bad := ∃ e, regressionTrain d cfg n lr = .error e) h hone h3 h4
      (fun h2 hx => (C45_ensembles d c h.row_len h.cols h3.symm h2 hx cfg n hn lr).1)
      (fun hw hx => (C44_ensembles d c t hw hc cfg hx n hn lr).1) (by rintro ⟨e, he⟩; rw [hm] at he; cases he)
    exact ⟨h4, h3, h5, h6⟩
  · rintro ⟨h1, h2, h3, h4⟩
    obtain ⟨m, hm, _⟩ := C42_regression d c t (h.wf (List.ne_nil_of_length_pos h1) h2 h4) cfg h3 n lr
    exact ⟨m, hm⟩

/-- **C88** (classification ensembles).  The same for both kinds of classification ensembles. -/
theorem C88_classification_ensembles [LawfulOrder F] [LawfulCount F] (d : DataSet F) (c t : Nat) (h : d.Tables c t) (hc : 0 < c)
    (ht0 : 0 < t) (ht1 : t ≤ 2 ^ 53)
    (hone : d.featureRows.length = 1 → d.NoNaN) (cfg : TreeConfig) (n : Nat) (hn : 0 < n) (lr : F) :
    ((∃ m, multiClassTrain d cfg n lr = .ok m) ↔
      0 < d.featureRows.length ∧ d.labels.length = d.featureRows.length ∧ cfg.numberOfClasses = t ∧ d.NoNaN) ∧
    ((∃ m, amgTrain d cfg n lr = .ok m) ↔
      0 < d.featureRows.length ∧ d.labels.length = d.featureRows.length ∧ cfg.numberOfClasses = t ∧ d.NoNaN) := by
  refine ⟨⟨?_, ?_⟩, ⟨?_, ?_⟩⟩
  · rintro ⟨m, hm⟩
    obtain ⟨f, h1⟩ := train_inv hm
    obtain ⟨_, _, h2⟩ := boostingLoop_inv h1
    simp only [multiClassLoop_eq] at h2
    obtain ⟨h3, h4⟩ := loop_accepts h hc (grad_updateAdds lr _) multiClassResiduals_length
      (fun e tree he => by rw [gradBoostTreeNew_fuel] at he; exact fuel_split he) hn h2
    obtain ⟨h5, h6⟩ := rest_accepts (cfg := cfg) (Bad := ∃ e, multiClassTrain d cfg n lr = .error e) h hone h3 h4
      (fun h2 hx => (C45_ensembles d c h.row_len h.cols h3.symm h2 hx cfg n hn lr).2.1)
      (fun hw hx => (C44_ensembles d c t hw hc cfg hx n hn lr).2.1) (by rintro ⟨e, he⟩; rw [hm] at he; cases he)
    exact ⟨h4, h3, h5, h6⟩
  · rintro ⟨h1, h2, h3, h4⟩
    obtain ⟨m, hm, _⟩ := C42_multiClass d c t (h.wf (List.ne_nil_of_length_pos h1) h2 h4) ht0 ht1 cfg h3 n lr
    exact ⟨m, hm⟩
  · rintro ⟨m, hm⟩
    obtain ⟨f, h1⟩ := train_inv hm
    obtain ⟨_, _, h2⟩ := boostingLoop_inv h1
    simp only [amgLoop_eq] at h2
    obtain ⟨h3, h4⟩ := loop_accepts h hc (amg_updateAdds lr _) multiClassResiduals_length
      (fun e tree he => by rw [amgTreeNew_fuel] at he; exact fuel_split he) hn h2
    obtain ⟨h5, h6⟩ := rest_accepts (cfg := cfg) (Bad := ∃ e, amgTrain d cfg n lr = .error e) h hone h3 h4
      (fun h2 hx => (C45_ensembles d c h.row_len h.cols h3.symm h2 hx cfg n hn lr).2.2)
      (fun hw hx => (C44_ensembles d c t hw hc cfg hx n hn lr).2.2) (by rintro ⟨e, he⟩; rw [hm] at he; cases he)
    exact ⟨h4, h3, h5, h6⟩
  · rintro ⟨h1, h2, h3, h4⟩
    obtain ⟨m, hm, _⟩ := C42_amg d c t (h.wf (List.ne_nil_of_length_pos h1) h2 h4) ht0 ht1 cfg h3 n lr
    exact ⟨m, hm⟩

/-! ## From the files -/

/-- **C88** (files).  Reading a feature file and a label file with at least one feature column, and learning from them, for files
whose numbers are not NaN: a tree results if and only if both files are readable, there is at least one record with features, there
are at least as many records with labels, and every one of these has as many fields as the configured number of targets; a regression
ensemble results if and only if, moreover, there are no surplus labels. -/
theorem C88_files [LawfulOrder F] (parse : String → Option F) (fileX fileY : Option CsvRecords)
    (hnan : ∀ field x, parse field = some x → isNaN x = false)
    (hcols : ∀ header records, fileX = some (header :: records) → header.length ≠ 0 ∧ header.length ≤ 2 ^ 32)
    (cfg : TreeConfig) (n : Nat) (hn : 0 < n) (lr : F) :
    ((∃ d tree, readCsvDataMultiTarget parse fileX fileY = .ok d ∧ regressionTreeNew d cfg = .ok tree) ↔
      ∃ rows labels, HoldsRecords parse fileX rows ∧ HoldsRecords parse fileY labels ∧ 0 < rows.length ∧
        rows.length ≤ labels.length ∧ ∀ l ∈ labels, l.length = cfg.numberOfClasses) ∧
    ((∃ d m, readCsvDataMultiTarget parse fileX fileY = .ok d ∧ regressionTrain d cfg n lr = .ok m) ↔
      ∃ rows labels, HoldsRecords parse fileX rows ∧ HoldsRecords parse fileY labels ∧ 0 < rows.length ∧
        labels.length = rows.length ∧ ∀ l ∈ labels, l.length = cfg.numberOfClasses) := by
  have facts : ∀ d : DataSet F, HoldsRecords parse fileX d.featureRows → HoldsRecords parse fileY d.labels → d.featureRows ≠ [] →
      d.featureColumns = columnsOf d.featureRows (d.featureRows.headD []).length →
      d.Tables (d.featureRows.headD []).length (d.labels.headD []).length ∧ 0 < (d.featureRows.headD []).length ∧ d.NoNaN := by
    intro d hX hY hne hcol
    obtain ⟨header, records, hf, hr⟩ : ∃ header records, fileX = some (header :: records) ∧
        List.Forall₂ (fun (record : List String) (vals : List F) =>
          record.length = header.length ∧ record.map parse = vals.map some) records d.featureRows := by
      rcases hX with ⟨_, h0⟩ | h0
      · exact absurd h0 hne
      · exact h0
    obtain ⟨hc0, hc1⟩ := hcols header records hf
    have hw : (d.featureRows.headD []).length = header.length := by
      cases hrows : d.featureRows with
      | nil => exact absurd hrows hne
      | cons r rest =>
        rw [hrows] at hr
        cases hr with
        | cons h1 _ =>
          have := congrArg List.length h1.2
          simp only [List.length_map] at this
          simp only [List.headD_cons]
          omega
    refine ⟨⟨holds_width hX, holds_width hY, hcol, by omega⟩, by omega, ?_⟩
    intro row hrow x hx
    obtain ⟨record, _, _, h2⟩ := forall₂_mem_right hr hrow
    have hm : some x ∈ record.map parse := by rw [h2]; exact List.mem_map.mpr ⟨x, hx, rfl⟩
    obtain ⟨field, _, hp⟩ := List.mem_map.mp hm
    exact hnan field x hp
  have heads : ∀ labels : List (List F), HoldsRecords parse fileY labels → 0 < labels.length →
      (cfg.numberOfClasses = (labels.headD []).length ↔ ∀ l ∈ labels, l.length = cfg.numberOfClasses) := by
    intro labels hY hpos
    constructor
    · intro h l hl
      rw [h]
      exact holds_width hY l hl
    · intro h
      cases labels with
      | nil => simp at hpos
      | cons l ls => exact (h l (by simp)).symm
  constructor
  · constructor
    · rintro ⟨d, tree, hd, ht⟩
      obtain ⟨hX, hY, hne, hcol⟩ := (C50_multi_target parse fileX fileY d).mp hd
      obtain ⟨f1, f2, f3⟩ := facts d hX hY hne hcol
      obtain ⟨g1, g2, g3, _⟩ := (C88_trees d _ _ f1 f2 (fun _ => f3) cfg .regression).1.mp ⟨tree, ht⟩
      exact ⟨_, _, hX, hY, g1, g2, (heads _ hY (by omega)).mp g3⟩
    · rintro ⟨rows, labels, hX, hY, h1, h2, h3⟩
      have hd := (C50_multi_target parse fileX fileY
        { featureRows := rows, labels := labels, featureColumns := columnsOf rows (rows.headD []).length }).mpr
        ⟨hX, hY, List.ne_nil_of_length_pos h1, rfl⟩
      obtain ⟨f1, f2, f3⟩ := facts { featureRows := rows, labels := labels, featureColumns := columnsOf rows (rows.headD []).length } hX hY
        (List.ne_nil_of_length_pos h1) rfl
      obtain ⟨tree, ht⟩ := (C88_trees _ _ _ f1 f2 (fun _ => f3) cfg .regression).1.mpr
        ⟨h1, h2, (heads _ hY (by omega)).mpr h3, fun _ => f3⟩
      exact ⟨_, tree, hd, ht⟩
  · constructor
    · rintro ⟨d, m, hd, ht⟩
      obtain ⟨hX, hY, hne, hcol⟩ := (C50_multi_target parse fileX fileY d).mp hd
      obtain ⟨f1, f2, f3⟩ := facts d hX hY hne hcol
      obtain ⟨g1, g2, g3, _⟩ := (C88_regression_ensemble d _ _ f1 f2 (fun _ => f3) cfg n hn lr).mp ⟨m, ht⟩
      exact ⟨_, _, hX, hY, g1, g2, (heads _ hY (by omega)).mp g3⟩
    · rintro ⟨rows, labels, hX, hY, h1, h2, h3⟩
      have hd := (C50_multi_target parse fileX fileY
        { featureRows := rows, labels := labels, featureColumns := columnsOf rows (rows.headD []).length }).mpr
        ⟨hX, hY, List.ne_nil_of_length_pos h1, rfl⟩
      obtain ⟨f1, f2, f3⟩ := facts { featureRows := rows, labels := labels, featureColumns := columnsOf rows (rows.headD []).length } hX hY
        (List.ne_nil_of_length_pos h1) rfl
      obtain ⟨m, ht⟩ := (C88_regression_ensemble _ _ _ f1 f2 (fun _ => f3) cfg n hn lr).mpr
        ⟨h1, h2, (heads _ hY (by omega)).mpr h3, f3⟩
      exact ⟨_, m, hd, ht⟩

/-- three rows, four labels -/
def surplus4 : DataSet E :=
  { featureRows := [[1, 5], [2, 4], [3, 6]], labels := [[0], [1], [1], [9]], featureColumns := [[1, 2, 3], [5, 4, 6]] }

example : surplus4.Tables 2 1 ∧ surplus4.NoNaN := by
  refine ⟨⟨?_, ?_, ?_, ?_⟩, ?_⟩
  · decide +kernel
  · decide +kernel
  · decide +kernel
  · decide
  · unfold DataSet.NoNaN
    decide +kernel
-- a tree is learned, an ensemble is not
example : (do let tree ← regressionTreeNew surplus4 (exCfg 1); pure tree.questionCount) = .ok 1 := by decide +kernel
example : panicOf (regressionTrain surplus4 (exCfg 1) 1 1) = some .index := by decide +kernel
example : panicOf (amgTrain { surplus4 with labels := [[0, 1], [1, 0], [1, 0], [0, 1]] } (exCfg 2) 1 1) = some .index := by decide +kernel
-- the surplus label changes what is learned from the rows: the root asks for feature 0 ≥ 3 instead of ≥ 2
example : (do let r ← findBestSplit surplus4 1; pure (r.question.column, r.question.value)) = .ok (0, 3) ∧
    (do let r ← findBestSplit surplus4.cutLabels 1; pure (r.question.column, r.question.value)) = .ok (0, 2) := by decide +kernel
-- a missing label
example : panicOf (regressionTreeNew { surplus4 with labels := [[0], [1]] } (exCfg 1)) = some .index := by decide +kernel
-- files: two records with features, three with labels
example : HoldsRecords digit (some [["a"], ["7"], ["1"]]) [[7], [1]] ∧ HoldsRecords digit (some [["y"], ["1"], ["2"], ["3"]]) [[1], [2], [3]] := by
  constructor
  · exact .inr ⟨_, _, rfl, .cons ⟨rfl, by decide +kernel⟩ (.cons ⟨rfl, by decide +kernel⟩ .nil)⟩
  · exact .inr ⟨_, _, rfl, .cons ⟨rfl, by decide +kernel⟩ (.cons ⟨rfl, by decide +kernel⟩ (.cons ⟨rfl, by decide +kernel⟩ .nil))⟩

end Verif
