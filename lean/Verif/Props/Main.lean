import Verif.Props.Files
import Verif.Props.Mse
import Verif.Props.Boost
import Verif.Props.Reject
/-!
# C52: the main program
-/

set_option linter.unusedSectionVars false

namespace Verif

variable {F : Type} [F64 F]

open Sample

/-- the data set made of rows and labels -/
def dataOf (rows labels : List (List F)) : DataSet F :=
  { featureRows := rows, labels := labels, featureColumns := columnsOf rows (rows.headD []).length }

/-- **C52**.  With readable files, at least 11 training records with `c` columns and 10 targets each, as many label records as
rows, no NaN feature, and test files with at least `c` columns, 10 targets, at least one label and no more labels than rows, the
program runs to its end.  It prints the 11th training label, the first test label, the prediction of the trained ensemble for the first
test row, and the average squared error of the ensemble's predictions on the test set. -/
theorem C52_main_runs [LawfulOrder F] (parse : String → Option F) (featuresTrain labelsTrain featuresTest labelsTest : Option CsvRecords)
    (lr : F) (rows labels testRows testLabels : List (List F)) (c : Nat)
    (h1 : HoldsRecords parse featuresTrain rows) (h2 : HoldsRecords parse labelsTrain labels)
    (h3 : HoldsRecords parse featuresTest testRows) (h4 : HoldsRecords parse labelsTest testLabels)
    (hn : 11 ≤ rows.length) (hlen : labels.length = rows.length) (hw : ∀ row ∈ rows, row.length = c) (hc : c ≤ 2 ^ 32)
    (hl : ∀ l ∈ labels, l.length = 10) (hnan : ∀ row ∈ rows, ∀ x ∈ row, isNaN x = false)
    (htw : ∀ row ∈ testRows, c ≤ row.length) (htl : ∀ l ∈ testLabels, l.length = 10) (ht0 : testLabels ≠ [])
    (htn : testLabels.length ≤ testRows.length) :
    ∃ out m preds, mainProgram parse featuresTrain labelsTrain featuresTest labelsTest lr = .ok out ∧
      regressionTrain (dataOf rows labels) { useMultiThreading := true, numberOfClasses := 10, maxLevels := 3 } 300 lr = .ok m ∧
      testRows.mapM (regressionPredict m) = .ok preds ∧
      labels[10]? = some out.label10 ∧ testLabels[0]? = some out.label0 ∧ preds[0]? = some out.prediction ∧
      out.mse = averageError F64.sumStart testLabels.length testLabels preds := by
  have hr0 : rows ≠ [] := List.ne_nil_of_length_pos (by omega)
  have hh : (rows.headD []).length = c := by
    obtain ⟨r, rs, rfl⟩ := List.exists_cons_of_ne_nil hr0
    exact hw r (by simp)
  have hwf : (dataOf rows labels).WF c 10 := ⟨hr0, hw, hlen, hl, by simp only [dataOf, hh], hnan, hc⟩
  have htr0 : testRows ≠ [] := by
    rintro rfl
    exact ht0 (List.eq_nil_of_length_eq_zero (Nat.le_zero.mp htn))
  have hread1 : readCsvDataMultiTarget parse featuresTrain labelsTrain = .ok (dataOf rows labels) :=
    (C50_multi_target parse _ _ _).mpr ⟨h1, h2, hr0, rfl⟩
  have hread2 : readCsvDataMultiTarget parse featuresTest labelsTest = .ok (dataOf testRows testLabels) :=
    (C50_multi_target parse _ _ _).mpr ⟨h3, h4, htr0, rfl⟩
  obtain ⟨m, hm, hp⟩ := C42_regression (dataOf rows labels) c 10 hwf
    { useMultiThreading := true, numberOfClasses := 10, maxLevels := 3 } rfl 300 lr
  obtain ⟨preds, hpreds⟩ : ∃ preds, testRows.mapM (regressionPredict m) = .ok preds :=
    mapM_ok_iff.mpr (fun row hrow => by
      obtain ⟨p, hp', _⟩ := hp row (htw row hrow)
      exact ⟨p, hp'⟩)
  have hpl := mapM_length hpreds
  have hpw : ∀ p ∈ preds, p.length = 10 := by
    intro p hpm
    obtain ⟨row, hrow, hpr⟩ := forall₂_mem_right (mapM_eq_ok.mp hpreds) hpm
    obtain ⟨p', hp', hl'⟩ := hp row (htw row hrow)
    rw [hpr] at hp'
    cases hp'
    exact hl'
  have hscore : regressionScore m (dataOf testRows testLabels) =
      .ok (averageError F64.sumStart testLabels.length testLabels preds) := by
    refine (C51_ensemble_score m _ _).mpr ⟨preds, hpreds, ?_, ?_, rfl⟩
    · show testLabels.length ≤ preds.length
      omega
    · intro e he
      have := List.of_mem_zip he
      rw [htl _ this.1, hpw _ this.2]
  have hr : 0 < testRows.length := List.length_pos_of_ne_nil htr0
  have htl0 : 0 < testLabels.length := List.length_pos_of_ne_nil ht0
  obtain ⟨p0, hp0, hp0'⟩ := mapM_get hpreds (List.getElem?_eq_getElem hr)
  have hl10 : 10 < labels.length := by omega
  refine ⟨{ label10 := labels[10], mse := _, label0 := testLabels[0], prediction := p0 }, m, preds, ?_, hm, hpreds,
    List.getElem?_eq_getElem hl10, List.getElem?_eq_getElem htl0, hp0, rfl⟩
  rw [mainProgram, hread1, R.ok_bind, show (dataOf rows labels).labels = labels from rfl, idx_lt hl10, R.ok_bind]
  simp only [hm, R.ok_bind, hread2, hscore]
  rw [show (dataOf testRows testLabels).featureRows = testRows from rfl, idx_lt hr, R.ok_bind, hp0', R.ok_bind,
    show (dataOf testRows testLabels).labels = testLabels from rfl, idx_lt htl0, R.ok_bind]
  rfl

/-- **C52**.  The program panics if a file cannot be read or if there are fewer than 11 training labels. -/
theorem C52_main_panics (parse : String → Option F) (featuresTrain labelsTrain featuresTest labelsTest : Option CsvRecords) (lr : F)
    (h : Unreadable parse featuresTrain ∨ Unreadable parse labelsTrain ∨ Unreadable parse featuresTest ∨ Unreadable parse labelsTest ∨
      ∃ labels, HoldsRecords parse labelsTrain labels ∧ labels.length < 11) :
    ∃ e, mainProgram parse featuresTrain labelsTrain featuresTest labelsTest lr = .error e := by
  rw [R.error_iff]
  rintro ⟨out, ho⟩
  simp only [mainProgram, R.bind_eq_ok] at ho
  obtain ⟨train, h1, l10, h2, m, h3, test, h4, _⟩ := ho
  obtain ⟨a1, a2, _⟩ := (C50_multi_target parse _ _ _).mp h1
  obtain ⟨b1, b2, _⟩ := (C50_multi_target parse _ _ _).mp h4
  rcases h with h | h | h | h | ⟨labels, h, hlt⟩
  · exact (C50_readable_iff parse _).mp ⟨_, a1⟩ h
  · exact (C50_readable_iff parse _).mp ⟨_, a2⟩ h
  · exact (C50_readable_iff parse _).mp ⟨_, b1⟩ h
  · exact (C50_readable_iff parse _).mp ⟨_, b2⟩ h
  · rw [C50_content_unique parse _ _ _ h a2] at hlt
    rw [idx_none (by omega)] at h2
    cases h2

/-- **C52**.  It also panics on a consistent training set whose labels do not have 10 targets. -/
theorem C52_main_wrong_targets [LawfulOrder F] (parse : String → Option F)
    (featuresTrain labelsTrain featuresTest labelsTest : Option CsvRecords) (lr : F) (rows labels : List (List F)) (c t : Nat)
    (h1 : HoldsRecords parse featuresTrain rows) (h2 : HoldsRecords parse labelsTrain labels) (hlen : labels.length = rows.length)
    (hw : ∀ row ∈ rows, row.length = c) (hc0 : 0 < c) (hc : c ≤ 2 ^ 32) (hnan : ∀ row ∈ rows, ∀ x ∈ row, isNaN x = false)
    (hl : ∀ l ∈ labels, l.length = t) (ht : t ≠ 10) :
    ∃ e, mainProgram parse featuresTrain labelsTrain featuresTest labelsTest lr = .error e := by
  rw [R.error_iff]
  rintro ⟨out, ho⟩
  simp only [mainProgram, R.bind_eq_ok] at ho
  obtain ⟨train, g1, l10, g2, m, g3, _⟩ := ho
  obtain ⟨a1, a2, hr0, hd⟩ := (C50_multi_target parse _ _ _).mp g1
  have e1 := C50_content_unique parse _ _ _ h1 a1
  have e2 := C50_content_unique parse _ _ _ h2 a2
  rw [← e1] at hr0 hd
  have hh : (rows.headD []).length = c := by
    obtain ⟨r, rs, rfl⟩ := List.exists_cons_of_ne_nil hr0
    exact hw r (by simp)
  have hwf : train.WF c t := by
    refine ⟨?_, ?_, ?_, ?_, ?_, ?_, hc⟩
    · rw [← e1]; exact hr0
    · rw [← e1]; exact hw
    · rw [← e1, ← e2]; exact hlen
    · rw [← e2]; exact hl
    · rw [hd, hh, e1]
    · rw [← e1]; exact hnan
  obtain ⟨e, he⟩ := (C44_ensembles train c t hwf hc0 { useMultiThreading := true, numberOfClasses := 10, maxLevels := 3 }
    (fun h => ht h.symm) 300 (by omega) lr).1
  rw [he] at g3
  cases g3

/-- eleven records with one column each, as they stand in a file -/
def elevenRows : CsvRecords := ["x"] :: (["0", "1", "2", "3", "7", "7", "2", "1", "0", "1", "2"].map fun v => [v])

/-- eleven labels with ten targets each -/
def elevenLabels : CsvRecords :=
  List.replicate 10 "y" :: (["0", "1", "0", "1", "1", "0", "7", "3", "2", "2", "1"].map fun v => List.replicate 10 v)

theorem elevenRows_holds : HoldsRecords digit (some elevenRows)
    ([0, 1, 2, 3, 7, 7, 2, 1, 0, 1, 2].map fun v => [v]) := by
  refine .inr ⟨_, _, rfl, ?_⟩
  simp [digit]

theorem elevenLabels_holds : HoldsRecords digit (some elevenLabels)
    ([0, 1, 0, 1, 1, 0, 7, 3, 2, 2, 1].map fun v => List.replicate 10 v) := by
  refine .inr ⟨_, _, rfl, ?_⟩
  simp [digit]

example : ∃ out, mainProgram digit (some elevenRows) (some elevenLabels) (some elevenRows) (some elevenLabels) 1 = .ok out := by
  obtain ⟨out, _, _, h, _⟩ := C52_main_runs digit _ _ _ _ 1 _ _ _ _ 1 elevenRows_holds elevenLabels_holds elevenRows_holds
    elevenLabels_holds (by decide) (by decide) (by decide) (by decide) (by decide) (by decide +kernel) (by decide) (by decide)
    (by decide) (by decide)
  exact ⟨out, h⟩
example : ∃ e, mainProgram digit (some elevenRows) (some elevenRows) none none 1 = .error e :=
  C52_main_wrong_targets digit _ _ _ _ 1 _ _ 1 1 elevenRows_holds elevenRows_holds (by decide) (by decide) (by decide) (by decide)
    (by decide +kernel) (by decide) (by decide)
example : ∃ e, mainProgram digit (some elevenRows) none none none 1 = .error e :=
  C52_main_panics digit _ _ _ _ 1 (.inr (.inl (.inl rfl)))

end Verif
