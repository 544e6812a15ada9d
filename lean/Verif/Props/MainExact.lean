import Verif.Props.Main
import Verif.Props.Accept
/-!
# C89: when the program runs to its end
-/

set_option linter.unusedSectionVars false

namespace Verif

open Sample

variable {F : Type} [F64 F]

/-- Training with at least one iteration notices missing and surplus labels. -/
theorem regressionTrain_lengths {d : DataSet F} {c t : Nat} (h : d.Tables c t) (hc : 0 < c) {cfg : TreeConfig} {n : Nat} (hn : 0 < n) {lr : F}
    {m : BoostModel F (GradBoostLeaf F)} (hm : regressionTrain d cfg n lr = .ok m) : d.labels.length = d.featureRows.length := by
  obtain ⟨f, h1⟩ := train_inv hm
  obtain ⟨_, _, h2⟩ := boostingLoop_inv h1
  simp only [regressionLoop_eq] at h2
  exact (loop_accepts h hc (grad_updateAdds lr _) regressionResiduals_length
    (fun e tree he => by rw [gradBoostTreeNew_fuel] at he; exact fuel_split he) hn h2).1

/-- the width of a file with records is the width of its header -/
theorem holds_header {parse : String → Option F} {file : Option CsvRecords} {values : List (List F)}
    (h : HoldsRecords parse file values) (hne : values ≠ []) :
    ∃ header records, file = some (header :: records) ∧ ∀ row ∈ values, row.length = header.length := by
  rcases h with ⟨_, h0⟩ | ⟨header, records, h1, h2⟩
  · exact absurd h0 hne
  · refine ⟨header, records, h1, fun row hrow => ?_⟩
    obtain ⟨record, _, h3, h4⟩ := forall₂_mem_right h2 hrow
    have := congrArg List.length h4
    simp only [List.length_map] at this
    omega

/-- **C89**.  If the training features have at least one column and the test features have no fewer columns, then the program runs to its
end if and only if: all four files can be read; there are at least 11 training records with features and as many with labels; every
training label has 10 entries; no training feature is NaN; there is a test label; there are no more test labels than test rows; and every
test label has 10 entries. -/
theorem C89_main_iff [LawfulOrder F] (parse : String → Option F) (featuresTrain labelsTrain featuresTest labelsTest : Option CsvRecords)
    (lr : F)
    (hcols : ∀ header records, featuresTrain = some (header :: records) → header.length ≠ 0 ∧ header.length ≤ 2 ^ 32)
    (hwide : ∀ header records header' records', featuresTrain = some (header :: records) → featuresTest = some (header' :: records') →
      header.length ≤ header'.length) :
    (∃ out, mainProgram parse featuresTrain labelsTrain featuresTest labelsTest lr = .ok out) ↔
      ∃ rows labels testRows testLabels,
        HoldsRecords parse featuresTrain rows ∧ HoldsRecords parse labelsTrain labels ∧
        HoldsRecords parse featuresTest testRows ∧ HoldsRecords parse labelsTest testLabels ∧
        11 ≤ rows.length ∧ labels.length = rows.length ∧ (∀ l ∈ labels, l.length = 10) ∧
        (∀ row ∈ rows, ∀ x ∈ row, isNaN x = false) ∧
        testLabels ≠ [] ∧ testLabels.length ≤ testRows.length ∧ ∀ l ∈ testLabels, l.length = 10 := by
  constructor
  · rintro ⟨out, ho⟩
    simp only [mainProgram, R.bind_eq_ok] at ho
    obtain ⟨train, h1, l10, h2, m, h3, test, h4, mse, h5, row0, h6, pred, h7, l0, h8, _⟩ := ho
    obtain ⟨a1, a2, a3, a4⟩ := (C50_multi_target parse _ _ _).mp h1
    obtain ⟨b1, b2, b3, b4⟩ := (C50_multi_target parse _ _ _).mp h4
    obtain ⟨header, records, hf, hw⟩ := holds_header a1 a3
    obtain ⟨header', records', hf', hw'⟩ := holds_header b1 b3
    obtain ⟨hc0, hc1⟩ := hcols header records hf
    have hle := hwide _ _ _ _ hf hf'
    have hhead : (train.featureRows.headD []).length = header.length := by
      obtain ⟨r, rs, hr⟩ := List.exists_cons_of_ne_nil a3
      rw [hr]
      exact hw r (by rw [hr]; simp)
    have htab : train.Tables header.length (train.labels.headD []).length :=
      ⟨hw, holds_width a2, by rw [a4, hhead], hc1⟩
    have hlen := regressionTrain_lengths htab (by omega) (by decide : 0 < 300) h3
    have h11 : 11 ≤ train.labels.length := by
      rw [idx_eq_ok] at h2
      have := (List.getElem?_eq_some_iff.mp h2).1
      omega
    obtain ⟨_, _, g3, g4⟩ := (C88_regression_ensemble train _ _ htab (by omega) (fun h => by omega) _ 300 (by decide) lr).mp ⟨m, h3⟩
    have hl10 : ∀ l ∈ train.labels, l.length = 10 := fun l hl => by rw [holds_width a2 l hl]; exact g3.symm
    obtain ⟨m', hm', hpred⟩ := C42_regression train header.length 10 ⟨a3, hw, hlen, hl10, by rw [a4, hhead], g4, hc1⟩
      { useMultiThreading := true, numberOfClasses := 10, maxLevels := 3 } rfl 300 lr
    rw [h3] at hm'
    cases hm'
    obtain ⟨preds, c1, c2, c3, _⟩ := (C51_ensemble_score m test mse).mp h5
    have hpl := mapM_length c1
    have ht0 : test.labels ≠ [] := by
      rintro h0
      rw [h0] at h8
      cases h8
    refine ⟨_, _, _, _, a1, a2, b1, b2, by omega, hlen, hl10, g4, ht0, by omega, fun l hl => ?_⟩
    obtain ⟨i, hi⟩ := List.getElem?_of_mem hl
    have hil := (List.getElem?_eq_some_iff.mp hi).1
    have hip : i < preds.length := by omega
    have hir : i < test.featureRows.length := by omega
    obtain ⟨p, e1, e2⟩ := mapM_get c1 (List.getElem?_eq_getElem hir)
    obtain ⟨p', e3, e4⟩ := hpred test.featureRows[i] (by rw [hw' _ (List.getElem_mem hir)]; exact hle)
    rw [e2] at e3
    cases e3
    have := c3 (l, p) (List.mem_iff_getElem?.mpr ⟨i, by rw [List.getElem?_zip_eq_some]; exact ⟨hi, e1⟩⟩)
    simpa [e4] using this
  · rintro ⟨rows, labels, testRows, testLabels, h1, h2, h3, h4, h5, h6, h7, h8, h9, h10, h11⟩
    have hr0 : rows ≠ [] := List.ne_nil_of_length_pos (by omega)
    have hl0 := List.length_pos_of_ne_nil h9
    have ht0 : testRows ≠ [] := List.ne_nil_of_length_pos (by omega)
    obtain ⟨header, records, hf, hw⟩ := holds_header h1 hr0
    obtain ⟨header', records', hf', hw'⟩ := holds_header h3 ht0
    obtain ⟨out, _, _, ho, _⟩ := C52_main_runs parse featuresTrain labelsTrain featuresTest labelsTest lr rows labels testRows testLabels
      header.length h1 h2 h3 h4 h5 h6 hw (hcols _ _ hf).2 h7 h8 (fun row hrow => by rw [hw' row hrow]; exact hwide _ _ _ _ hf hf') h11 h9 h10
    exact ⟨out, ho⟩

/-- ten labels for eleven rows -/
def tenLabels : CsvRecords :=
  List.replicate 10 "y" :: (["0", "1", "0", "1", "1", "0", "7", "3", "2", "2"].map fun v => List.replicate 10 v)

theorem tenLabels_holds : HoldsRecords digit (some tenLabels)
    ([0, 1, 0, 1, 1, 0, 7, 3, 2, 2].map fun v => List.replicate 10 v) := by
  refine .inr ⟨_, _, rfl, ?_⟩
  simp [digit]

-- the hypotheses on the columns
example : (∀ header records, some elevenRows = some (header :: records) → header.length ≠ 0 ∧ header.length ≤ 2 ^ 32) ∧
    (∀ header records header' records', some elevenRows = some (header :: records) → some elevenRows = some (header' :: records') →
      header.length ≤ header'.length) := by
  refine ⟨fun header records h => ?_, fun header records header' records' h h' => ?_⟩
  · cases h
    decide
  · cases h
    cases h'
    decide
-- both sides are true
example : ∃ out, mainProgram digit (some elevenRows) (some elevenLabels) (some elevenRows) (some tenLabels) 1 = .ok out := by
  refine (C89_main_iff digit _ _ _ _ 1 ?_ ?_).mpr ⟨_, _, _, _, elevenRows_holds, elevenLabels_holds, elevenRows_holds, tenLabels_holds,
    by decide, by decide, by decide, by decide +kernel, by decide, by decide, by decide⟩
  · intro header records h
    cases h
    decide
  · intro header records header' records' h h'
    cases h
    cases h'
    decide
-- both sides are false: a training label is missing
example : ¬ ∃ out, mainProgram digit (some elevenRows) (some tenLabels) (some elevenRows) (some elevenLabels) 1 = .ok out := by
  rw [C89_main_iff digit _ _ _ _ 1]
  · rintro ⟨rows, labels, _, _, h1, h2, _, _, h3, h4, _⟩
    rw [C50_content_unique digit _ _ _ h2 tenLabels_holds] at h4
    simp at h4
    omega
  · intro header records h
    cases h
    decide
  · intro header records header' records' h h'
    cases h
    cases h'
    decide

end Verif
