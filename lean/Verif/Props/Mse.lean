import Verif.Spec.Mse
import Verif.Props.Score
/-!
# C51: what the regression scorers compute, for any arithmetic, and when they panic
-/

set_option linter.unusedSectionVars false

namespace Verif

variable {F : Type} [F64 F]

open Sample

theorem sum_loop_iff {n : Nat} {g : Nat → R F} {s a : F} :
    forRange n (fun i (s : F) => do let e ← g i; pure (s +. e)) s = .ok a ↔
      ∃ es, (List.range n).mapM g = .ok es ∧ a = es.foldl F64.add s := by
  induction n generalizing a with
  | zero =>
    simp only [forRange, List.range_zero, List.foldlM_nil, mapM_nil_R, R.pure_eq, Except.ok.injEq, exists_eq_left', List.foldl_nil]
    exact eq_comm
  | succ n ih =>
    rw [forRange_succ, List.range_succ, mapM_append_R]
    simp only [R.bind_eq_ok, ih]
    constructor
    · rintro ⟨b, ⟨es, h1, rfl⟩, e, h2, h3⟩
      cases h3
      exact ⟨es ++ [e], ⟨es, h1, [e], by simp [h2], rfl⟩, by simp⟩
    · rintro ⟨l, ⟨es, h1, fs, h2, h3⟩, rfl⟩
      cases h3
      simp only [mapM_cons_R] at h2
      simp only [R.bind_eq_ok, mapM_nil_R, R.pure_eq] at h2
      obtain ⟨e, h4, fs', h5, h6⟩ := h2
      cases h5
      cases h6
      exact ⟨_, ⟨es, h1, rfl⟩, e, h4, by simp⟩

/-- `mapM` over a range, when the result at `i` is known exactly -/
theorem range_mapM_iff {α : Type} {n : Nat} {g : Nat → R α} {ok : Nat → Prop} {f : Nat → α}
    (h : ∀ i < n, ∀ e, g i = .ok e ↔ ok i ∧ e = f i) {es : List α} :
    (List.range n).mapM g = .ok es ↔ (∀ i < n, ok i) ∧ es = (List.range n).map f := by
  constructor
  · intro hm
    have hok : ∀ i < n, ok i ∧ g i = .ok (f i) := by
      intro i hi
      obtain ⟨e, he⟩ := mapM_ok_iff.mp ⟨_, hm⟩ i (List.mem_range.mpr hi)
      obtain ⟨h1, rfl⟩ := (h i hi e).mp he
      exact ⟨h1, he⟩
    refine ⟨fun i hi => (hok i hi).1, ?_⟩
    rw [mapM_ok (g := f) (fun i hi => (hok i (List.mem_range.mp hi)).2)] at hm
    exact (Except.ok.inj hm).symm
  · rintro ⟨h1, rfl⟩
    exact mapM_ok (fun i hi => (h i (List.mem_range.mp hi) _).mpr ⟨h1 i (List.mem_range.mp hi), rfl⟩)

theorem meanSumOfSquaredDifferencesVectors_iff {p a : List F} {e : F} :
    meanSumOfSquaredDifferencesVectors p a = .ok e ↔ p.length ≤ a.length ∧ e = squaredError F64.zero p a := by
  have hbody : (fun i (s : F) => (do
      let error := (← idx p i) -. (← idx a i)
      pure (s +. square error) : R F)) = fun i s => (do
        let e ← (do let x ← idx p i; let y ← idx a i; pure (square (x -. y)))
        pure (s +. e)) := by
    funext i s
    simp only [bind_assoc, pure_bind]
  rw [meanSumOfSquaredDifferencesVectors, hbody, R.bind_eq_ok]
  have key := fun es => range_mapM_iff (n := p.length) (es := es)
    (g := fun i => (do let x ← idx p i; let y ← idx a i; pure (square (x -. y)) : R F)) (ok := fun i => i < a.length)
    (f := fun i => (p.getD i F64.zero -. a.getD i F64.zero) *. (p.getD i F64.zero -. a.getD i F64.zero)) (by
      intro i hi e
      rw [idx_lt hi, R.ok_bind]
      by_cases hia : i < a.length
      · rw [idx_lt hia, R.ok_bind]
        simp [hi, hia, square, eq_comm]
      · rw [idx_none (by omega)]
        simp [hia])
  simp only [sum_loop_iff, key]
  have hlen : (∀ i < p.length, i < a.length) ↔ p.length ≤ a.length := by
    constructor
    · intro h
      by_contra hlt
      have := h a.length (by omega)
      omega
    · intro h i hi
      omega
  have hz : p.length ≤ a.length → (List.range p.length).map (fun i =>
      (p.getD i F64.zero -. a.getD i F64.zero) *. (p.getD i F64.zero -. a.getD i F64.zero)) =
      List.zipWith (fun x y => (x -. y) *. (x -. y)) p a := by
    intro hle
    apply List.ext_getElem (by simp [hle])
    intro i h1 h2
    simp at h1
    have : i < a.length := by omega
    simp [h1, this]
  rw [hlen]
  constructor
  · rintro ⟨s, ⟨es, ⟨h1, rfl⟩, rfl⟩, h2⟩
    refine ⟨h1, ?_⟩
    rw [hz h1] at h2
    exact (Except.ok.inj h2).symm
  · rintro ⟨h1, rfl⟩
    exact ⟨_, ⟨_, ⟨h1, rfl⟩, rfl⟩, by rw [hz h1]; rfl⟩

theorem meanSumOfSquaredDifferences_iff {p a : List F} {e : F} :
    meanSumOfSquaredDifferences p a = .ok e ↔ p.length = a.length ∧ e = squaredError F64.sumStart p a := by
  simp only [meanSumOfSquaredDifferences, R.bind_eq_ok, assertEq_eq_ok, R.pure_eq, exists_const, Except.ok.injEq]
  exact and_congr_right (fun _ => eq_comm)

/-- **C51** (tree).  On a test set whose rows have enough columns, the score of a trained tree is the average over the rows of the
average squared difference between the mean of the training labels sharing the row's path and the label of the row.  It is returned
exactly if every row has a label with at least as many entries as there are targets; additional entries are not looked at. -/
theorem C51_tree_score [LawfulOrder F] (d : DataSet F) (c t : Nat) (h : d.WF c t) (cfg : TreeConfig) (ht : cfg.numberOfClasses = t)
    (tree : TreeNode F (RegressionLeaf F)) (hb : regressionTreeNew d cfg = .ok tree) (test : DataSet F)
    (hrows : ∀ row ∈ test.featureRows, c ≤ row.length) (a : F) :
    calculateOverallMse test tree = .ok a ↔
      test.featureRows.length ≤ test.labels.length ∧ (∀ l ∈ test.labels.take test.featureRows.length, t ≤ l.length) ∧
      a = averageError F64.zero test.featureRows.length
        (test.featureRows.map (fun row => leafValue .regression t (companions d tree row))) test.labels := by
  have hbody : (fun i (total : F) => (do
      let leaf ← findLeafNodeForData (← idx test.featureRows i) tree
      let prediction ← calculateAverageLabelVector (← unwrap leaf.data).labels
      let actual ← idx test.labels i
      let e ← meanSumOfSquaredDifferencesVectors prediction actual
      pure (total +. e) : R F)) = fun i total => (do
        let e ← (do
          let leaf ← findLeafNodeForData (← idx test.featureRows i) tree
          let prediction ← calculateAverageLabelVector (← unwrap leaf.data).labels
          let actual ← idx test.labels i
          meanSumOfSquaredDifferencesVectors prediction actual)
        pure (total +. e)) := by
    funext i s
    simp only [bind_assoc]
  rw [calculateOverallMse, hbody, R.bind_eq_ok]
  set pred := fun row => leafValue (F := F) .regression t (companions d tree row) with hpred
  have hpl : ∀ row, (pred row).length = t := fun row => by simp [hpred, leafValue]
  have key := fun es => range_mapM_iff (n := test.featureRows.length) (es := es)
    (g := fun i => (do
          let leaf ← findLeafNodeForData (← idx test.featureRows i) tree
          let prediction ← calculateAverageLabelVector (← unwrap leaf.data).labels
          let actual ← idx test.labels i
          meanSumOfSquaredDifferencesVectors prediction actual : R F))
    (ok := fun i => i < test.labels.length ∧ t ≤ (test.labels.getD i []).length)
    (f := fun i => squaredError F64.zero (pred (test.featureRows.getD i [])) (test.labels.getD i [])) (by
      intro i hi e
      obtain ⟨dd, hf, hw, hl⟩ := lookup_companions d c t h cfg ht tree hb _ (hrows _ (List.getElem_mem hi))
      rw [idx_lt hi, R.ok_bind, hf, R.ok_bind]
      simp only [unwrap, R.ok_bind]
      rw [calculateAverageLabelVector_eq, calculateAverageVector_ok hw.labels_ne hw.label_len, R.ok_bind]
      have hp : avgVec t dd.labels = pred (test.featureRows.getD i []) := by
        rw [avgVec_range hw.label_len, hl]
        simp [hpred, leafValue, hi]
      rw [hp]
      by_cases hia : i < test.labels.length
      · rw [idx_lt hia, R.ok_bind, meanSumOfSquaredDifferencesVectors_iff, hpl]
        simp [hia]
      · rw [idx_none (by omega)]
        simp [hia])
  simp only [sum_loop_iff, key]
  have hcond : (∀ i < test.featureRows.length, i < test.labels.length ∧ t ≤ (test.labels.getD i []).length) ↔
      test.featureRows.length ≤ test.labels.length ∧ ∀ l ∈ test.labels.take test.featureRows.length, t ≤ l.length := by
    constructor
    · intro hall
      refine ⟨?_, ?_⟩
      · by_contra hlt
        have := (hall test.labels.length (by omega)).1
        omega
      · intro l hl
        obtain ⟨i, hi, rfl⟩ := List.getElem_of_mem hl
        simp only [List.length_take] at hi
        have := (hall i (by omega)).2
        have hi2 : i < test.labels.length := by omega
        simpa [hi2] using this
    · rintro ⟨h1, h2⟩ i hi
      have hi2 : i < test.labels.length := by omega
      refine ⟨hi2, ?_⟩
      have := h2 test.labels[i] (List.mem_take_iff_getElem.mpr ⟨i, by omega, rfl⟩)
      simpa [hi2] using this
  have hz : test.featureRows.length ≤ test.labels.length → (List.range test.featureRows.length).map (fun i =>
      squaredError F64.zero (pred (test.featureRows.getD i [])) (test.labels.getD i [])) =
      List.zipWith (squaredError F64.zero) (test.featureRows.map pred) test.labels := by
    intro hle
    apply List.ext_getElem (by simp [hle])
    intro i h1 h2
    simp at h1
    have : i < test.labels.length := by omega
    simp [h1, this]
  rw [hcond, ← and_assoc]
  constructor
  · rintro ⟨s, ⟨es, ⟨h1, rfl⟩, rfl⟩, h2⟩
    refine ⟨h1, ?_⟩
    rw [hz h1.1] at h2
    exact (Except.ok.inj h2).symm
  · rintro ⟨h1, rfl⟩
    exact ⟨_, ⟨_, ⟨h1, rfl⟩, rfl⟩, by rw [hz h1.1]; rfl⟩

/-- **C51** (ensemble).  The score of a regression ensemble is the average over the labels of the average squared difference between a
label and the prediction for the row with the same number.  It is returned exactly if every row can be predicted, every label has
its row, and label and prediction have the same length; rows without label are not scored. -/
theorem C51_ensemble_score (m : BoostModel F (GradBoostLeaf F)) (test : DataSet F) (a : F) :
    regressionScore m test = .ok a ↔ ∃ preds, test.featureRows.mapM (regressionPredict m) = .ok preds ∧
      test.labels.length ≤ preds.length ∧ (∀ e ∈ test.labels.zip preds, e.1.length = e.2.length) ∧
      a = averageError F64.sumStart test.labels.length test.labels preds := by
  have hbody : ∀ preds : List (List F), (fun i (total : F) => (do
      let e ← meanSumOfSquaredDifferences (← idx test.labels i) (← idx preds i)
      pure (total +. e) : R F)) = fun i total => (do
        let e ← (do meanSumOfSquaredDifferences (← idx test.labels i) (← idx preds i))
        pure (total +. e)) := by
    intro preds
    funext i s
    simp only [bind_assoc]
  simp only [regressionScore, regressionPredictAll, range_mapM, R.bind_eq_ok]
  refine exists_congr (fun preds => and_congr_right (fun _ => ?_))
  rw [calculateMeanSquaredError, hbody, R.bind_eq_ok]
  have key := fun es => range_mapM_iff (n := test.labels.length) (es := es)
    (g := fun i => (do meanSumOfSquaredDifferences (← idx test.labels i) (← idx preds i) : R F))
    (ok := fun i => i < preds.length ∧ (test.labels.getD i []).length = (preds.getD i []).length)
    (f := fun i => squaredError F64.sumStart (test.labels.getD i []) (preds.getD i [])) (by
      intro i hi e
      rw [idx_lt hi, R.ok_bind]
      by_cases hia : i < preds.length
      · rw [idx_lt hia, R.ok_bind, meanSumOfSquaredDifferences_iff]
        simp [hi, hia]
      · rw [idx_none (by omega)]
        simp [hia])
  simp only [sum_loop_iff, key]
  have hcond : (∀ i < test.labels.length, i < preds.length ∧ (test.labels.getD i []).length = (preds.getD i []).length) ↔
      test.labels.length ≤ preds.length ∧ ∀ e ∈ test.labels.zip preds, e.1.length = e.2.length := by
    constructor
    · intro hall
      refine ⟨?_, ?_⟩
      · by_contra hlt
        have := (hall preds.length (by omega)).1
        omega
      · intro e he
        obtain ⟨i, hi, rfl⟩ := List.getElem_of_mem he
        simp only [List.length_zip] at hi
        have := (hall i (by omega)).2
        have hi1 : i < test.labels.length := by omega
        have hi2 : i < preds.length := by omega
        simpa [hi1, hi2] using this
    · rintro ⟨h1, h2⟩ i hi
      have hi2 : i < preds.length := by omega
      refine ⟨hi2, ?_⟩
      have := h2 (test.labels[i], preds[i]) (by
        rw [List.mem_iff_getElem]
        exact ⟨i, by simp [hi, hi2], by simp⟩)
      simpa [hi, hi2] using this
  have hz : test.labels.length ≤ preds.length → (List.range test.labels.length).map (fun i =>
      squaredError F64.sumStart (test.labels.getD i []) (preds.getD i [])) =
      List.zipWith (squaredError F64.sumStart) test.labels preds := by
    intro hle
    apply List.ext_getElem (by simp [hle])
    intro i h1 h2
    simp at h1
    have : i < preds.length := by omega
    simp [h1, this]
  rw [hcond, ← and_assoc]
  constructor
  · rintro ⟨s, ⟨es, ⟨h1, rfl⟩, rfl⟩, h2⟩
    refine ⟨h1, ?_⟩
    rw [hz h1.1] at h2
    exact (Except.ok.inj h2).symm
  · rintro ⟨h1, rfl⟩
    exact ⟨_, ⟨_, ⟨h1, rfl⟩, rfl⟩, by rw [hz h1.1]; rfl⟩

-- scores that are returned, and a test set with a label too few
example : (do
    let tree ← regressionTreeNew d4 { useMultiThreading := false, numberOfClasses := 1, maxLevels := 1 }
    calculateOverallMse { d4 with labels := [[1], [1], [4], [6, 9]] } tree) = .ok (.fin (41 / 12)) := by decide +kernel
example : (do
    let tree ← regressionTreeNew d4 { useMultiThreading := false, numberOfClasses := 1, maxLevels := 1 }
    calculateOverallMse { d4 with labels := [[0], [1], [4]] } tree) = .error .index := by decide +kernel

end Verif
