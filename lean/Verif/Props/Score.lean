import Verif.Lemmas.Score
import Verif.Num.ExtLaws
import Verif.Props.Tree
/-!
# C27, C28, C39, C43: class predictions and accuracy; C29: scores are never negative
-/

set_option linter.unusedSectionVars false

namespace Verif

variable {F : Type} [F64 F]

open Sample

/-! ## C27 -/

theorem lookup_companions [LawfulOrder F] (d : DataSet F) (c t : Nat) (h : d.WF c t) (cfg : TreeConfig)
    (ht : cfg.numberOfClasses = t) (tree : TreeNode F (RegressionLeaf F)) (hb : regressionTreeNew d cfg = .ok tree)
    (row : List F) (hrow : c ≤ row.length) :
    ∃ dd : DataSet F, findLeafNodeForData row tree = .ok { data := some dd } ∧ dd.WF c t ∧ dd.labels = companions d tree row := by
  obtain ⟨leaf, hf, hat⟩ := C21_lookup_total d c t h cfg ht tree hb row hrow
  obtain ⟨dd, hdd, hw, hex⟩ := C19_leaf_contents d c t h cfg ht tree hb _ leaf hat
  refine ⟨dd, ?_, hw, ?_⟩
  · rw [hf]; cases leaf; simp only at hdd; rw [hdd]
  · rw [← examples_snd hw, hex]; rfl

/-- **C27**.  The class predicted by a trained tree for any row is the one-hot vector of the first majority class among the
training labels that share the row's path. -/
theorem C27_first_majority [LawfulOrder F] [LawfulCount F] (d : DataSet F) (c t : Nat) (h : d.WF c t) (ht0 : 0 < t)
    (ht1 : t ≤ 2 ^ 53) (hn : d.featureRows.length < 2 ^ 32) (cfg : TreeConfig) (ht : cfg.numberOfClasses = t)
    (tree : TreeNode F (RegressionLeaf F)) (hb : regressionTreeNew d cfg = .ok tree) (row : List F) (hrow : c ≤ row.length) :
    ∃ k, FirstMajority (companions d tree row) t k ∧ predictClass row tree = .ok (oneHot t k) := by
  obtain ⟨dd, hf, hw, hl⟩ := lookup_companions d c t h cfg ht tree hb row hrow
  have hlen : dd.labels.length < 2 ^ 32 := by
    rw [hl, companions, List.length_map]
    refine Nat.lt_of_le_of_lt (List.length_filter_le _ _) ?_
    simpa [DataSet.examples, h.label_count] using hn
  obtain ⟨k, hk, hp⟩ := predictClass_ok hf hw.labels_ne hw.label_len ht0 ht1 hlen
  exact ⟨k, hl ▸ hk, by rw [hp, set_oneHot]⟩

/-- **C27**.  The first majority class is unique, so the theorem above determines the prediction. -/
theorem C27_unique (labels : List (List F)) (n j k : Nat) (hj : FirstMajority labels n j) (hk : FirstMajority labels n k) :
    j = k := by
  obtain ⟨h1, h2, h3⟩ := hj
  obtain ⟨h1', h2', h3'⟩ := hk
  rcases Nat.lt_trichotomy j k with h | h | h
  · have := h3' j h; have := h2 k h1'; omega
  · exact h
  · have := h3 k h; have := h2' j h1; omega

/-- **C27**.  With no classes (labels of length zero) prediction panics. -/
theorem C27_no_classes (row : List F) (tree : TreeNode F (RegressionLeaf F)) (d : DataSet F)
    (hf : findLeafNodeForData row tree = .ok { data := some d }) (l : List F) (hl : d.labels = [l]) (h0 : l = []) :
    ∃ e, predictClass row tree = .error e := by
  subst h0
  refine ⟨.index, ?_⟩
  simp [predictClass, hf, unwrap, hl, idx, getClassCounts, forRange, setIdx, bind, Except.bind]

-- a leaf with two labels of class 1 and one of class 0: class 1 is predicted
example : (do
    let tree ← regressionTreeNew d5 { useMultiThreading := false, numberOfClasses := 3, maxLevels := 0 }
    predictClass [0, 0] tree) = .ok (oneHot 3 0) := by decide +kernel
example : (do
    let tree ← regressionTreeNew d5 { useMultiThreading := false, numberOfClasses := 3, maxLevels := 1 }
    predictClass [0, 0] tree) = .ok (oneHot 3 1) := by decide +kernel

/-! ## C28 -/

theorem matchCount_snoc {ps : List (List F)} {p a : List F} {labels : List (List F)} (h : labels[ps.length]? = some a) :
    matchCount (ps ++ [p]) labels = matchCount ps labels + if vecEq p a then 1 else 0 := by
  obtain ⟨hlt, ha⟩ := List.getElem?_eq_some_iff.mp h
  have hz : (ps ++ [p]).zip labels = ps.zip labels ++ [(p, a)] := by
    conv_lhs => rw [← List.take_append_drop ps.length labels]
    rw [List.zip_append (by simp; omega), List.drop_eq_getElem_cons hlt, ha]
    congr 1
    conv_rhs => rw [← List.take_append_drop ps.length labels]
    rw [← List.append_nil ps, List.zip_append (by simp; omega)]
    simp
  simp only [matchCount, hz, List.countP_append, List.countP_singleton]

theorem accuracy_loop [LawfulCount F] {predict : List F → R (List F)} {rows labels : List (List F)} {a : F}
    (hn : rows.length ≤ 2 ^ 53)
    (h : forRange rows.length (fun i (accuracy : F) => do
      let prediction ← predict (← idx rows i)
      let actual ← idx labels i
      if vecEq prediction actual then pure (accuracy +. F64.one) else pure accuracy) F64.zero = .ok a) :
    ∃ preds, rows.mapM predict = .ok preds ∧ rows.length ≤ labels.length ∧ a = F64.ofNat (matchCount preds labels) := by
  have := forRange_inv (P := fun i (a : F) => i ≤ rows.length ∧ ∃ preds, (rows.take i).mapM predict = .ok preds ∧ i ≤ labels.length ∧
    a = F64.ofNat (matchCount preds labels)) ⟨Nat.zero_le _, [], by simp [pure, Except.pure, matchCount, LawfulCount.zero_eq_ofNat]⟩ h ?_
  · obtain ⟨_, preds, h1, h2, h3⟩ := this
    rw [List.take_length] at h1
    exact ⟨preds, h1, h2, h3⟩
  · intro i s s' hi ⟨_, preds, hp, hil, hs⟩ hb
    simp only [R.bind_eq_ok] at hb
    obtain ⟨row, hrow, p, hpred, act, hact, hb⟩ := hb
    rw [idx_eq_ok] at hrow hact
    have hlen : preds.length = i := by
      have := mapM_length hp
      simp at this; omega
    have hp' : (rows.take (i + 1)).mapM predict = .ok (preds ++ [p]) := by
      rw [List.take_add_one, hrow, mapM_append_R, hp]
      simp [bind, Except.bind, pure, Except.pure, hpred]
    refine ⟨hi, preds ++ [p], hp', (List.getElem?_eq_some_iff.mp hact).1, ?_⟩
    rw [matchCount_snoc (hlen ▸ hact)]
    split at hb
    · next hv =>
      cases hb
      rw [hs, if_pos hv, LawfulCount.add_one]
      have : matchCount preds labels ≤ preds.length := by
        refine Nat.le_trans List.countP_le_length ?_
        simp
      omega
    · next hv => cases hb; rw [hs, if_neg hv]; rfl

theorem accuracy_loop_iff [LawfulCount F] {predict : List F → R (List F)} {rows labels : List (List F)} {a : F}
    (hn : rows.length ≤ 2 ^ 53) :
    forRange rows.length (fun i (accuracy : F) => do
      let prediction ← predict (← idx rows i)
      let actual ← idx labels i
      if vecEq prediction actual then pure (accuracy +. F64.one) else pure accuracy) F64.zero = .ok a ↔
    ∃ preds, rows.mapM predict = .ok preds ∧ rows.length ≤ labels.length ∧ a = F64.ofNat (matchCount preds labels) := by
  refine ⟨accuracy_loop hn, ?_⟩
  rintro ⟨preds, h1, h2, rfl⟩
  have htot : ∃ s', forRange rows.length (fun i (accuracy : F) => do
      let prediction ← predict (← idx rows i)
      let actual ← idx labels i
      if vecEq prediction actual then pure (accuracy +. F64.one) else pure accuracy) F64.zero = .ok s' ∧ True := by
    refine forRange_ok (fun _ _ => True) trivial ?_
    intro i s hi _
    obtain ⟨p, _, hp⟩ := mapM_get h1 (List.getElem?_eq_getElem hi)
    refine ⟨if vecEq p (labels[i]'(by omega)) then s +. F64.one else s, ?_, trivial⟩
    simp only [idx_lt hi, idx_lt (v := labels) (i := i) (by omega), bind, Except.bind, hp]
    split <;> rfl
  obtain ⟨s, hs, _⟩ := htot
  obtain ⟨preds', h1', _, rfl⟩ := accuracy_loop hn hs
  rw [h1] at h1'
  cases h1'
  exact hs

/-- **C28** (single tree).  The accuracy is the number of rows whose predicted class vector equals the label, divided by the
number of rows; it is returned exactly if every row can be predicted and has a label. -/
theorem C28_tree_accuracy [LawfulCount F] (test : DataSet F) (tree : TreeNode F (RegressionLeaf F)) (a : F)
    (hn : test.featureRows.length ≤ 2 ^ 53) :
    calculateAccuracy test tree = .ok a ↔
    ∃ preds, test.featureRows.mapM (fun row => predictClass row tree) = .ok preds ∧ test.featureRows.length ≤ test.labels.length ∧
      a = F64.ofNat (matchCount preds test.labels) /. F64.ofNat test.featureRows.length := by
  simp only [calculateAccuracy, R.bind_eq_ok, R.pure_eq]
  constructor
  · rintro ⟨s, hs, ha⟩
    obtain ⟨preds, h1, h2, h3⟩ := (accuracy_loop_iff (predict := fun row => predictClass row tree) hn).mp hs
    cases ha
    exact ⟨preds, h1, h2, by rw [h3]⟩
  · rintro ⟨preds, h1, h2, rfl⟩
    exact ⟨_, (accuracy_loop_iff (predict := fun row => predictClass row tree) hn).mpr ⟨preds, h1, h2, rfl⟩, rfl⟩

theorem range_mapM {α : Type} {f : List F → R α} (rows : List (List F)) :
    (List.range rows.length).mapM (fun i => do f (← idx rows i)) = rows.mapM f := by
  conv_rhs => rw [← List.map_id rows]
  have : rows.map id = (List.range rows.length).map (fun i => rows.getD i []) := by
    apply List.ext_getElem (by simp)
    intro i h1 h2
    simp at h1
    simp [h1]
  rw [this, mapM_map_R]
  apply mapM_congr
  intro i hi
  simp at hi
  rw [idx_lt hi]
  simp [hi, bind, Except.bind]

theorem accuracyFromPredictions_iff [LawfulCount F] {preds : List (List F)} {test : DataSet F} {a : F}
    (hn : preds.length ≤ 2 ^ 53) : calculateAccuracyFromPredictions preds test = .ok a ↔
    preds.length ≤ test.labels.length ∧ a = F64.ofNat (matchCount preds test.labels) /. F64.ofNat preds.length := by
  have hs : forEnum preds (fun i prediction (correct : F) => do
      let actual ← idx test.labels i
      if vecEq prediction actual then pure (correct +. F64.one) else pure correct) F64.zero =
    forRange preds.length (fun i (accuracy : F) => do
      let prediction ← pure (← idx preds i)
      let actual ← idx test.labels i
      if vecEq prediction actual then pure (accuracy +. F64.one) else pure accuracy) F64.zero :=
    (forRange_idx (body := fun i p (correct : F) => do
      let actual ← idx test.labels i
      if vecEq p actual then pure (correct +. F64.one) else pure correct)).symm
  have hm : preds.mapM (fun p => (pure p : R (List F))) = .ok preds := by
    have h2 : preds.mapM (fun p => (pure p : R (List F))) = .ok (preds.map id) := mapM_ok (fun x _ => rfl)
    rw [h2, List.map_id]
  have key := fun b => accuracy_loop_iff (predict := fun p => (pure p : R (List F))) (labels := test.labels) (a := b) hn
  rw [calculateAccuracyFromPredictions, hs, R.bind_eq_ok]
  constructor
  · rintro ⟨s, hs, ha⟩
    obtain ⟨ps, h1, h2, h3⟩ := (key s).mp hs
    rw [hm] at h1
    cases h1
    cases ha
    exact ⟨h2, by rw [h3]⟩
  · rintro ⟨h2, rfl⟩
    exact ⟨_, (key _).mpr ⟨preds, hm, h2, rfl⟩, rfl⟩

/-- **C28** (multi-class ensemble). -/
theorem C28_multiClass_accuracy [LawfulCount F] (m : BoostModel F (GradBoostLeaf F)) (test : DataSet F) (a : F)
    (hn : test.featureRows.length ≤ 2 ^ 53) :
    multiClassScore m test = .ok a ↔
    ∃ preds, test.featureRows.mapM (multiClassPredict m) = .ok preds ∧ test.featureRows.length ≤ test.labels.length ∧
      a = F64.ofNat (matchCount preds test.labels) /. F64.ofNat test.featureRows.length := by
  simp only [multiClassScore, multiClassPredictAll, range_mapM, R.bind_eq_ok]
  refine exists_congr (fun preds => and_congr_right (fun h1 => ?_))
  have hlen := mapM_length h1
  rw [accuracyFromPredictions_iff (by omega), hlen]

/-- **C28** (AMG ensemble). -/
theorem C28_amg_accuracy [LawfulCount F] (m : BoostModel F (AMGBoostLeaf F)) (test : DataSet F) (a : F)
    (hn : test.featureRows.length ≤ 2 ^ 53) :
    amgScore m test = .ok a ↔
    ∃ preds, test.featureRows.mapM (amgPredict m) = .ok preds ∧ test.featureRows.length ≤ test.labels.length ∧
      a = F64.ofNat (matchCount preds test.labels) /. F64.ofNat test.featureRows.length := by
  simp only [amgScore, amgPredictAll, range_mapM, R.bind_eq_ok]
  refine exists_congr (fun preds => and_congr_right (fun h1 => ?_))
  have hlen := mapM_length h1
  rw [accuracyFromPredictions_iff (by omega), hlen]

/-- **C28**.  Such a fraction lies between 0 and 1, is 1 exactly when all rows match, 0 exactly when none does, and NaN when
there are no rows. -/
theorem C28_range [LawfulFraction F] (preds labels : List (List F)) (n : Nat) (hp : preds.length = n) (hl : labels.length = n)
    (hn : n ≤ 2 ^ 53) :
    (0 < n → ((F64.zero : F) <=. (F64.ofNat (matchCount preds labels) /. F64.ofNat n)) = true ∧
      ((F64.ofNat (matchCount preds labels) /. F64.ofNat n : F) <=. F64.one) = true ∧
      (((F64.ofNat (matchCount preds labels) /. F64.ofNat n : F) ==. F64.one) = true ↔
        ∀ (i : Nat) p l, preds[i]? = some p → labels[i]? = some l → vecEq p l = true) ∧
      (((F64.ofNat (matchCount preds labels) /. F64.ofNat n : F) ==. F64.zero) = true ↔
        ∀ (i : Nat) p l, preds[i]? = some p → labels[i]? = some l → vecEq p l = false)) ∧
    (n = 0 → isNaN (F64.ofNat (matchCount preds labels) /. F64.ofNat n : F) = true) := by
  have hzl : (preds.zip labels).length = n := by simp [hp, hl]
  have hle : matchCount preds labels ≤ n := by
    rw [← hzl]; exact List.countP_le_length
  have hmem : ∀ q : List F × List F, q ∈ preds.zip labels ↔ ∃ i : Nat, preds[i]? = some q.1 ∧ labels[i]? = some q.2 := by
    intro q
    rw [List.mem_iff_getElem?]
    simp only [List.getElem?_zip_eq_some]
  refine ⟨fun h0 => ⟨LawfulFraction.nonneg h0 hle hn, LawfulFraction.le_one h0 hle hn, ?_, ?_⟩, ?_⟩
  · rw [LawfulFraction.eq_one h0 hle hn]
    have hall : matchCount preds labels = n ↔ ∀ q ∈ preds.zip labels, vecEq q.1 q.2 = true := by
      rw [matchCount]
      constructor
      · intro h
        exact List.countP_eq_length.mp (h.trans hzl.symm)
      · intro h
        exact (List.countP_eq_length.mpr h).trans hzl
    rw [hall]
    exact ⟨fun h i p l h1 h2 => h (p, l) ((hmem _).mpr ⟨i, h1, h2⟩), fun h q hq => by
      obtain ⟨i, h1, h2⟩ := (hmem q).mp hq
      exact h i q.1 q.2 h1 h2⟩
  · rw [LawfulFraction.eq_zero h0 hle hn]
    have hall : matchCount preds labels = 0 ↔ ∀ q ∈ preds.zip labels, vecEq q.1 q.2 = false := by
      rw [matchCount, List.countP_eq_zero]
      simp
    rw [hall]
    exact ⟨fun h i p l h1 h2 => h (p, l) ((hmem _).mpr ⟨i, h1, h2⟩), fun h q hq => by
      obtain ⟨i, h1, h2⟩ := (hmem q).mp hq
      exact h i q.1 q.2 h1 h2⟩
  · intro h0
    have : matchCount preds labels = 0 := by omega
    rw [this, h0]
    exact LawfulFraction.zero_zero

example : (do
    let tree ← regressionTreeNew d5 { useMultiThreading := false, numberOfClasses := 3, maxLevels := 1 }
    calculateAccuracy d5 tree) = .ok (.fin (4 / 5)) := by decide +kernel

/-! ## C29: scores are never negative (any arithmetic with the IEEE sign rules) -/

theorem fsum_not_neg [LawfulSign F] {v : List F} (h : ∀ x ∈ v, (x <. F64.zero) = false) : (fsum v <. F64.zero) = false := by
  have : ∀ (v : List F) (a : F), (a <. F64.zero) = false → (∀ x ∈ v, (x <. F64.zero) = false) →
      (v.foldl F64.add a <. F64.zero) = false := by
    intro v
    induction v with
    | nil => intro a ha _; exact ha
    | cons x xs ih =>
      intro a ha hx
      exact ih _ (LawfulSign.add ha (hx x (by simp))) (fun y hy => hx y (by simp [hy]))
  exact this v _ LawfulSign.sumStart h

/-- **C29**.  The mean squared error of a tree never compares below zero, whatever the data and the tree. -/
theorem C29_tree_not_negative [LawfulSign F] (test : DataSet F) (tree : TreeNode F (RegressionLeaf F)) (a : F)
    (h : calculateOverallMse test tree = .ok a) : (a <. F64.zero) = false := by
  simp only [calculateOverallMse, R.bind_eq_ok, R.pure_eq] at h
  obtain ⟨s, hs, ha⟩ := h
  cases ha
  refine LawfulSign.div _ ?_
  refine forRange_inv (P := fun _ (x : F) => (x <. F64.zero) = false) LawfulSign.zero hs ?_
  intro i x x' _ hx hb
  simp only [R.bind_eq_ok] at hb
  obtain ⟨_, _, _, _, _, _, p, _, act, _, e, he, hb⟩ := hb
  cases hb
  refine LawfulSign.add hx ?_
  simp only [meanSumOfSquaredDifferencesVectors, R.bind_eq_ok, R.pure_eq] at he
  obtain ⟨s', hs', he⟩ := he
  cases he
  refine LawfulSign.div _ ?_
  refine forRange_inv (P := fun _ (x : F) => (x <. F64.zero) = false) LawfulSign.zero hs' ?_
  intro j y y' _ hy hb
  simp only [R.bind_eq_ok] at hb
  obtain ⟨_, _, _, _, hb⟩ := hb
  cases hb
  exact LawfulSign.add hy (LawfulSign.square _)

/-- **C29**.  The same for the score of a regression ensemble. -/
theorem C29_ensemble_not_negative [LawfulSign F] (m : BoostModel F (GradBoostLeaf F)) (test : DataSet F) (a : F)
    (h : regressionScore m test = .ok a) : (a <. F64.zero) = false := by
  simp only [regressionScore, calculateMeanSquaredError, R.bind_eq_ok, R.pure_eq] at h
  obtain ⟨preds, _, s, hs, ha⟩ := h
  cases ha
  refine LawfulSign.div _ ?_
  refine forRange_inv (P := fun _ (x : F) => (x <. F64.zero) = false) LawfulSign.zero hs ?_
  intro i x x' _ hx hb
  simp only [R.bind_eq_ok] at hb
  obtain ⟨p, _, q, _, e, he, hb⟩ := hb
  cases hb
  refine LawfulSign.add hx ?_
  simp only [meanSumOfSquaredDifferences, R.bind_eq_ok, R.pure_eq] at he
  obtain ⟨_, _, he⟩ := he
  cases he
  refine LawfulSign.div _ (fsum_not_neg ?_)
  intro y hy
  obtain ⟨i, hi, rfl⟩ := List.getElem_of_mem hy
  simp only [List.getElem_zipWith]
  exact LawfulSign.square _

/-! ## C39: ensemble class predictions -/

/-- **C39** (multi-class ensemble).  If the raw scores of a row are `raw`, the prediction is the one-hot vector of the first
maximal entry (NaN and negative infinity are never chosen over another entry); with no class at all it panics. -/
theorem C39_multiClass_one_hot [LawfulOrder F] (m : BoostModel F (GradBoostLeaf F)) (row raw : List F)
    (hraw : predictInstance row m.trees m.initialGuess m.learningRate = .ok raw) :
    (raw ≠ [] → ∃ k, k < raw.length ∧ FirstMax raw k ∧ multiClassPredict m row = .ok (oneHot raw.length k)) ∧
    (raw = [] → ∃ e, multiClassPredict m row = .error e) := by
  have hm : multiClassPredict m row = getBinaryPrediction raw := by
    simp [multiClassPredict, hraw, bind, Except.bind]
  rw [hm]
  constructor
  · intro hne
    exact ⟨_, findMax_lt raw hne, findMax_firstMax raw, getBinaryPrediction_ok hne⟩
  · rintro rfl
    exact ⟨_, rfl⟩

/-- **C39** (AMG ensemble). -/
theorem C39_amg_one_hot [LawfulOrder F] (m : BoostModel F (AMGBoostLeaf F)) (row raw : List F)
    (hraw : amgPredictInstance row m.trees m.initialGuess m.learningRate m.initialGuess.length = .ok raw) :
    (raw ≠ [] → ∃ k, k < raw.length ∧ FirstMax raw k ∧ amgPredict m row = .ok (oneHot raw.length k)) ∧
    (raw = [] → ∃ e, amgPredict m row = .error e) := by
  have hm : amgPredict m row = getBinaryPrediction raw := by
    simp [amgPredict, hraw, bind, Except.bind]
  rw [hm]
  constructor
  · intro hne
    exact ⟨_, findMax_lt raw hne, findMax_firstMax raw, getBinaryPrediction_ok hne⟩
  · rintro rfl
    exact ⟨_, rfl⟩

/-- **C39**.  The first maximal position is unique. -/
theorem C39_unique [LawfulOrder F] (v : List F) (j k : Nat) (hj : FirstMax v j) (hk : FirstMax v k) : j = k :=
  firstMax_unique hj hk

-- ties go to the first, NaN is skipped
example : getBinaryPrediction ([.nan, 2, 5, 5, .negInf] : List E) = .ok (oneHot 5 2) := by decide +kernel
example : getBinaryPrediction ([.nan, .negInf] : List E) = .ok (oneHot 2 0) := by decide +kernel

/-! ## C43: batch prediction -/

/-- **C43**.  `calculate_all_predictions` is `predict` applied to each row in order, for the three ensembles (the same list or
the panic of the first failing row); labels and columns of the test set are not used. -/
theorem C43_batch (m : BoostModel F (GradBoostLeaf F)) (ma : BoostModel F (AMGBoostLeaf F)) (test : DataSet F) :
    regressionPredictAll m test = test.featureRows.mapM (regressionPredict m) ∧
    multiClassPredictAll m test = test.featureRows.mapM (multiClassPredict m) ∧
    amgPredictAll ma test = test.featureRows.mapM (amgPredict ma) :=
  ⟨range_mapM _, range_mapM _, range_mapM _⟩

/-- **C43**.  Scores depend on the test set only through its rows and labels. -/
theorem C43_scores (m : BoostModel F (GradBoostLeaf F)) (ma : BoostModel F (AMGBoostLeaf F)) (test test' : DataSet F)
    (hr : test.featureRows = test'.featureRows) (hl : test.labels = test'.labels) :
    regressionScore m test = regressionScore m test' ∧ multiClassScore m test = multiClassScore m test' ∧
    amgScore ma test = amgScore ma test' := by
  refine ⟨?_, ?_, ?_⟩ <;>
  simp only [regressionScore, multiClassScore, amgScore, regressionPredictAll, multiClassPredictAll, amgPredictAll,
    calculateAccuracyFromPredictions, hr, hl]

end Verif
