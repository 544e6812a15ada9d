import Mathlib.Analysis.Complex.ExponentialBounds
import Verif.Props.DeepClass
/-!
# C102: every misclassified row costs at least ln 2 of log loss
-/

set_option linter.unusedSectionVars false

namespace Verif

open Sample

/-- the soft-max probability of the predicted class -/
theorem top_share {t k : Nat} {v : List ℝ} (hv : v.length = t) (hk : FirstTop v k) :
    (∀ j < t, (softmax v).getD j 0 ≤ (softmax v).getD k 0) ∧ 1 / (t : ℝ) ≤ (softmax v).getD k 0 := by
  have hkt : k < t := hv ▸ hk.1
  have hne : v ≠ [] := by rintro rfl; simp at hv; omega
  have hpos : 0 < (v.map Real.exp).sum := exp_sum_pos (K := ℝ) hne
  have h1 : ∀ j < t, (softmax v).getD j 0 ≤ (softmax v).getD k 0 := by
    intro j hj
    rw [softmax_getD hv hj, softmax_getD hv hkt]
    exact div_le_div_of_nonneg_right (Real.exp_le_exp.mpr (hk.2.1 j (hv ▸ hj))) hpos.le
  refine ⟨h1, ?_⟩
  have hs := softmax_sum (K := ℝ) hne
  have hle : (softmax v).sum ≤ (softmax v).length • (softmax v).getD k 0 := by
    apply List.sum_le_card_nsmul
    intro x hx
    obtain ⟨j, hj, rfl⟩ := List.getElem_of_mem hx
    rw [softmax_length, hv] at hj
    have := h1 j hj
    have hj' : j < (softmax v).length := by rw [softmax_length, hv]; exact hj
    simpa [List.getD_eq_getElem?_getD, hj'] using this
  rw [hs, softmax_length, hv, nsmul_eq_mul] at hle
  have ht : (0 : ℝ) < t := by exact_mod_cast (show 0 < t by omega)
  rw [div_le_iff₀ ht]
  linarith

/-- a row whose class is not the predicted one loses at least `ln 2` -/
theorem rowLoss_mistake {t k p : Nat} (hk : k < t) {v : List ℝ} (hv : v.length = t) (hp : FirstTop v p) (hne : p ≠ k) :
    Real.log 2 ≤ rowLoss (hot t k) v := by
  rw [rowLoss_hot hk hv]
  have hpt : p < t := hv ▸ hp.1
  have h1 : v.getD k 0 ≤ v.getD p 0 := hp.2.1 k (hv ▸ hk)
  have h3 : 2 * Real.exp (v.getD k 0) ≤ (v.map Real.exp).sum := by
    have e1 : (v.map Real.exp).sum = ((List.range t).map (fun j => Real.exp (v.getD j 0))).sum := by
      conv_lhs => rw [eq_range_getD hv 0]
      rw [List.map_map]
      rfl
    have e2 : ((List.range t).map (fun j => (if j = k then Real.exp (v.getD k 0) else 0) + if j = p then Real.exp (v.getD k 0) else 0)).sum ≤
        ((List.range t).map (fun j => Real.exp (v.getD j 0))).sum := by
      apply List.sum_le_sum
      intro j _
      by_cases hj : j = k
      · subst hj
        simp [Ne.symm hne]
      · by_cases hj' : j = p
        · subst hj'
          simpa [hj] using h1
        · simpa [hj, hj'] using (Real.exp_pos _).le
    have e3 : ∀ i < t, ((List.range t).map (fun j => if j = i then Real.exp (v.getD k 0) else 0)).sum = Real.exp (v.getD k 0) := by
      intro i hi
      have := congrArg (fun x => Real.exp (v.getD k 0) * x) (hot_sum (K := ℝ) hi)
      simp only [hot, mul_one] at this
      rw [← List.sum_map_mul_left] at this
      simpa using this
    rw [List.sum_map_add, e3 k hk, e3 p hpt] at e2
    rw [e1]
    linarith
  have h4 := Real.log_le_log (by positivity) h3
  rw [Real.log_mul (by norm_num) (Real.exp_pos _).ne', Real.log_exp] at h4
  linarith

theorem rowLoss_nonneg {t k : Nat} (hk : k < t) {v : List ℝ} (hv : v.length = t) : 0 ≤ rowLoss (hot t k) v := by
  rw [rowLoss_hot hk hv]
  have hv' : k < v.length := hv ▸ hk
  have h3 : Real.exp (v.getD k 0) ≤ (v.map Real.exp).sum := by
    apply List.single_le_sum
    · intro x hx
      obtain ⟨y, _, rfl⟩ := List.mem_map.mp hx
      exact (Real.exp_pos _).le
    · exact List.mem_map.mpr ⟨v.getD k 0, by simp [List.getD_eq_getElem?_getD, hv'], rfl⟩
  have h4 := Real.log_le_log (Real.exp_pos _) h3
  rw [Real.log_exp] at h4
  linarith

/-- the mistakes on some rows -/
theorem mistakes {t : Nat} {raw predict : List (Ext ℝ) → R (List (Ext ℝ))}
    (hp : ∀ row v, raw row = .ok (liftV v) → v ≠ [] → ∃ k, FirstTop v k ∧ predict row = .ok (oneHot v.length k)) :
    ∀ (rows : List (List (Ext ℝ))) (scores : List (List ℝ)) (ks : List Nat), rows.mapM raw = .ok (lift scores) → (∀ v ∈ scores, v.length = t) →
      (∀ k ∈ ks, k < t) → ks.length = rows.length →
      ∃ preds, rows.mapM predict = .ok preds ∧ matchCount preds (ks.map (oneHot t)) ≤ rows.length ∧
        ((rows.length : ℝ) - matchCount preds (ks.map (oneHot t))) * Real.log 2 ≤ logLoss (ks.map (hot t)) scores := by
  intro rows
  induction rows with
  | nil =>
    intro scores ks h _ _ hl
    rw [List.length_eq_zero_iff.mp hl]
    exact ⟨[], rfl, by simp [matchCount], by simp [matchCount, logLoss]⟩
  | cons row rows ih =>
    intro scores ks h hw hk hl
    obtain ⟨r, rs, h1, h3, h4⟩ : ∃ r rs, raw row = .ok r ∧ rows.mapM raw = .ok rs ∧ lift scores = r :: rs := by
      rw [mapM_cons_R] at h
      obtain ⟨r, h1, h⟩ := R.bind_eq_ok.mp h
      obtain ⟨rs, h3, h⟩ := R.bind_eq_ok.mp h
      exact ⟨r, rs, h1, h3, (Except.ok.inj h).symm⟩
    cases scores with
    | nil => simp [lift] at h4
    | cons v scores =>
      simp only [lift, List.map_cons, List.cons.injEq] at h4
      obtain ⟨rfl, rfl⟩ := h4
      cases ks with
      | nil => simp at hl
      | cons k ks =>
        obtain ⟨preds, h5, h6, h7⟩ := ih scores ks h3 (fun w hw' => hw w (by simp [hw'])) (fun k hk' => hk k (by simp [hk'])) (by simpa using hl)
        have hv := hw v (by simp)
        have hkt := hk k (by simp)
        obtain ⟨p, h8, h9⟩ := hp row v h1 (by rintro rfl; simp at hv; omega)
        rw [hv] at h9
        have hpt : p < t := hv ▸ h8.1
        have hcount : matchCount (oneHot t p :: preds) ((k :: ks).map (oneHot t : Nat → List (Ext ℝ))) =
            matchCount preds (ks.map (oneHot t)) + if p = k then 1 else 0 := by
          simp only [matchCount, List.map_cons, List.zip_cons_cons, List.countP_cons]
          congr 1
          rw [vecEq_oneHot hkt hpt, isOneAt, oneHot_at hpt]
          by_cases h : p = k
          · subst h
            simp [F64.eq, Ext.le, F64.one]
          · simp [if_neg h, F64.eq, Ext.le, F64.one, F64.zero]
        refine ⟨oneHot t p :: preds, ?_, ?_, ?_⟩
        · rw [mapM_cons_R, h9, h5]
          rfl
        · rw [hcount, List.length_cons]
          split <;> omega
        · rw [hcount, List.length_cons, logLoss, List.map_cons, List.zipWith_cons_cons, List.sum_cons, ← logLoss]
          push_cast
          by_cases h : p = k
          · have := rowLoss_nonneg hkt hv
            simp only [if_pos h]
            linarith
          · have := rowLoss_mistake hkt hv h8 h
            simp only [if_neg h]
            linarith


/-- one-hot labels and their classes -/
theorem hot_classes {t : Nat} {ls : List (List ℝ)} {labels : List (List (Ext ℝ))} (hls : labels = lift ls)
    (hh : ∀ l ∈ labels, ∃ k < t, l = oneHot t k) : ∃ ks : List Nat, (∀ k ∈ ks, k < t) ∧ labels = ks.map (oneHot t) ∧ ls = ks.map (hot t) := by
  subst hls
  induction ls with
  | nil => exact ⟨[], by simp, rfl, rfl⟩
  | cons l ls ih =>
    obtain ⟨ks, h1, h2, h3⟩ := ih (fun l hl => hh l (by simp only [lift, List.map_cons, List.mem_cons]; exact .inr hl))
    obtain ⟨k, h4, h5⟩ := hh (liftV l) (by simp [lift])
    refine ⟨k :: ks, ?_, ?_, ?_⟩
    · intro x hx
      rcases List.mem_cons.mp hx with rfl | hx
      · exact h4
      · exact h1 x hx
    · simp only [lift, List.map_cons, List.cons.injEq] at h2 ⊢
      exact ⟨h5, h2⟩
    · rw [List.map_cons, ← h3, ← liftV_injective (h5.trans (oneHot_lift t k))]

/-- from the mistakes to the score -/
theorem score_of_mistakes {N M : Nat} (hN : 0 < N) (hM : M ≤ N) {L : ℝ} (h : ((N : ℝ) - M) * Real.log 2 ≤ L) :
    ∃ a : ℝ, (F64.ofNat M /. F64.ofNat N : Ext ℝ) = .fin a ∧ N * (1 - a) * Real.log 2 ≤ L ∧ (L < Real.log 2 → a = 1) := by
  have h0 : (0 : ℝ) < N := by exact_mod_cast hN
  refine ⟨M / N, by simp only [Ext.ofNat_def, Ext.fin_div _ _ h0.ne'], ?_, ?_⟩
  · have : (N : ℝ) * (1 - M / N) = N - M := by field_simp
    rw [this]
    exact h
  · intro hL
    have hlog : 0 < Real.log 2 := Real.log_pos (by norm_num)
    have h1 : ((N : ℝ) - M) * Real.log 2 < 1 * Real.log 2 := by linarith
    have h2 := lt_of_mul_lt_mul_right h1 hlog.le
    have h3 : (N : ℝ) < M + 1 := by linarith
    have h4 : N < M + 1 := by exact_mod_cast h3
    have h5 : M = N := by omega
    rw [h5, div_self h0.ne']

/-- **C102** (multi-class).  Let the raw scores of the rows of a test set with one-hot labels be finite.  The number of rows that are classified wrongly,
`N * (1 - score)`, times `ln 2` is at most the log loss of the scores; in particular all rows are classified correctly if the log loss is below
`ln 2`. -/
theorem C102_multiClass (m : BoostModel (Ext ℝ) (GradBoostLeaf (Ext ℝ))) (test : DataSet (Ext ℝ)) (t : Nat) (hne : test.featureRows ≠ [])
    (hN : test.featureRows.length ≤ 2 ^ 53) (hlen : test.labels.length = test.featureRows.length) (ls : List (List ℝ))
    (hls : test.labels = lift ls) (hot : ∀ l ∈ test.labels, ∃ k < t, l = oneHot t k) (scores : List (List ℝ)) (hw : ∀ v ∈ scores, v.length = t)
    (hs : test.featureRows.mapM (fun row => predictInstance row m.trees m.initialGuess m.learningRate) = .ok (lift scores)) :
    ∃ a : ℝ, multiClassScore m test = .ok (.fin a) ∧ test.featureRows.length * (1 - a) * Real.log 2 ≤ logLoss ls scores ∧
      (logLoss ls scores < Real.log 2 → a = 1) := by
  obtain ⟨ks, hk, hl, rfl⟩ := hot_classes hls hot
  obtain ⟨preds, h1, h2, h3⟩ := mistakes (predict := multiClassPredict m) (fun row v hv hv' => by
    obtain ⟨k, _, h4, h5⟩ := (C39_multiClass_one_hot m row _ hv).1 (by simpa [liftV] using hv')
    rw [liftV_length] at h5
    exact ⟨k, firstTop_of_firstMax hv' h4, h5⟩) test.featureRows scores ks hs hw hk (by rw [← hlen, hl, List.length_map])
  rw [← hl] at h2 h3
  obtain ⟨a, h4, h5, h6⟩ := score_of_mistakes (List.length_pos_iff.mpr hne) h2 h3
  exact ⟨a, (C28_multiClass_accuracy _ _ _ hN).mpr ⟨preds, h1, hlen.ge, h4.symm⟩, h5, h6⟩

/-- **C102** (AMG). -/
theorem C102_amg (m : BoostModel (Ext ℝ) (AMGBoostLeaf (Ext ℝ))) (test : DataSet (Ext ℝ)) (t : Nat) (hne : test.featureRows ≠ [])
    (hN : test.featureRows.length ≤ 2 ^ 53) (hlen : test.labels.length = test.featureRows.length) (ls : List (List ℝ))
    (hls : test.labels = lift ls) (hot : ∀ l ∈ test.labels, ∃ k < t, l = oneHot t k) (scores : List (List ℝ)) (hw : ∀ v ∈ scores, v.length = t)
    (hs : test.featureRows.mapM (fun row => amgPredictInstance row m.trees m.initialGuess m.learningRate m.initialGuess.length) = .ok (lift scores)) :
    ∃ a : ℝ, amgScore m test = .ok (.fin a) ∧ test.featureRows.length * (1 - a) * Real.log 2 ≤ logLoss ls scores ∧
      (logLoss ls scores < Real.log 2 → a = 1) := by
  obtain ⟨ks, hk, hl, rfl⟩ := hot_classes hls hot
  obtain ⟨preds, h1, h2, h3⟩ := mistakes (predict := amgPredict m) (fun row v hv hv' => by
    obtain ⟨k, _, h4, h5⟩ := (C39_amg_one_hot m row _ hv).1 (by simpa [liftV] using hv')
    rw [liftV_length] at h5
    exact ⟨k, firstTop_of_firstMax hv' h4, h5⟩) test.featureRows scores ks hs hw hk (by rw [← hlen, hl, List.length_map])
  rw [← hl] at h2 h3
  obtain ⟨a, h4, h5, h6⟩ := score_of_mistakes (List.length_pos_iff.mpr hne) h2 h3
  exact ⟨a, (C28_amg_accuracy _ _ _ hN).mpr ⟨preds, h1, hlen.ge, h4.symm⟩, h5, h6⟩

/-- **C102** (confidence).  The predicted class is one with the highest probability, and this probability is at least `1 / t`. -/
theorem C102_confidence (row : List (Ext ℝ)) (v : List ℝ) (hv : v ≠ []) :
    (∀ m : BoostModel (Ext ℝ) (GradBoostLeaf (Ext ℝ)), predictInstance row m.trees m.initialGuess m.learningRate = .ok (liftV v) →
      ∃ k < v.length, multiClassPredict m row = .ok (oneHot v.length k) ∧ (∀ j < v.length, (softmax v).getD j 0 ≤ (softmax v).getD k 0) ∧
        1 / (v.length : ℝ) ≤ (softmax v).getD k 0) ∧
    ∀ m : BoostModel (Ext ℝ) (AMGBoostLeaf (Ext ℝ)),
      amgPredictInstance row m.trees m.initialGuess m.learningRate m.initialGuess.length = .ok (liftV v) →
      ∃ k < v.length, amgPredict m row = .ok (oneHot v.length k) ∧ (∀ j < v.length, (softmax v).getD j 0 ≤ (softmax v).getD k 0) ∧
        1 / (v.length : ℝ) ≤ (softmax v).getD k 0 := by
  constructor
  · intro m hm
    obtain ⟨k, h3, h4, h5⟩ := (C39_multiClass_one_hot m row _ hm).1 (by simpa [liftV] using hv)
    rw [liftV_length] at h3 h5
    exact ⟨k, h3, h5, top_share rfl (firstTop_of_firstMax hv h4)⟩
  · intro m hm
    obtain ⟨k, h3, h4, h5⟩ := (C39_amg_one_hot m row _ hm).1 (by simpa [liftV] using hv)
    rw [liftV_length] at h3 h5
    exact ⟨k, h3, h5, top_share rfl (firstTop_of_firstMax hv h4)⟩

/-- **C102** is sharp: a model that has learnt nothing classifies a row of class 1 wrongly, and its log loss is `ln 2`. -/
theorem C102_sharp : ∃ (m : BoostModel (Ext ℝ) (GradBoostLeaf (Ext ℝ))) (test : DataSet (Ext ℝ)) (ls scores : List (List ℝ)),
    test.featureRows.length = 1 ∧ test.labels = lift ls ∧
    test.featureRows.mapM (fun row => predictInstance row m.trees m.initialGuess m.learningRate) = .ok (lift scores) ∧
    multiClassScore m test = .ok (.fin 0) ∧ logLoss ls scores = Real.log 2 := by
  let m : BoostModel (Ext ℝ) (GradBoostLeaf (Ext ℝ)) := ⟨[], liftV [1 / 2, 1 / 2], .fin 1⟩
  let test : DataSet (Ext ℝ) := { featureRows := [[.fin 0]], labels := [oneHot 2 1], featureColumns := [[.fin 0]] }
  have hr : ∀ row, predictInstance row m.trees m.initialGuess m.learningRate = .ok (liftV [1 / 2, 1 / 2]) := fun row => rfl
  refine ⟨m, test, [hot 2 1], [[1 / 2, 1 / 2]], rfl, ?_, rfl, ?_, ?_⟩
  · simp [test, lift, oneHot_lift]
  · obtain ⟨k, h1, h2, h3⟩ := (C39_multiClass_one_hot m [.fin 0] _ (hr _)).1 (by simp [liftV])
    have hk : k = 0 := by
      refine (firstTop_of_firstMax (by simp) h2).unique ⟨by simp, ?_, by simp⟩
      intro j hj
      simp only [List.length_cons, List.length_nil] at hj
      interval_cases j <;> simp
    subst hk
    refine (C28_multiClass_accuracy m test _ (by norm_num [test])).mpr ⟨[oneHot 2 0], ?_, le_rfl, ?_⟩
    · show ([[.fin 0]] : List (List (Ext ℝ))).mapM (multiClassPredict m) = _
      rw [mapM_cons_R, h3]
      rfl
    · have : matchCount ([oneHot 2 0] : List (List (Ext ℝ))) test.labels = 0 := by
        simp [matchCount, test, oneHot, vecEq, F64.eq, Ext.le, F64.one, F64.zero, List.range_succ]
      rw [this]
      simp [test, Ext.ofNat_def, Ext.fin_div]
  · rw [logLoss, List.zipWith_cons_cons, List.zipWith_nil_left, rowLoss_hot (by norm_num) (by simp)]
    have : (([1 / 2, 1 / 2] : List ℝ).map Real.exp).sum = 2 * Real.exp (1 / 2) := by
      simp only [List.map_cons, List.map_nil, List.sum_cons, List.sum_nil]
      ring
    rw [this, Real.log_mul (by norm_num) (Real.exp_pos _).ne', Real.log_exp]
    simp

-- the log loss of `coin` after ten iterations is below `ln 2`, so all rows are classified correctly
example : ∃ m scores, multiClassTrain coin { useMultiThreading := false, maxLevels := 2, numberOfClasses := 2 } 10 (.fin (1 / 2)) = .ok m ∧
    coin.featureRows.mapM (fun row => predictInstance row m.trees m.initialGuess m.learningRate) = .ok (lift scores) ∧
    logLoss coinLabels scores < Real.log 2 ∧ multiClassScore m coin = .ok (.fin 1) := by
  have hd : TellsRowsApart coin.featureRows 0 := by
    intro a b ra rb x y h1 h2 h3 h4 h5
    have ha : a < 3 := (List.getElem?_eq_some_iff.mp h1).1
    have hb : b < 3 := (List.getElem?_eq_some_iff.mp h2).1
    interval_cases a <;> interval_cases b <;> simp [coin] at h1 h2 <;> subst h1 <;> subst h2 <;> simp at h3 h4 <;> subst h3 <;> subst h4 <;>
      simp at h5 ⊢
  obtain ⟨ks, hk, hl, hls⟩ := hot_classes coin_labels coin_hot
  have hn : ks.length = 3 := by
    have := congrArg List.length hls
    rw [List.length_map] at this
    rw [← this]
    rfl
  obtain ⟨m, h1, h2, _⟩ := C101_multiClass coin 1 2 coin_wf le_rfl (by norm_num) ks hk hl (hd.consistent (by simp [coin]) _)
    { useMultiThreading := false, maxLevels := 2, numberOfClasses := 2 } rfl (by simp [coin]) 10 (1 / 2)
  have hlead := (lead_grows 2 le_rfl (1 / 2 : ℝ) (by norm_num) 10).1
  norm_num at hlead
  have hloss := logLoss_hitRows (t := 2) le_rfl hk (deepScores 2 (1 / 2 : ℝ) 10) (x := 5) (by linarith)
  rw [← hls, hn] at hloss
  have hsmall : logLoss coinLabels (hitRows 2 ks (deepScores 2 (1 / 2 : ℝ) 10)) < Real.log 2 := by
    have e1 : (6 : ℝ) ≤ Real.exp 5 := by have := Real.add_one_le_exp (5 : ℝ); linarith
    have e2 : Real.exp (-5) ≤ 1 / 6 := by
      rw [Real.exp_neg, ← one_div]
      exact one_div_le_one_div_of_le (by norm_num) e1
    have e3 := Real.log_two_gt_d9
    norm_num at hloss
    linarith
  obtain ⟨a, h3, _, h4⟩ := C102_multiClass m coin 2 (by simp [coin]) (by norm_num [coin]) rfl coinLabels coin_labels coin_hot _ (by
    intro v hv
    obtain ⟨k, _, rfl⟩ := List.mem_map.mp hv
    exact hitMiss_length _ _ _ _) h2
  rw [h4 hsmall] at h3
  exact ⟨m, _, h1, h2, hsmall, h3⟩

end Verif
