import Verif.Lemmas.DeepClass
import Verif.Props.LogLoss
import Verif.Props.FullFit
import Verif.Props.Accuracy
import Mathlib.Tactic.IntervalCases
/-!
# C101: deep classification ensembles fit the training data
-/

set_option linter.unusedSectionVars false

namespace Verif

open Sample

section
variable {K : Type} [Field K] [LinearOrder K] [IsStrictOrderedRing K] [FloorSemiring K] [HasExp K]

section loop
variable {d : DataSet (Ext K)} {c t : Nat} {ks : List Nat} {cfg : TreeConfig} {lr : K}

theorem classes_lift (hl : d.labels = ks.map (oneHot t)) : d.labels = lift (ks.map (hot t)) := by
  rw [hl, lift, List.map_map]
  apply List.map_congr_left
  intro k _
  exact oneHot_lift t k

theorem classes_hot (hk : ∀ k ∈ ks, k < t) : ∀ l ∈ ks.map (hot t : Nat → List K), ∃ k < t, l = hot t k := by
  intro l hl
  obtain ⟨k, hkm, rfl⟩ := List.mem_map.mp hl
  exact ⟨k, hk k hkm, rfl⟩

theorem classes_inj (hk : ∀ k ∈ ks, k < t) : ∀ a ∈ ks, ∀ b ∈ ks, (oneHot t a : List (Ext K)) = oneHot t b → a = b := by
  intro a ha b hb hab
  by_contra hne
  have h1 := oneHot_at (F := Ext K) (t := t) (k := a) (i := a) (hk a ha)
  have h2 := oneHot_at (F := Ext K) (t := t) (k := b) (i := a) (hk a ha)
  rw [hab, h2, if_neg hne, if_pos rfl] at h1
  exact zero_ne_one (Ext.fin.inj (Option.some.inj h1) : (0 : K) = 1)

theorem classes_consistent (hk : ∀ k ∈ ks, k < t) (hl : d.labels = ks.map (oneHot t)) (hd : NoContradictions d.featureRows d.labels) :
    NoContradictions d.featureRows ks := by
  rw [hl] at hd
  intro e he e' he' hs
  rw [NoContradictions, List.zip_map_right] at hd
  have := hd _ (List.mem_map.mpr ⟨e, he, rfl⟩) _ (List.mem_map.mpr ⟨e', he', rfl⟩) hs
  change oneHot t e.2 = oneHot t e'.2 at this
  have hj := hk _ (List.of_mem_zip he).2
  by_contra hne
  have h1 := oneHot_at (F := Ext K) (t := t) (k := e.2) (i := e.2) hj
  have h2 := oneHot_at (F := Ext K) (t := t) (k := e'.2) (i := e.2) hj
  rw [this, h2, if_neg hne, if_pos rfl] at h1
  exact zero_ne_one (Ext.fin.inj (Option.some.inj h1) : (0 : K) = 1)

theorem deep_multi_loop (h : d.WF c t) (h2 : 2 ≤ t) (hk : ∀ k ∈ ks, k < t) (hl : d.labels = ks.map (oneHot t)) 
    (hd : SortsRows (gradLeaf .multiClassClassification t) c t cfg.maxLevels d ks) (hc : cfg.numberOfClasses = t) (n : Nat) :
    ∃ s, boostLoop multiClassResiduals (fun d => gradBoostTreeNew d cfg .multiClassClassification)
        (fun t tree => updateDatasetLabels t tree (.fin lr)) n (startState d (liftV (List.replicate t (1 / (t : K))))) = .ok s ∧
      Finite gradOut d (liftV (List.replicate t (1 / (t : K)))) lr t s (hitRows t ks (deepScores t lr n)) := by
  have hg : (liftV (List.replicate t (1 / (t : K))) : List (Ext K)).length = t := by simp [liftV]
  have hks : ks.length = d.featureRows.length := by rw [← h.label_count, hl, List.length_map]
  induction n with
  | zero =>
    refine ⟨_, rfl, ?_⟩
    have h0 := (class_start (out := gradOut) (leafOf := gradLeaf .multiClassClassification t) (d := d) (c := c) (t := t) (m := cfg.maxLevels)
      (ls := []) (lr := lr) (List.replicate t (1 / (t : K))) (by simp)).finite
    have he : hitRows t ks (deepScores t lr 0) = List.replicate d.labels.length (List.replicate t (1 / (t : K))) := by
      rw [List.eq_replicate_iff]
      refine ⟨by rw [List.length_map, hl, List.length_map], ?_⟩
      intro v hv
      obtain ⟨k, _, rfl⟩ := List.mem_map.mp hv
      exact hitMiss_const _
    rw [he]
    exact h0
  | succ n ih =>
    obtain ⟨s, h1, hs⟩ := ih
    obtain ⟨s', h3, h4, _⟩ := class_step_explicit h h2 (classes_lift hl) (classes_hot hk) hc hg hs
    refine ⟨s', by rw [boostLoop_succ, h1]; exact h3, ?_⟩
    have hw := probResid_wf h (classes_lift hl) hs.len hs.width
    rw [hitRows_resid hk] at h4 hw
    rw [updated_hitRows hks (fun i hi => leaf_hitRows h2 hks _ hw hd hi)] at h4
    rw [deepScores]
    simpa only [mul_neg, ← sub_eq_add_neg] using h4

theorem deep_amg_loop (h : d.WF c t) (h2 : 2 ≤ t) (hk : ∀ k ∈ ks, k < t) (hl : d.labels = ks.map (oneHot t)) 
    (hd : SortsRows (amgLeaf .multiClassClassification t) c t cfg.maxLevels d ks) (hc : cfg.numberOfClasses = t) (n : Nat) :
    ∃ s, boostLoop multiClassResiduals (fun d => amgTreeNew d cfg .multiClassClassification)
        (fun t tree => amgUpdateDatasetLabels t tree (.fin lr)) n (startState d (liftV (List.replicate t (1 / (t : K))))) = .ok s ∧
      Finite (amgOut t) d (liftV (List.replicate t (1 / (t : K)))) lr t s (hitRows t ks (deepAmgScores t lr n)) := by
  have hg : (liftV (List.replicate t (1 / (t : K))) : List (Ext K)).length = t := by simp [liftV]
  have hks : ks.length = d.featureRows.length := by rw [← h.label_count, hl, List.length_map]
  have ht : (2 : K) ≤ t := by exact_mod_cast h2
  induction n with
  | zero =>
    refine ⟨_, rfl, ?_⟩
    have h0 := (class_start (out := amgOut t) (leafOf := amgLeaf .multiClassClassification t) (d := d) (c := c) (t := t) (m := cfg.maxLevels)
      (ls := []) (lr := lr) (List.replicate t (1 / (t : K))) (by simp)).finite
    have he : hitRows t ks (deepAmgScores t lr 0) = List.replicate d.labels.length (List.replicate t (1 / (t : K))) := by
      rw [List.eq_replicate_iff]
      refine ⟨by rw [List.length_map, hl, List.length_map], ?_⟩
      intro v hv
      obtain ⟨k, _, rfl⟩ := List.mem_map.mp hv
      exact hitMiss_const _
    rw [he]
    exact h0
  | succ n ih =>
    obtain ⟨s, h1, hs⟩ := ih
    obtain ⟨s', h3, h4, _⟩ := amg_step_explicit h h2 (classes_lift hl) (classes_hot hk) hc hg hs
    refine ⟨s', by rw [boostLoop_succ, h1]; exact h3, ?_⟩
    have hw := probResid_wf h (classes_lift hl) hs.len hs.width
    rw [hitRows_resid hk] at h4 hw
    obtain ⟨p0, _, _, p3⟩ := shares h2 (deepAmgScores t lr n)
    have hf : (0 : K) < ((t : K) - 1) / t := div_pos (by linarith) (by linarith)
    rw [updated_hitRows hks (fun i hi => by
      rw [amgOutAt, amgTreeAt, leaf_hitRows h2 hks _ hw hd hi, keepTop_hitMiss (hk _ (List.getElem_mem _))]
      exact (neg_neg_of_pos (div_pos hf (by linarith))).trans (div_pos hf p0))] at h4
    have he : lr * (-(((t : K) - 1) / t / hitShare t (deepAmgScores t lr n)) / ((t : K) - 1)) =
        -(lr * (1 / t / hitShare t (deepAmgScores t lr n))) := by
      have a1 : ((t : K) - 1) ≠ 0 := by linarith
      have a2 : (t : K) ≠ 0 := by linarith
      have a3 := p0.ne'
      field_simp
    rw [he, ← sub_eq_add_neg] at h4
    exact h4

end loop

/-! ## how the two numbers grow -/

/-- **C101** (growth).  With every iteration the score of the own class grows by at least `lr (t - 1) / t`.  In multi-class boosting the score of every
other class falls by at least as much; in AMG boosting by at least `lr / t`. -/
theorem C101_growth (t : Nat) (h2 : 2 ≤ t) (lr : K) (h0 : 0 ≤ lr) (n : Nat) :
    ((deepScores t lr n).1 + lr * (((t : K) - 1) / t) ≤ (deepScores t lr (n + 1)).1 ∧
      (deepScores t lr (n + 1)).2 ≤ (deepScores t lr n).2 - lr * (((t : K) - 1) / t)) ∧
    (deepAmgScores t lr n).1 + lr * (((t : K) - 1) / t) ≤ (deepAmgScores t lr (n + 1)).1 ∧
      (deepAmgScores t lr (n + 1)).2 ≤ (deepAmgScores t lr n).2 - lr * (1 / t) := by
  have ht : (2 : K) ≤ t := by exact_mod_cast h2
  have hf : (0 : K) < ((t : K) - 1) / t := div_pos (by linarith) (by linarith)
  have hf2 : (0 : K) < 1 / t := div_pos one_pos (by linarith)
  have key : ∀ x y : K, 0 < x → 0 < y → y ≤ 1 → lr * x ≤ lr * (x / y) := by
    intro x y hx hy h1
    refine mul_le_mul_of_nonneg_left ?_ h0
    rw [le_div_iff₀ hy]
    have := mul_le_mul_of_nonneg_left h1 hx.le
    rwa [mul_one] at this
  obtain ⟨p0, p1, p2, p3⟩ := shares h2 (deepScores t lr n)
  obtain ⟨q0, q1, q2, q3⟩ := shares h2 (deepAmgScores t lr n)
  simp only [deepScores, deepAmgScores]
  have e1 := key _ _ hf p0 p1.le
  have e2 := key _ (1 - missShare t (deepScores t lr n)) hf (by linarith) (by linarith)
  have e3 := key _ _ hf q0 q1.le
  have e4 := key _ _ hf2 q0 q1.le
  refine ⟨⟨by linarith, by linarith⟩, by linarith, by linarith⟩

/-- the lead of the own class -/
theorem lead_grows (t : Nat) (h2 : 2 ≤ t) (lr : K) (h0 : 0 ≤ lr) (n : Nat) :
    (deepScores t lr n).2 + 2 * lr * n * (((t : K) - 1) / t) ≤ (deepScores t lr n).1 ∧
      (deepAmgScores t lr n).2 + lr * n ≤ (deepAmgScores t lr n).1 := by
  have ht : (t : K) ≠ 0 := by
    have : (2 : K) ≤ t := by exact_mod_cast h2
    linarith
  have hone : ((t : K) - 1) / t + 1 / t = 1 := by field_simp; ring
  induction n with
  | zero => simp [deepScores, deepAmgScores]
  | succ n ih =>
    obtain ⟨⟨e1, e2⟩, e3, e4⟩ := C101_growth (K := K) t h2 lr h0 n
    obtain ⟨i1, i2⟩ := ih
    push_cast
    refine ⟨by linarith, ?_⟩
    have : lr * (((t : K) - 1) / t) + lr * (1 / t) = lr := by rw [← mul_add, hone, mul_one]
    linarith

/-! ## what is predicted -/

section
variable {d : DataSet (Ext K)} {c t : Nat} {ks : List Nat}

/-- a score vector whose largest entry is at `k` -/
theorem firstMax_hitMiss {k : Nat} (hk : k < t) {a b : K} (hab : b < a) {i : Nat} (hi : FirstMax (liftV (hitMiss t k a b)) i) : i = k := by
  have hne : hitMiss t k a b ≠ [] := by
    intro h0
    have := congrArg List.length h0
    rw [hitMiss_length] at this
    simp at this
    omega
  refine (firstTop_of_firstMax hne hi).unique ⟨by rw [hitMiss_length]; exact hk, ?_, ?_⟩
  · intro j hj
    rw [hitMiss_length] at hj
    rw [hitMiss_getD hj, hitMiss_getD hk, if_pos rfl]
    split
    · exact le_rfl
    · exact hab.le
  · intro j hj
    rw [hitMiss_getD (by omega), hitMiss_getD hk, if_pos rfl, if_neg (by omega)]
    exact hab

/-- predictions that are the labels -/
theorem predicts_labels {raw predict : List (Ext K) → R (List (Ext K))} {s : K × K} (hab : s.2 < s.1) (h2 : 2 ≤ t) (hk : ∀ k ∈ ks, k < t)
    (hl : d.labels = ks.map (oneHot t)) (hraw : d.featureRows.mapM raw = .ok (lift (hitRows t ks s)))
    (hp : ∀ row r, raw row = .ok r → r ≠ [] → ∃ k, k < r.length ∧ FirstMax r k ∧ predict row = .ok (oneHot r.length k)) :
    d.featureRows.mapM predict = .ok d.labels := by
  rw [mapM_eq_ok, List.forall₂_iff_get] at hraw ⊢
  obtain ⟨hlen, hr⟩ := hraw
  have hlk : d.labels.length = ks.length := by rw [hl, List.length_map]
  rw [lift_length, List.length_map] at hlen
  refine ⟨by omega, ?_⟩
  intro i h1 h3
  have hik : i < ks.length := by omega
  have hri := hr i h1 (by rw [lift_length, List.length_map]; exact hik)
  simp only [List.get_eq_getElem, lift, List.getElem_map] at hri ⊢
  have hkt := hk _ (List.getElem_mem hik)
  obtain ⟨k, _, h5, h6⟩ := hp _ _ hri (by
    intro h0
    have := congrArg List.length h0
    rw [liftV_length, hitMiss_length] at this
    simp at this
    omega)
  rw [h6, liftV_length, hitMiss_length, firstMax_hitMiss hkt hab h5]
  simp [hl]

theorem own_matches (hl : d.labels = ks.map (oneHot t)) (hn : d.labels.length = d.featureRows.length)
    (hne : d.featureRows ≠ []) :
    (F64.ofNat (matchCount d.labels d.labels) /. F64.ofNat d.featureRows.length : Ext K) = .fin 1 := by
  have hm : matchCount d.labels d.labels = d.featureRows.length := by
    rw [matchCount, ← hn]
    have hz : (d.labels.zip d.labels).length = d.labels.length := by simp
    rw [← hz, List.countP_eq_length]
    intro e he
    have : e.1 = e.2 := by
      obtain ⟨i, hi, rfl⟩ := List.getElem_of_mem he
      simp
    rw [← this, vecEq_iff]
    refine ⟨rfl, ?_⟩
    intro i x y hx hy
    rw [hx] at hy
    cases hy
    have h1 : e.1 ∈ d.labels := (List.of_mem_zip (show (e.1, e.2) ∈ _ from he)).1
    rw [hl] at h1
    obtain ⟨k, _, hek⟩ := List.mem_map.mp h1
    rw [← hek] at hx
    have hi : i < t := by
      have := (List.getElem?_eq_some_iff.mp hx).1
      simpa [oneHot] using this
    rw [oneHot_at hi] at hx
    cases hx
    split
    · exact LawfulShare.one_eq
    · exact LawfulOrder.zero_eq
  have h0 := length_cast_ne (K := K) hne
  rw [hm, Ext.ofNat_def, Ext.fin_div _ _ h0, div_self h0]

end

/-- if the trees sort the training rows by whatever is computed from the classes, the scores are known -/
theorem multi_fits_of {d : DataSet (Ext K)} {c t : Nat} (h : d.WF c t) (h2 : 2 ≤ t) (ht : t ≤ 2 ^ 53) {ks : List Nat} (hk : ∀ k ∈ ks, k < t)
    (hl : d.labels = ks.map (oneHot t)) {cfg : TreeConfig}
    (hd : SortsRows (gradLeaf .multiClassClassification t) c t cfg.maxLevels d ks)
    (hc : cfg.numberOfClasses = t) (n : Nat) (lr : K) :
    ∃ m, multiClassTrain d cfg n (.fin lr) = .ok m ∧
      d.featureRows.mapM (fun row => predictInstance row m.trees m.initialGuess m.learningRate) =
        .ok (lift (ks.map (fun k => hitMiss t k (deepScores t lr n).1 (deepScores t lr n).2))) ∧
      (0 < lr → 0 < n → d.featureRows.mapM (multiClassPredict m) = .ok d.labels ∧
        (d.featureRows.length ≤ 2 ^ 53 → multiClassScore m d = .ok (.fin 1))) := by
  obtain ⟨s, h3, hs⟩ := deep_multi_loop (lr := lr) h h2 hk hl hd hc n
  have hraw : d.featureRows.mapM (fun row => predictInstance row s.2 (liftV (List.replicate t (1 / (t : K)))) (.fin lr)) =
      .ok (lift (hitRows t ks (deepScores t lr n))) := by
    simp only [predictInstance_eq]
    rw [tracks_mapM hs.tracks h.label_count.symm, hs.labels]
  refine ⟨_, multi_train h h2 ht h3, hraw, ?_⟩
  intro hlr hn
  have hlead := (lead_grows t h2 lr hlr.le n).1
  have hab : (deepScores t lr n).2 < (deepScores t lr n).1 := by
    have h2t : (2 : K) ≤ t := by exact_mod_cast h2
    have hf : (0 : K) < ((t : K) - 1) / t := div_pos (by linarith) (by linarith)
    have hn' : (0 : K) < n := by exact_mod_cast hn
    have : 0 < 2 * lr * n * (((t : K) - 1) / t) := by positivity
    linarith
  have hpred := predicts_labels hab h2 hk hl hraw (predict := multiClassPredict ⟨s.2, liftV (List.replicate t (1 / (t : K))), .fin lr⟩)
    (fun row r hr hne => (C39_multiClass_one_hot ⟨s.2, liftV (List.replicate t (1 / (t : K))), .fin lr⟩ row r hr).1 hne)
  refine ⟨hpred, fun hN => ?_⟩
  rw [C28_multiClass_accuracy _ _ _ hN]
  exact ⟨_, hpred, h.label_count.ge, (own_matches hl h.label_count h.rows_ne).symm⟩

/-- **C101** (multi-class).  One-hot labels of two or more classes; no two of the `N` training examples contradict each other and `N - 1` levels are
allowed.  Then the raw scores of a training row after `n` iterations depend on nothing but its class, `t`, `n` and the learning rate: they are the two
numbers of `deepScores`.  For a positive learning rate and `n ≥ 1` every training row is classified correctly and the score is 1. -/
theorem C101_multiClass (d : DataSet (Ext K)) (c t : Nat) (h : d.WF c t) (h2 : 2 ≤ t) (ht : t ≤ 2 ^ 53) (ks : List Nat) (hk : ∀ k ∈ ks, k < t)
    (hl : d.labels = ks.map (oneHot t)) (hd : NoContradictions d.featureRows d.labels) (cfg : TreeConfig)
    (hc : cfg.numberOfClasses = t) (hm : d.featureRows.length ≤ cfg.maxLevels + 1) (n : Nat) (lr : K) :
    ∃ m, multiClassTrain d cfg n (.fin lr) = .ok m ∧
      d.featureRows.mapM (fun row => predictInstance row m.trees m.initialGuess m.learningRate) =
        .ok (lift (ks.map (fun k => hitMiss t k (deepScores t lr n).1 (deepScores t lr n).2))) ∧
      (0 < lr → 0 < n → d.featureRows.mapM (multiClassPredict m) = .ok d.labels ∧
        (d.featureRows.length ≤ 2 ^ 53 → multiClassScore m d = .ok (.fin 1))) :=
  multi_fits_of h h2 ht hk hl (sortsRows_deep (classes_consistent hk hl hd) hm) hc n lr

/-- if the trees sort the training rows by whatever is computed from the classes, the scores are known -/
theorem amg_fits_of {d : DataSet (Ext K)} {c t : Nat} (h : d.WF c t) (h2 : 2 ≤ t) (ht : t ≤ 2 ^ 53) {ks : List Nat} (hk : ∀ k ∈ ks, k < t)
    (hl : d.labels = ks.map (oneHot t)) {cfg : TreeConfig}
    (hd : SortsRows (amgLeaf .multiClassClassification t) c t cfg.maxLevels d ks)
    (hc : cfg.numberOfClasses = t) (n : Nat) (lr : K) :
    ∃ m, amgTrain d cfg n (.fin lr) = .ok m ∧
      d.featureRows.mapM (fun row => amgPredictInstance row m.trees m.initialGuess m.learningRate m.initialGuess.length) =
        .ok (lift (ks.map (fun k => hitMiss t k (deepAmgScores t lr n).1 (deepAmgScores t lr n).2))) ∧
      (0 < lr → 0 < n → d.featureRows.mapM (amgPredict m) = .ok d.labels ∧
        (d.featureRows.length ≤ 2 ^ 53 → amgScore m d = .ok (.fin 1))) := by
  have hg : (liftV (List.replicate t (1 / (t : K))) : List (Ext K)).length = t := by simp [liftV]
  obtain ⟨s, h3, hs⟩ := deep_amg_loop (lr := lr) h h2 hk hl hd hc n
  have hraw : d.featureRows.mapM (fun row => amgPredictInstance row s.2 (liftV (List.replicate t (1 / (t : K)))) (.fin lr)
      (liftV (List.replicate t (1 / (t : K))) : List (Ext K)).length) = .ok (lift (hitRows t ks (deepAmgScores t lr n))) := by
    simp only [amgPredictInstance_eq, hg]
    rw [tracks_mapM hs.tracks h.label_count.symm, hs.labels]
  refine ⟨_, amg_train h h2 ht h3, hraw, ?_⟩
  intro hlr hn
  have hlead := (lead_grows t h2 lr hlr.le n).2
  have hab : (deepAmgScores t lr n).2 < (deepAmgScores t lr n).1 := by
    have hn' : (0 : K) < n := by exact_mod_cast hn
    have := mul_pos hlr hn'
    linarith
  have hpred := predicts_labels hab h2 hk hl hraw (predict := amgPredict ⟨s.2, liftV (List.replicate t (1 / (t : K))), .fin lr⟩)
    (fun row r hr hne => (C39_amg_one_hot ⟨s.2, liftV (List.replicate t (1 / (t : K))), .fin lr⟩ row r hr).1 hne)
  refine ⟨hpred, fun hN => ?_⟩
  rw [C28_amg_accuracy _ _ _ hN]
  exact ⟨_, hpred, h.label_count.ge, (own_matches hl h.label_count h.rows_ne).symm⟩

/-- **C101** (AMG).  The same for AMG boosting, with the two numbers of `deepAmgScores`. -/
theorem C101_amg (d : DataSet (Ext K)) (c t : Nat) (h : d.WF c t) (h2 : 2 ≤ t) (ht : t ≤ 2 ^ 53) (ks : List Nat) (hk : ∀ k ∈ ks, k < t)
    (hl : d.labels = ks.map (oneHot t)) (hd : NoContradictions d.featureRows d.labels) (cfg : TreeConfig)
    (hc : cfg.numberOfClasses = t) (hm : d.featureRows.length ≤ cfg.maxLevels + 1) (n : Nat) (lr : K) :
    ∃ m, amgTrain d cfg n (.fin lr) = .ok m ∧
      d.featureRows.mapM (fun row => amgPredictInstance row m.trees m.initialGuess m.learningRate m.initialGuess.length) =
        .ok (lift (ks.map (fun k => hitMiss t k (deepAmgScores t lr n).1 (deepAmgScores t lr n).2))) ∧
      (0 < lr → 0 < n → d.featureRows.mapM (amgPredict m) = .ok d.labels ∧
        (d.featureRows.length ≤ 2 ^ 53 → amgScore m d = .ok (.fin 1))) :=
  amg_fits_of h h2 ht hk hl (sortsRows_deep (classes_consistent hk hl hd) hm) hc n lr

end

/-! ## with the exponential function: certainty -/

section real

theorem rowLoss_hitMiss {t k : Nat} (h2 : 2 ≤ t) (hk : k < t) (s : ℝ × ℝ) {x : ℝ} (hx : s.2 + x ≤ s.1) :
    rowLoss (hot t k) (hitMiss t k s.1 s.2) ≤ ((t : ℝ) - 1) * Real.exp (-x) := by
  have ht : (2 : ℝ) ≤ t := by exact_mod_cast h2
  rw [rowLoss_hot hk (hitMiss_length _ _ _ _), hitMiss_map, hitMiss_sum hk, hitMiss_getD hk, if_pos rfl]
  have e1 : Real.exp s.1 + ((t : ℝ) - 1) * Real.exp s.2 = Real.exp s.1 * (1 + ((t : ℝ) - 1) * Real.exp (s.2 - s.1)) := by
    rw [Real.exp_sub]
    have := (Real.exp_pos s.1).ne'
    field_simp
  have hp : 0 < ((t : ℝ) - 1) * Real.exp (s.2 - s.1) := mul_pos (by linarith) (Real.exp_pos _)
  rw [e1, Real.log_mul (Real.exp_pos _).ne' (by linarith), Real.log_exp]
  have e2 := Real.log_le_sub_one_of_pos (show 0 < 1 + ((t : ℝ) - 1) * Real.exp (s.2 - s.1) by linarith)
  have e3 : ((t : ℝ) - 1) * Real.exp (s.2 - s.1) ≤ ((t : ℝ) - 1) * Real.exp (-x) :=
    mul_le_mul_of_nonneg_left (Real.exp_le_exp.mpr (by linarith)) (by linarith)
  linarith

theorem logLoss_hitRows {t : Nat} {ks : List Nat} (h2 : 2 ≤ t) (hk : ∀ k ∈ ks, k < t) (s : ℝ × ℝ) {x : ℝ} (hx : s.2 + x ≤ s.1) :
    logLoss (ks.map (hot t)) (hitRows t ks s) ≤ ks.length * (((t : ℝ) - 1) * Real.exp (-x)) := by
  rw [logLoss, hitRows, List.zipWith_map, List.zipWith_self]
  induction ks with
  | nil => simp
  | cons k ks ih =>
    have e1 := rowLoss_hitMiss h2 (hk k (by simp)) s hx
    have e2 := ih (fun k hk' => hk k (by simp [hk']))
    rw [List.map_cons, List.sum_cons, List.length_cons]
    push_cast
    linarith

/-- **C101** (certainty).  Over the real numbers with the exponential function, under the same conditions and for a learning rate that is not negative: after `n`
iterations the log loss of the training set is at most `N (t - 1) exp(-2 lr n (t - 1) / t)` in multi-class boosting and at most
`N (t - 1) exp(-lr n)` in AMG boosting. -/
theorem C101_certainty (d : DataSet (Ext ℝ)) (c t : Nat) (h : d.WF c t) (h2 : 2 ≤ t) (ht : t ≤ 2 ^ 53) (ls : List (List ℝ))
    (hls : d.labels = lift ls) (hot : ∀ l ∈ d.labels, ∃ k < t, l = oneHot t k) (hd : NoContradictions d.featureRows d.labels)
    (cfg : TreeConfig) (hc : cfg.numberOfClasses = t) (hm : d.featureRows.length ≤ cfg.maxLevels + 1) (n : Nat) (lr : ℝ) (h0 : 0 ≤ lr) :
    (∃ m scores, multiClassTrain d cfg n (.fin lr) = .ok m ∧
      d.featureRows.mapM (fun row => predictInstance row m.trees m.initialGuess m.learningRate) = .ok (lift scores) ∧
      logLoss ls scores ≤ d.featureRows.length * (((t : ℝ) - 1) * Real.exp (-(2 * lr * n * (((t : ℝ) - 1) / t))))) ∧
    ∃ m scores, amgTrain d cfg n (.fin lr) = .ok m ∧
      d.featureRows.mapM (fun row => amgPredictInstance row m.trees m.initialGuess m.learningRate m.initialGuess.length) = .ok (lift scores) ∧
      logLoss ls scores ≤ d.featureRows.length * (((t : ℝ) - 1) * Real.exp (-(lr * n))) := by
  obtain ⟨ks, hk, hl⟩ : ∃ ks : List Nat, (∀ k ∈ ks, k < t) ∧ d.labels = ks.map (oneHot t) := by
    clear hls h hd hm
    generalize d.labels = labels at hot
    induction labels with
    | nil => exact ⟨[], by simp, rfl⟩
    | cons l labels ih =>
      obtain ⟨ks, h3, h4⟩ := ih (fun l hl => hot l (by simp [hl]))
      obtain ⟨k, h5, h6⟩ := hot l (by simp)
      refine ⟨k :: ks, ?_, by rw [h6, h4]; rfl⟩
      intro x hx
      rcases List.mem_cons.mp hx with rfl | hx
      · exact h5
      · exact h3 x hx
  have he : ls = ks.map (Verif.hot t) := lift_injective (hls.symm.trans (classes_lift hl))
  have hlen : d.featureRows.length = ks.length := by rw [← h.label_count, hl, List.length_map]
  obtain ⟨e1, e2⟩ := lead_grows (K := ℝ) t h2 lr h0 n
  obtain ⟨m, h3, h4, _⟩ := C101_multiClass d c t h h2 ht ks hk hl hd cfg hc hm n lr
  obtain ⟨m', h5, h6, _⟩ := C101_amg d c t h h2 ht ks hk hl hd cfg hc hm n lr
  rw [he, hlen]
  exact ⟨⟨m, _, h3, h4, logLoss_hitRows h2 hk _ e1⟩, m', _, h5, h6, logLoss_hitRows h2 hk _ e2⟩

-- three rows of `coin` told apart by their only feature
example : ∃ m scores, multiClassTrain coin { useMultiThreading := false, maxLevels := 2, numberOfClasses := 2 } 10 (.fin (1 / 2)) = .ok m ∧
    coin.featureRows.mapM (fun row => predictInstance row m.trees m.initialGuess m.learningRate) = .ok (lift scores) ∧
    logLoss coinLabels scores ≤ 3 * Real.exp (-5) := by
  have hd : TellsRowsApart coin.featureRows 0 := by
    intro a b ra rb x y h1 h2 h3 h4 h5
    have ha : a < 3 := (List.getElem?_eq_some_iff.mp h1).1
    have hb : b < 3 := (List.getElem?_eq_some_iff.mp h2).1
    interval_cases a <;> interval_cases b <;> simp [coin] at h1 h2 <;> subst h1 <;> subst h2 <;> simp at h3 h4 <;> subst h3 <;> subst h4 <;>
      simp at h5 ⊢
  obtain ⟨⟨m, scores, h1, h2, h3⟩, _⟩ := C101_certainty coin 1 2 coin_wf le_rfl (by norm_num) coinLabels coin_labels coin_hot (hd.consistent (by simp [coin]) _)
    { useMultiThreading := false, maxLevels := 2, numberOfClasses := 2 } rfl (by simp [coin]) 10 (1 / 2) (by norm_num)
  refine ⟨m, scores, h1, h2, ?_⟩
  norm_num [coin] at h3
  exact h3

end real

-- four rows of two classes, in stripes: the scores after two iterations are as stated, and three levels suffice for a perfect score; one level does
-- not
example : stripes4.labels = [0, 1, 0, 1].map (oneHot 2) := by decide +kernel
example : (do
    let m ← multiClassTrain stripes4 { useMultiThreading := false, numberOfClasses := 2, maxLevels := 3 } 2 (.fin (1 / 10))
    let raw ← stripes4.featureRows.mapM (fun row => predictInstance row m.trees m.initialGuess m.learningRate)
    pure (decide (raw = lift ([0, 1, 0, 1].map (fun k => hitMiss 2 k (deepScores 2 (1 / 10 : ℚ) 2).1 (deepScores 2 (1 / 10 : ℚ) 2).2))),
      ← multiClassScore m stripes4)) = (.ok (true, .fin 1) : R (Bool × E)) := by decide +kernel
example : (do
    let m ← amgTrain stripes4 { useMultiThreading := false, numberOfClasses := 2, maxLevels := 3 } 2 (.fin (1 / 10))
    amgScore m stripes4) = .ok (.fin 1) := by decide +kernel
example : (do
    let m ← multiClassTrain stripes4 { useMultiThreading := false, numberOfClasses := 2, maxLevels := 1 } 2 (.fin (1 / 10))
    multiClassScore m stripes4) ≠ .ok (.fin 1) := by decide +kernel
-- without an iteration nothing is learned
example : (do
    let m ← multiClassTrain stripes4 { useMultiThreading := false, numberOfClasses := 2, maxLevels := 3 } 0 (.fin (1 / 10))
    multiClassScore m stripes4) = .ok (.fin (1 / 2)) := by decide +kernel

end Verif
