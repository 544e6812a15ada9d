import Verif.Props.Progress
import Verif.Props.ClassOrder
import Verif.Lemmas.ExactAmg
import Verif.Props.Rounding
/-!
# C74: a standstill lasts

Any arithmetic, whatever its rounding.  Training is deterministic and looks only at the scores of the training rows.  So when one iteration
leaves all of them as they were, every further iteration adds the same tree again.
-/

set_option linter.unusedSectionVars false

namespace Verif

variable {F : Type} [F64 F] {L : Type}

open Sample

section
variable {res : TrainingData F → R (List (List F))} {fit : DataSet F → R (TreeNode F L)} {upd : TrainingData F → TreeNode F L → R (TrainingData F)}

theorem loop_standstill {t : TrainingData F} {n : Nat} {s s' : TrainingData F × List (TreeNode F L)} (h : boostLoop res fit upd n t = .ok s)
    (h' : boostLoop res fit upd (n + 1) t = .ok s') (hsame : s'.1 = s.1) :
    ∃ tree, s'.2 = s.2 ++ [tree] ∧ ∀ k, boostLoop res fit upd (n + k) t = .ok (s.1, s.2 ++ List.replicate k tree) := by
  rw [boostLoop_succ, h, R.ok_bind] at h'
  obtain ⟨r, tree, t', h1, h2, h3, rfl⟩ := boostStep_inv h'
  refine ⟨tree, rfl, fun k => ?_⟩
  simp only at hsame
  induction k with
  | zero => simpa using h
  | succ k ih =>
    rw [← Nat.add_assoc, boostLoop_succ, ih, R.ok_bind]
    simp only [boostStep, h1, h2, h3, R.ok_bind, hsame]
    rw [List.replicate_succ', List.append_assoc]
    rfl

theorem tracks_same {out : List F → TreeNode F L → R (List F)} {d : DataSet F} {g : List F} {lr : F} {s s' : TrainingData F × List (TreeNode F L)}
    (hs : Tracks out d g lr s) (hs' : Tracks out d g lr s') (h : s'.1.mutableLabels = s.1.mutableLabels) : s'.1 = s.1 := by
  have h1 := hs.data
  have h2 := hs'.data
  have h3 := hs.size
  have h4 := hs'.size
  rcases s with ⟨⟨a, b, c⟩, ts⟩
  rcases s' with ⟨⟨a', b', c'⟩, ts'⟩
  simp only at *
  rw [h1, h2, h3, h4, h]

end

/-- **C74** (regression ensemble).  If the ensembles of `n` and `n + 1` iterations give the same predictions to the training rows, then the
ensemble of `n + k` iterations consists of that of `n` iterations and `k` copies of one tree, and it still gives these predictions to the
training rows. -/
theorem C74_regression (d : DataSet F) (hlen : d.featureRows.length = d.labels.length) (cfg : TreeConfig) (n : Nat) (lr : F)
    (m m' : BoostModel F (GradBoostLeaf F)) (hm : regressionTrain d cfg n lr = .ok m) (hm' : regressionTrain d cfg (n + 1) lr = .ok m')
    (hsame : d.featureRows.mapM (regressionPredict m') = d.featureRows.mapM (regressionPredict m)) :
    ∃ tree, ∀ k, regressionTrain d cfg (n + k) lr = .ok { m with trees := m.trees ++ List.replicate k tree } ∧
      d.featureRows.mapM (regressionPredict { m with trees := m.trees ++ List.replicate k tree }) = d.featureRows.mapM (regressionPredict m) := by
  obtain ⟨f, h1⟩ := train_inv hm
  obtain ⟨f', h2⟩ := train_inv hm'
  obtain ⟨g1, g2, g3⟩ := boostingLoop_inv h1
  obtain ⟨g1', g2', g3'⟩ := boostingLoop_inv h2
  have hgg : m'.initialGuess = m.initialGuess := Except.ok.inj (g1'.symm.trans g1)
  have hp := C33_regression_tracked d hlen cfg n lr f m h1
  have hp' := C33_regression_tracked d hlen cfg (n + 1) lr f' m' h2
  simp only [regressionLoop_eq] at g3 g3'
  rw [hgg] at g3'
  rw [hp, hp'] at hsame
  have hs := tracks_loop (grad_updateAdds lr m.initialGuess.length) (tracks_start d m.initialGuess lr) g3
  have hs' := tracks_loop (grad_updateAdds lr m.initialGuess.length) (tracks_start d m.initialGuess lr) g3'
  obtain ⟨tree, _, hk⟩ := loop_standstill g3 g3' (tracks_same hs hs' (Except.ok.inj hsame))
  refine ⟨tree, fun k => ?_⟩
  have hfull : regressionTrainFull d cfg (n + k) lr = .ok (f, { m with trees := m.trees ++ List.replicate k tree }) := by
    rw [regressionTrainFull, boostingLoop_mk (ex := { ensembleType := .regressionBoost, loopExecutor := regressionLoop }) g1 (n := n + k) (cfg := cfg)
      (lr := lr) (final := f) (trees := m.trees ++ List.replicate k tree) (by simp only [regressionLoop_eq]; exact hk k), ← g2]
  refine ⟨by rw [regressionTrain, hfull]; rfl, ?_⟩
  rw [C33_regression_tracked d hlen cfg (n + k) lr f _ hfull, hp]

/-- **C74** (multi-class ensemble).  The same, with the raw scores of the training rows. -/
theorem C74_multiClass (d : DataSet F) (hlen : d.featureRows.length = d.labels.length) (cfg : TreeConfig) (n : Nat) (lr : F)
    (m m' : BoostModel F (GradBoostLeaf F)) (hm : multiClassTrain d cfg n lr = .ok m) (hm' : multiClassTrain d cfg (n + 1) lr = .ok m')
    (hsame : d.featureRows.mapM (fun row => predictInstance row m'.trees m'.initialGuess m'.learningRate) =
      d.featureRows.mapM (fun row => predictInstance row m.trees m.initialGuess m.learningRate)) :
    ∃ tree, ∀ k, multiClassTrain d cfg (n + k) lr = .ok { m with trees := m.trees ++ List.replicate k tree } ∧
      d.featureRows.mapM (fun row => predictInstance row (m.trees ++ List.replicate k tree) m.initialGuess m.learningRate) =
        d.featureRows.mapM (fun row => predictInstance row m.trees m.initialGuess m.learningRate) := by
  obtain ⟨f, h1⟩ := train_inv hm
  obtain ⟨f', h2⟩ := train_inv hm'
  obtain ⟨g1, g2, g3⟩ := boostingLoop_inv h1
  obtain ⟨g1', g2', g3'⟩ := boostingLoop_inv h2
  have hgg : m'.initialGuess = m.initialGuess := Except.ok.inj (g1'.symm.trans g1)
  simp only [multiClassLoop_eq] at g3 g3'
  rw [hgg] at g3'
  have hs := tracks_loop (grad_updateAdds lr m.initialGuess.length) (tracks_start d m.initialGuess lr) g3
  have hs' := tracks_loop (grad_updateAdds lr m.initialGuess.length) (tracks_start d m.initialGuess lr) g3'
  have hp := tracks_mapM hs hlen
  have hp' := tracks_mapM hs' hlen
  simp only [predictInstance_eq, hgg, g2, g2'] at hsame ⊢
  rw [hp, hp'] at hsame
  obtain ⟨tree, _, hk⟩ := loop_standstill g3 g3' (tracks_same hs hs' (Except.ok.inj hsame))
  refine ⟨tree, fun k => ⟨?_, ?_⟩⟩
  · rw [multiClassTrain, multiClassTrainFull, boostingLoop_mk (ex := { ensembleType := .multiClassBoost, loopExecutor := multiClassLoop }) g1
      (n := n + k) (cfg := cfg) (lr := lr) (final := f) (trees := m.trees ++ List.replicate k tree) (by simp only [multiClassLoop_eq]; exact hk k), ← g2]
    rfl
  · rw [hp]
    exact tracks_mapM (tracks_loop (grad_updateAdds lr m.initialGuess.length) (tracks_start d m.initialGuess lr) (hk k)) hlen

/-- **C74** (AMG ensemble). -/
theorem C74_amg (d : DataSet F) (hlen : d.featureRows.length = d.labels.length) (cfg : TreeConfig) (n : Nat) (lr : F)
    (m m' : BoostModel F (AMGBoostLeaf F)) (hm : amgTrain d cfg n lr = .ok m) (hm' : amgTrain d cfg (n + 1) lr = .ok m')
    (hsame : d.featureRows.mapM (fun row => amgPredictInstance row m'.trees m'.initialGuess m'.learningRate m'.initialGuess.length) =
      d.featureRows.mapM (fun row => amgPredictInstance row m.trees m.initialGuess m.learningRate m.initialGuess.length)) :
    ∃ tree, ∀ k, amgTrain d cfg (n + k) lr = .ok { m with trees := m.trees ++ List.replicate k tree } ∧
      d.featureRows.mapM (fun row => amgPredictInstance row (m.trees ++ List.replicate k tree) m.initialGuess m.learningRate m.initialGuess.length) =
        d.featureRows.mapM (fun row => amgPredictInstance row m.trees m.initialGuess m.learningRate m.initialGuess.length) := by
  obtain ⟨f, h1⟩ := train_inv hm
  obtain ⟨f', h2⟩ := train_inv hm'
  obtain ⟨g1, g2, g3⟩ := boostingLoop_inv h1
  obtain ⟨g1', g2', g3'⟩ := boostingLoop_inv h2
  have hgg : m'.initialGuess = m.initialGuess := Except.ok.inj (g1'.symm.trans g1)
  simp only [amgLoop_eq] at g3 g3'
  rw [hgg] at g3'
  have hs := tracks_loop (amg_updateAdds lr m.initialGuess.length) (tracks_start d m.initialGuess lr) g3
  have hs' := tracks_loop (amg_updateAdds lr m.initialGuess.length) (tracks_start d m.initialGuess lr) g3'
  have hp := tracks_mapM hs hlen
  have hp' := tracks_mapM hs' hlen
  simp only [amgPredictInstance_eq, hgg, g2, g2'] at hsame ⊢
  rw [hp, hp'] at hsame
  obtain ⟨tree, _, hk⟩ := loop_standstill g3 g3' (tracks_same hs hs' (Except.ok.inj hsame))
  refine ⟨tree, fun k => ⟨?_, ?_⟩⟩
  · rw [amgTrain, amgTrainFull, boostingLoop_mk (ex := { ensembleType := .amgBoost, loopExecutor := amgLoop }) g1
      (n := n + k) (cfg := cfg) (lr := lr) (final := f) (trees := m.trees ++ List.replicate k tree) (by simp only [amgLoop_eq]; exact hk k), ← g2]
    rfl
  · rw [hp]
    exact tracks_mapM (tracks_loop (amg_updateAdds lr m.initialGuess.length) (tracks_start d m.initialGuess lr) (hk k)) hlen

section exact
variable {K : Type} [Field K] [LinearOrder K] [IsStrictOrderedRing K] [FloorSemiring K] [HasExp K]

theorem rawScore_still {out : List (Ext K) → TreeNode (Ext K) L → R (List (Ext K))} {g : List (Ext K)} {lr : K} {t : Nat}
    {trees : List (TreeNode (Ext K) L)} {tree : TreeNode (Ext K) L} {row : List (Ext K)} {v : List K} (hv : v.length = t)
    (h : rawScore out g (.fin lr) trees row = .ok (liftV v)) (ho : out row tree = .ok (liftV (List.replicate t 0))) (k : Nat) :
    rawScore out g (.fin lr) (trees ++ List.replicate k tree) row = .ok (liftV v) := by
  induction k with
  | zero => simpa using h
  | succ k ih =>
    rw [List.replicate_succ', ← List.append_assoc, rawScore_snoc ih ho (by simp [liftV, hv])]
    congr 1
    apply List.ext_getElem
    · simp [liftV, hv]
    intro i h1 h2
    simp [liftV]

theorem zero_of_updated {o : List (Ext K) → List K} {lr : K} {t : Nat} (hlr : lr ≠ 0) {ps : List (List K)} {rows : List (List (Ext K))}
    (hl : ps.length = rows.length) (hw : ∀ p ∈ ps, p.length = t) (ho : ∀ row, (o row).length = t) (hu : updated lr o ps rows = ps) :
    ∀ row ∈ rows, o row = List.replicate t 0 := by
  intro row hrow
  obtain ⟨i, hi, rfl⟩ := List.getElem_of_mem hrow
  have hi' : i < ps.length := by omega
  have h1 : (updated lr o ps rows)[i]? = ps[i]? := by rw [hu]
  simp only [updated, List.getElem?_zipWith, List.getElem?_eq_getElem hi, List.getElem?_eq_getElem hi', Option.some.injEq] at h1
  have hpw := hw _ (List.getElem_mem hi')
  apply List.ext_getElem
  · simp [ho]
  intro j h3 h4
  have hj : j < t := by simpa using h4
  have h2 := congrArg (fun l : List K => l[j]?) h1
  simp only [List.getElem?_zipWith, List.getElem?_map, List.getElem?_eq_getElem h3, List.getElem?_eq_getElem (show j < ps[i].length by omega),
    Option.map_some, Option.some.injEq] at h2
  have h5 : lr * (o rows[i])[j] = 0 := by linarith
  rw [List.getElem_replicate]
  exact (mul_eq_zero.mp h5).resolve_left hlr

/-- **C74** (multi-class ensemble, exact arithmetic).  With one-hot labels and a learning rate other than zero: if one iteration leaves the
raw scores of all training rows as they were, every later ensemble gives every row the raw scores it has now. -/
theorem C74_multiClass_exact (d : DataSet (Ext K)) (c t : Nat) (h : d.WF c t) (h2 : 2 ≤ t) (ht : t ≤ 2 ^ 53)
    (hot : ∀ l ∈ d.labels, ∃ k < t, l = oneHot t k) (cfg : TreeConfig) (hc : cfg.numberOfClasses = t) (n : Nat) (lr : K) (hlr : lr ≠ 0)
    (m m' : BoostModel (Ext K) (GradBoostLeaf (Ext K))) (hm : multiClassTrain d cfg n (.fin lr) = .ok m)
    (hm' : multiClassTrain d cfg (n + 1) (.fin lr) = .ok m')
    (hsame : d.featureRows.mapM (fun row => predictInstance row m'.trees m'.initialGuess m'.learningRate) =
      d.featureRows.mapM (fun row => predictInstance row m.trees m.initialGuess m.learningRate)) (k : Nat) :
    ∃ m'', multiClassTrain d cfg (n + k) (.fin lr) = .ok m'' ∧ ∀ row : List (Ext K), c ≤ row.length →
      predictInstance row m''.trees m''.initialGuess m''.learningRate = predictInstance row m.trees m.initialGuess m.learningRate := by
  obtain ⟨ls, hls, hh⟩ := labels_hot hot
  obtain ⟨s, ps, h3, hs⟩ := multi_loop (lr := lr) h h2 hls hh hc n
  obtain ⟨s', h4, hs', htr⟩ := class_step_explicit h h2 hls hh hc (by simp [liftV]) hs.finite
  have hl' := boostLoop_succ (res := multiClassResiduals) (fit := fun d => gradBoostTreeNew d cfg .multiClassClassification)
    (upd := fun t tree => updateDatasetLabels t tree (.fin lr)) n (startState d (liftV (List.replicate t (1 / (t : K)))))
  rw [h3, R.ok_bind, h4] at hl'
  have em := Except.ok.inj (hm.symm.trans (multi_train h h2 ht h3))
  have em' := Except.ok.inj (hm'.symm.trans (multi_train h h2 ht hl'))
  have hps : ps.length = d.featureRows.length := by rw [hs.finite.len, h.label_count]
  rw [em, em'] at hsame
  simp only [predictInstance_eq] at hsame
  rw [tracks_mapM hs.finite.tracks h.label_count.symm, tracks_mapM hs'.tracks h.label_count.symm, hs.finite.labels, hs'.labels] at hsame
  have hupd := lift_injective (Except.ok.inj hsame)
  have hz := zero_of_updated hlr hps hs.finite.width (fun _ => classLeaf_length _ _) hupd
  obtain ⟨tree, htree, hk⟩ := loop_standstill h3 hl' (tracks_same hs.finite.tracks hs'.tracks (by rw [hs'.labels, hs.finite.labels, hupd]))
  rw [htr] at htree
  have htree := (List.append_cancel_left htree)
  simp only [List.cons.injEq, and_true] at htree
  refine ⟨_, multi_train h h2 ht (hk k), ?_⟩
  intro row hrow
  rw [em]
  simp only [predictInstance_eq]
  obtain ⟨outs, _, _, hsc⟩ := class_score h h2 hls hh (multi_out _) (by simp) hs row hrow
  have hw := probResid_wf h hls hs.finite.len hs.finite.width
  have hnew : gradOut row tree = .ok (liftV (List.replicate t (0 : K))) := by
    have hne := mates_ne hw (ls := probResid ls ps) rfl cfg.maxLevels (gradLeaf .multiClassClassification t) hrow
    obtain ⟨l, hl⟩ := List.exists_mem_of_ne_nil _ hne
    obtain ⟨e, he, rfl⟩ := List.mem_map.mp hl
    obtain ⟨q1, q2⟩ := List.mem_filter.mp he
    have q2 := of_decide_eq_true q2
    rw [← hz e.1 (List.of_mem_zip q1).1, ← htree, gradOut_class_exact cfg.maxLevels hw rfl (probResid_good h2 hh hs.finite.width) hrow]
    simp only [mates]
    rw [q2]
  rw [hsc]
  exact rawScore_still (by simp) hsc hnew k

/-- **C74** (AMG ensemble, exact arithmetic). -/
theorem C74_amg_exact (d : DataSet (Ext K)) (c t : Nat) (h : d.WF c t) (h2 : 2 ≤ t) (ht : t ≤ 2 ^ 53)
    (hot : ∀ l ∈ d.labels, ∃ k < t, l = oneHot t k) (cfg : TreeConfig) (hc : cfg.numberOfClasses = t) (n : Nat) (lr : K) (hlr : lr ≠ 0)
    (m m' : BoostModel (Ext K) (AMGBoostLeaf (Ext K))) (hm : amgTrain d cfg n (.fin lr) = .ok m)
    (hm' : amgTrain d cfg (n + 1) (.fin lr) = .ok m')
    (hsame : d.featureRows.mapM (fun row => amgPredictInstance row m'.trees m'.initialGuess m'.learningRate m'.initialGuess.length) =
      d.featureRows.mapM (fun row => amgPredictInstance row m.trees m.initialGuess m.learningRate m.initialGuess.length)) (k : Nat) :
    ∃ m'', amgTrain d cfg (n + k) (.fin lr) = .ok m'' ∧ ∀ row : List (Ext K), c ≤ row.length →
      amgPredictInstance row m''.trees m''.initialGuess m''.learningRate m''.initialGuess.length =
        amgPredictInstance row m.trees m.initialGuess m.learningRate m.initialGuess.length := by
  obtain ⟨ls, hls, hh⟩ := labels_hot hot
  obtain ⟨s, ps, h3, hs⟩ := amg_loop (lr := lr) h h2 hls hh hc n
  obtain ⟨s', h4, hs', htr⟩ := amg_step_explicit h h2 hls hh hc (by simp [liftV]) hs.finite
  have hl' := boostLoop_succ (res := multiClassResiduals) (fit := fun d => amgTreeNew d cfg .multiClassClassification)
    (upd := fun t tree => amgUpdateDatasetLabels t tree (.fin lr)) n (startState d (liftV (List.replicate t (1 / (t : K)))))
  rw [h3, R.ok_bind, h4] at hl'
  have em := Except.ok.inj (hm.symm.trans (amg_train h h2 ht h3))
  have em' := Except.ok.inj (hm'.symm.trans (amg_train h h2 ht hl'))
  have hps : ps.length = d.featureRows.length := by rw [hs.finite.len, h.label_count]
  have hlen : (liftV (List.replicate t (1 / (t : K))) : List (Ext K)).length = t := by simp [liftV]
  rw [em, em'] at hsame
  simp only [amgPredictInstance_eq, hlen] at hsame
  rw [tracks_mapM hs.finite.tracks h.label_count.symm, tracks_mapM hs'.tracks h.label_count.symm, hs.finite.labels, hs'.labels] at hsame
  have hupd := lift_injective (Except.ok.inj hsame)
  have hz := zero_of_updated hlr hps hs.finite.width (fun _ => keepTop_length _ _) hupd
  obtain ⟨tree, htree, hk⟩ := loop_standstill h3 hl' (tracks_same hs.finite.tracks hs'.tracks (by rw [hs'.labels, hs.finite.labels, hupd]))
  rw [htr] at htree
  have htree := (List.append_cancel_left htree)
  simp only [List.cons.injEq, and_true] at htree
  refine ⟨_, amg_train h h2 ht (hk k), ?_⟩
  intro row hrow
  rw [em]
  simp only [amgPredictInstance_eq, hlen]
  obtain ⟨outs, _, _, hsc⟩ := class_score h h2 hls hh (amg_out h2 _) (by simp) hs row hrow
  have hw := probResid_wf h hls hs.finite.len hs.finite.width
  have hnew : amgOut t row tree = .ok (liftV (List.replicate t (0 : K))) := by
    have hne := mates_ne hw (ls := probResid ls ps) rfl cfg.maxLevels (amgLeaf .multiClassClassification t) hrow
    obtain ⟨l, hl⟩ := List.exists_mem_of_ne_nil _ hne
    obtain ⟨e, he, rfl⟩ := List.mem_map.mp hl
    obtain ⟨q1, q2⟩ := List.mem_filter.mp he
    have q2 := of_decide_eq_true q2
    rw [← hz e.1 (List.of_mem_zip q1).1, ← htree, amgOut_class_exact h2 cfg.maxLevels hw (probResid_good h2 hh hs.finite.width) hrow]
    simp only [mates]
    rw [q2]
    rfl
  rw [hsc]
  exact rawScore_still (by simp) hsc hnew k

end exact

/-! ## cases that meet the hypotheses -/

-- exclusive or: no question helps, so training stands still from the start, far from a perfect fit
example : (do
    let m0 ← regressionTrain Sample.xor (exCfg 1) 0 (.fin (1 / 2))
    let m1 ← regressionTrain Sample.xor (exCfg 1) 1 (.fin (1 / 2))
    let m4 ← regressionTrain Sample.xor (exCfg 1) 4 (.fin (1 / 2))
    let p0 ← Sample.xor.featureRows.mapM (regressionPredict m0)
    let p1 ← Sample.xor.featureRows.mapM (regressionPredict m1)
    let p4 ← Sample.xor.featureRows.mapM (regressionPredict m4)
    pure (p0, decide (p0 = p1), decide (p0 = p4), m4.trees.length)) =
    (.ok (List.replicate 4 [.fin (1 / 2)], true, true, 4) : R (List (List E) × Bool × Bool × Nat)) := by
  decide +kernel

-- the same data with one-hot labels, for both classification ensembles
example :
    let d : DataSet E := { Sample.xor with labels := [[1, 0], [0, 1], [0, 1], [1, 0]] }
    (do let m0 ← multiClassTrain d (exCfg 2) 0 (.fin (1 / 2))
        let m1 ← multiClassTrain d (exCfg 2) 1 (.fin (1 / 2))
        let a0 ← amgTrain d (exCfg 2) 0 (.fin (1 / 2))
        let a1 ← amgTrain d (exCfg 2) 1 (.fin (1 / 2))
        let p0 ← d.featureRows.mapM (fun row => predictInstance row m0.trees m0.initialGuess m0.learningRate)
        let p1 ← d.featureRows.mapM (fun row => predictInstance row m1.trees m1.initialGuess m1.learningRate)
        let q0 ← d.featureRows.mapM (fun row => amgPredictInstance row a0.trees a0.initialGuess a0.learningRate a0.initialGuess.length)
        let q1 ← d.featureRows.mapM (fun row => amgPredictInstance row a1.trees a1.initialGuess a1.learningRate a1.initialGuess.length)
        pure (decide (p0 = p1), decide (q0 = q1), m1.trees.length, a1.trees.length)) = (.ok (true, true, 1, 1) : R (Bool × Bool × Nat × Nat)) := by
  decide +kernel

-- binary64 with a learning rate of `2 ^ (-60)`: there is a good question, but adding the weighted outputs changes nothing, and never will
example : ∀ negZero : Bool, let _ := env negZero
    (do let m0 ← regressionTrain rough4 { useMultiThreading := false, numberOfClasses := 1, maxLevels := 1 } 0 (b64 (1 / 2 ^ 60))
        let m1 ← regressionTrain rough4 { useMultiThreading := false, numberOfClasses := 1, maxLevels := 1 } 1 (b64 (1 / 2 ^ 60))
        let p0 ← rough4.featureRows.mapM (regressionPredict m0)
        let p1 ← rough4.featureRows.mapM (regressionPredict m1)
        pure (decide (p0 = p1), m1.trees.map TreeNode.questionCount)) =
      .ok (true, [1]) := by
  decide +kernel

end Verif
