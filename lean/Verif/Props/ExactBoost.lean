import Verif.Lemmas.ExactBoost
import Verif.Props.ExactTree
import Verif.Props.Boost
/-!
# C34-C36: regression boosting with exact arithmetic
-/

set_option linter.unusedSectionVars false
set_option linter.unusedSimpArgs false

namespace Verif

variable {K : Type} [Field K] [LinearOrder K] [IsStrictOrderedRing K] [FloorSemiring K] [HasExp K]

open Sample

section loop
variable {d : DataSet (Ext K)} {c t : Nat} {ls : List (List K)} {cfg : TreeConfig} {lr : K}

/-- the regression loop on `d` -/
abbrev regLoopAt (d : DataSet (Ext K)) (cfg : TreeConfig) (lr : K) (guess : List (Ext K)) (n : Nat) :=
  boostLoop regressionResiduals (fun d => gradBoostTreeNew d cfg .regression)
    (fun t tree => updateDatasetLabels t tree (.fin lr)) n (startState d guess)

/-- everything that is known about the state after `n` iterations -/
structure RegState (d : DataSet (Ext K)) (c t : Nat) (ls : List (List K)) (cfg : TreeConfig) (lr : K)
    (s : TrainingData (Ext K) × List (TreeNode (Ext K) (GradBoostLeaf (Ext K)))) (ps : List (List K)) : Prop where
  finite : Finite gradOut d (liftV (meanVec t ls)) lr t s ps
  unbiased : ∀ j < t, (target (resid ls ps) j).sum = 0
  trees : ∀ tree ∈ s.2, ∃ rs, ({ d with labels := lift rs } : DataSet (Ext K)).WF c t ∧ tree = residTree c t cfg.maxLevels d rs

theorem regState_start (h : d.WF c t) (hls : d.labels = lift ls) :
    RegState d c t ls cfg lr (startState d (liftV (meanVec t ls)), []) (List.replicate ls.length (meanVec t ls)) := by
  have hll : ls.length = d.labels.length := by rw [hls, lift_length]
  refine ⟨⟨tracks_start d _ _, ?_, by simp [hll], ?_⟩, ?_, by simp⟩
  · simp [startState, lift, hll]
  · intro p hp
    rw [List.eq_of_mem_replicate hp, meanVec_length]
  · intro j hj
    have hlw := lift_width hls h.label_len
    have hne : ls ≠ [] := by
      intro h0
      rw [h0] at hll
      exact h.labels_ne (List.length_eq_zero_iff.mp hll.symm)
    have hn := length_cast_ne (K := K) hne
    have h1 : target (resid ls (List.replicate ls.length (meanVec t ls))) j = (target ls j).map (fun x => x - meanOf (target ls j)) := by
      apply List.ext_getElem
      · simp [target, resid]
      intro i h2 h3
      simp only [target, resid, List.length_map, List.length_zipWith, List.length_replicate] at h2
      have hi : i < ls.length := by omega
      have b1 := hlw _ (List.getElem_mem hi)
      simp only [target, resid, List.getElem_map, List.getElem_zipWith, List.getElem_replicate]
      rw [zipWith_getD b1 (meanVec_length _ _) 0 0, getD_range hj, meanVec, getD_range hj]
      rfl
    rw [h1]
    have h2 : ∀ (l : List K) (a : K), (l.map (fun x => x - a)).sum = l.sum - l.length * a := by
      intro l a
      induction l with
      | nil => simp
      | cons x l ih => simp only [List.map_cons, List.sum_cons, ih, List.length_cons]; push_cast; ring
    rw [h2, meanOf, target_length]
    field_simp
    ring

theorem regState_step (h : d.WF c t) (hls : d.labels = lift ls) (hc : cfg.numberOfClasses = t)
    {s : TrainingData (Ext K) × List (TreeNode (Ext K) (GradBoostLeaf (Ext K)))} {ps : List (List K)}
    (hs : RegState d c t ls cfg lr s ps) :
    ∃ s' ps', boostStep regressionResiduals (fun d => gradBoostTreeNew d cfg .regression)
        (fun t tree => updateDatasetLabels t tree (.fin lr)) s = .ok s' ∧ RegState d c t ls cfg lr s' ps' ∧
      (0 ≤ lr → lr ≤ 2 → sse t (resid ls ps') ≤ sse t (resid ls ps)) := by
  have hg : (liftV (meanVec t ls) : List (Ext K)).length = t := by rw [liftV_length, meanVec_length]
  obtain ⟨s', hb⟩ := regression_step h hc hg s hs.finite.tracks
  obtain ⟨h1, h2⟩ := regression_step_exact h hls hc hg hs.finite hb
  have hll : ps.length = ls.length := by rw [hs.finite.len, hls, lift_length]
  have hlr : ps.length = d.featureRows.length := by rw [hs.finite.len, h.label_count]
  have hlw := lift_width hls h.label_len
  have hlen : d.featureRows.length = (resid ls ps).length := by rw [resid_length hll]; omega
  have hres := resid_updated (rows := d.featureRows) (lr := lr) (o := residOut c t cfg.maxLevels d (resid ls ps)) hlw
    hs.finite.width (fun row _ => meanVec_length _ _) hll hlr
  refine ⟨s', _, hb, ⟨h1, ?_, ?_⟩, ?_⟩
  · intro j hj
    rw [hres, sum_step hj _ hlen, hs.unbiased j hj, mul_zero]
  · intro tree htree
    rw [h2] at htree
    rcases List.mem_append.mp htree with htree | htree
    · exact hs.trees tree htree
    · rw [List.mem_singleton] at htree
      exact ⟨_, resid_wf h hls hs.finite.len hs.finite.width, htree⟩
  · intro a0 a2
    rw [hres]
    exact sse_step a0 a2 _ hlen

theorem regState_loop (h : d.WF c t) (hls : d.labels = lift ls) (hc : cfg.numberOfClasses = t) (n : Nat) :
    ∃ s ps, regLoopAt d cfg lr (liftV (meanVec t ls)) n = .ok s ∧ RegState d c t ls cfg lr s ps := by
  induction n with
  | zero => exact ⟨_, _, rfl, regState_start h hls⟩
  | succ n ih =>
    obtain ⟨s, ps, h1, h2⟩ := ih
    obtain ⟨s', ps', h3, h4, _⟩ := regState_step h hls hc h2
    exact ⟨s', ps', by rw [regLoopAt] at h1 ⊢; rw [boostLoop_succ, h1]; exact h3, h4⟩

theorem initialGuess_exact (h : d.WF c t) (hls : d.labels = lift ls) : avgVec t d.labels = liftV (meanVec t ls) := by
  have hne : ls ≠ [] := by
    intro h0
    exact h.labels_ne (by rw [hls, h0]; rfl)
  rw [hls, avgVec_exact (lift_width hls h.label_len) hne]

/-- training from the loop -/
theorem regressionTrain_of_loop (h : d.WF c t) (hls : d.labels = lift ls) {n : Nat}
    {s : TrainingData (Ext K) × List (TreeNode (Ext K) (GradBoostLeaf (Ext K)))}
    (hl : regLoopAt d cfg lr (liftV (meanVec t ls)) n = .ok s) :
    regressionTrain d cfg n (.fin lr) = .ok { trees := s.2, initialGuess := liftV (meanVec t ls), learningRate := .fin lr } := by
  have hg := determineInitialGuess_regression h (s := d.labels.length)
  rw [initialGuess_exact h hls] at hg
  have hfull := boostingLoop_mk (ex := { ensembleType := .regressionBoost, loopExecutor := regressionLoop }) hg (n := n) (cfg := cfg)
    (lr := Ext.fin lr) (final := s.1) (trees := s.2) hl
  exact train_of_full hfull

/-- predictions on the training rows -/
theorem predict_of_state (h : d.WF c t) {s : TrainingData (Ext K) × List (TreeNode (Ext K) (GradBoostLeaf (Ext K)))} {ps : List (List K)}
    (hs : RegState d c t ls cfg lr s ps) :
    d.featureRows.mapM (regressionPredict { trees := s.2, initialGuess := liftV (meanVec t ls), learningRate := .fin lr }) =
      .ok (lift ps) := by
  rw [← hs.finite.labels, ← tracks_mapM hs.finite.tracks h.label_count.symm]
  apply mapM_congr
  intro row _
  rw [regressionPredict, predictInstance_eq]

end loop

/-! ## C34 -/

/-- **C34**.  Whatever the trees: if every tree routes the row to a leaf with a finite output vector of `t` entries, the prediction
is the initial guess plus the learning rate times the sum of these outputs. -/
theorem C34_additive (m : BoostModel (Ext K) (GradBoostLeaf (Ext K))) (t : Nat) (g : List K) (hg : m.initialGuess = liftV g)
    (hgt : g.length = t) (lr : K) (hlr : m.learningRate = .fin lr) (row : List (Ext K)) (outs : List (List K))
    (ho : List.Forall₂ (fun tree o => o.length = t ∧
      ∃ leaf : GradBoostLeaf (Ext K), findLeafNodeForData row tree = .ok leaf ∧ leaf.leafOutput = some (liftV o)) m.trees outs) :
    regressionPredict m row =
      .ok (liftV ((List.range t).map (fun j => g.getD j 0 + lr * (outs.map (fun o => o.getD j 0)).sum))) := by
  rw [regressionPredict, predictInstance_eq, hg, hlr]
  apply rawScore_exact hgt
  refine ho.imp ?_
  rintro tree o ⟨h1, leaf, h2, h3⟩
  exact ⟨by simp [gradOut, h2, h3, unwrap], h1⟩

/-- **C34**.  Training on finite labels meets these conditions for every row with enough features: the model's initial guess, its
leaf outputs and its predictions are finite. -/
theorem C34_trained (d : DataSet (Ext K)) (c t : Nat) (h : d.WF c t) (ls : List (List K)) (hls : d.labels = lift ls) (cfg : TreeConfig)
    (hc : cfg.numberOfClasses = t) (n : Nat) (lr : K) :
    ∃ m, regressionTrain d cfg n (.fin lr) = .ok m ∧ m.trees.length = n ∧ m.learningRate = .fin lr ∧
      m.initialGuess = liftV (meanVec t ls) ∧
      ∀ row : List (Ext K), c ≤ row.length → ∃ outs : List (List K),
        List.Forall₂ (fun tree o => o.length = t ∧
          ∃ leaf : GradBoostLeaf (Ext K), findLeafNodeForData row tree = .ok leaf ∧ leaf.leafOutput = some (liftV o)) m.trees outs ∧
        regressionPredict m row = .ok (liftV ((List.range t).map (fun j =>
          (meanVec t ls).getD j 0 + lr * (outs.map (fun o => o.getD j 0)).sum))) := by
  obtain ⟨s, ps, h1, h2⟩ := regState_loop (lr := lr) h hls hc n
  refine ⟨_, regressionTrain_of_loop h hls h1, boostLoop_length h1, rfl, rfl, ?_⟩
  intro row hrow
  have : ∃ outs : List (List K), List.Forall₂ (fun tree o => o.length = t ∧
      ∃ leaf : GradBoostLeaf (Ext K), findLeafNodeForData row tree = .ok leaf ∧ leaf.leafOutput = some (liftV o)) s.2 outs := by
    have ht := h2.trees
    revert ht
    generalize s.2 = trees
    intro ht
    induction trees with
    | nil => exact ⟨[], .nil⟩
    | cons tree trees ih =>
      obtain ⟨outs, ho⟩ := ih (fun x hx => ht x (by simp [hx]))
      obtain ⟨rs, hw, rfl⟩ := ht tree (by simp)
      have hgo := gradOut_regression_exact cfg.maxLevels hw (ls := rs) rfl hrow
      simp only [gradOut, R.bind_eq_ok] at hgo
      obtain ⟨leaf, hl1, hl2⟩ := hgo
      have hl3 : leaf.leafOutput = some (liftV (residOut c t cfg.maxLevels d rs row)) := by
        revert hl2
        cases leaf.leafOutput with
        | none => intro hl2; cases hl2
        | some v => intro hl2; rw [Except.ok.inj hl2]
      exact ⟨_ :: outs, .cons ⟨meanVec_length t _, leaf, hl1, hl3⟩ ho⟩
  obtain ⟨outs, ho⟩ := this
  exact ⟨outs, ho, C34_additive _ t _ rfl (meanVec_length t ls) lr rfl row outs ho⟩

-- two trees; the prediction really moves
example : (do
    let m ← regressionTrain d4 { useMultiThreading := true, numberOfClasses := 1, maxLevels := 1 } 2 (.fin (1 / 2))
    regressionPredict m [2, 7]) = .ok [.fin (55 / 16)] := by decide +kernel

/-! ## C35 -/

/-- **C35**.  With a learning rate between 0 and 2, one more iteration never increases the error on the training set. -/
theorem C35_training_error (d : DataSet (Ext K)) (c t : Nat) (h : d.WF c t) (ht0 : 0 < t) (ls : List (List K)) (hls : d.labels = lift ls)
    (cfg : TreeConfig) (hc : cfg.numberOfClasses = t) (n : Nat) (lr : K) (h0 : 0 ≤ lr) (h2 : lr ≤ 2) :
    ∃ m m' e e', regressionTrain d cfg n (.fin lr) = .ok m ∧ regressionTrain d cfg (n + 1) (.fin lr) = .ok m' ∧
      regressionScore m d = .ok (.fin e) ∧ regressionScore m' d = .ok (.fin e') ∧ e' ≤ e := by
  obtain ⟨s, ps, h1, hs⟩ := regState_loop (lr := lr) h hls hc n
  obtain ⟨s', ps', h3, hs', hle⟩ := regState_step h hls hc hs
  have hl' : regLoopAt d cfg lr (liftV (meanVec t ls)) (n + 1) = .ok s' := by rw [regLoopAt] at h1 ⊢; rw [boostLoop_succ, h1]; exact h3
  have hlw := lift_width hls h.label_len
  have hll : ls.length = d.featureRows.length := by rw [← h.label_count, hls, lift_length]
  have sc := fun (s : TrainingData (Ext K) × List (TreeNode (Ext K) (GradBoostLeaf (Ext K)))) (ps : List (List K))
    (hs : RegState d c t ls cfg lr s ps) =>
    (C29_ensemble_exact _ d t ht0 ps ls (predict_of_state h hs) hls hs.finite.width hlw hll h.rows_ne).1
  refine ⟨_, _, _, _, regressionTrain_of_loop h hls h1, regressionTrain_of_loop h hls hl', sc s ps hs, sc s' ps' hs', ?_⟩
  have htp : (0 : K) < t := by exact_mod_cast ht0
  have hnp : (0 : K) < ls.length := by rw [hll]; exact_mod_cast List.length_pos_of_ne_nil h.rows_ne
  rw [mseOf_resid hlw hs.finite.width, mseOf_resid hlw hs'.finite.width, div_le_div_iff_of_pos_right hnp,
    div_le_div_iff_of_pos_right htp]
  exact hle h0 h2

/-- **C35**.  Hence more iterations never increase it. -/
theorem C35_more_iterations (d : DataSet (Ext K)) (c t : Nat) (h : d.WF c t) (ht0 : 0 < t) (ls : List (List K)) (hls : d.labels = lift ls)
    (cfg : TreeConfig) (hc : cfg.numberOfClasses = t) (n n' : Nat) (hn : n ≤ n') (lr : K) (h0 : 0 ≤ lr) (h2 : lr ≤ 2) :
    ∃ m m' e e', regressionTrain d cfg n (.fin lr) = .ok m ∧ regressionTrain d cfg n' (.fin lr) = .ok m' ∧
      regressionScore m d = .ok (.fin e) ∧ regressionScore m' d = .ok (.fin e') ∧ e' ≤ e := by
  induction n', hn using Nat.le_induction with
  | base =>
    obtain ⟨m, _, e, _, h3, _, h4, _, _⟩ := C35_training_error d c t h ht0 ls hls cfg hc n lr h0 h2
    exact ⟨m, m, e, e, h3, h3, h4, h4, le_rfl⟩
  | succ n' _ ih =>
    obtain ⟨m, m', e, e', a1, a2, a3, a4, a5⟩ := ih
    obtain ⟨m1, m2, e1, e2, b1, b2, b3, b4, b5⟩ := C35_training_error d c t h ht0 ls hls cfg hc n' lr h0 h2
    rw [a2] at b1
    have := Except.ok.inj b1
    subst this
    rw [a4] at b3
    have : e' = e1 := Ext.fin.inj (Except.ok.inj b3)
    exact ⟨m, m2, e, e2, a1, b2, a3, b4, by rw [this] at a5; exact b5.trans a5⟩

-- the error falls from 91/16
example : (do
    let m0 ← regressionTrain d4 { useMultiThreading := false, numberOfClasses := 1, maxLevels := 1 } 0 (.fin (1 / 2))
    let m1 ← regressionTrain d4 { useMultiThreading := false, numberOfClasses := 1, maxLevels := 1 } 1 (.fin (1 / 2))
    let m2 ← regressionTrain d4 { useMultiThreading := false, numberOfClasses := 1, maxLevels := 1 } 2 (.fin (1 / 2))
    pure (← regressionScore m0 d4, ← regressionScore m1 d4, ← regressionScore m2 d4)) =
    (.ok (.fin (91 / 16), .fin (243 / 64), .fin (851 / 256)) : R (E × E × E)) := by decide +kernel

/-! ## C36 -/

/-- **C36**.  For every learning rate and number of iterations, the average prediction over the training rows is the average label,
for each target. -/
theorem C36_unbiased (d : DataSet (Ext K)) (c t : Nat) (h : d.WF c t) (ls : List (List K)) (hls : d.labels = lift ls) (cfg : TreeConfig)
    (hc : cfg.numberOfClasses = t) (n : Nat) (lr : K) :
    ∃ m ps, regressionTrain d cfg n (.fin lr) = .ok m ∧ d.featureRows.mapM (regressionPredict m) = .ok (lift ps) ∧
      ∀ j < t, meanOf (target ps j) = meanOf (target ls j) := by
  obtain ⟨s, ps, h1, hs⟩ := regState_loop (lr := lr) h hls hc n
  refine ⟨_, ps, regressionTrain_of_loop h hls h1, predict_of_state h hs, ?_⟩
  intro j hj
  have hll : ps.length = ls.length := by rw [hs.finite.len, hls, lift_length]
  have hlw := lift_width hls h.label_len
  have h2 := hs.unbiased j hj
  have h3 : (target (resid ls ps) j).sum = (target ls j).sum - (target ps j).sum := by
    have h4 : target (resid ls ps) j = List.zipWith (· - ·) (target ls j) (target ps j) := by
      apply List.ext_getElem
      · simp [target, resid]
      intro i h5 h6
      simp only [target, resid, List.length_map, List.length_zipWith] at h5
      have b1 := hlw _ (List.getElem_mem (show i < ls.length by omega))
      have b2 := hs.finite.width _ (List.getElem_mem (show i < ps.length by omega))
      simp only [target, resid, List.getElem_map, List.getElem_zipWith]
      rw [zipWith_getD b1 b2 0 0, getD_range hj]
    rw [h4]
    have : ∀ (a b : List K), a.length = b.length → (List.zipWith (· - ·) a b).sum = a.sum - b.sum := by
      intro a
      induction a with
      | nil => intro b hb; rw [List.length_eq_zero_iff.mp hb.symm]; simp
      | cons x a ih =>
        intro b hb
        cases b with
        | nil => simp at hb
        | cons y b => simp only [List.zipWith_cons_cons, List.sum_cons, ih b (by simpa using hb)]; ring
    exact this _ _ (by rw [target_length, target_length, hll])
  rw [meanOf, meanOf, target_length, target_length, hll]
  congr 1
  linarith

-- learning rate outside [0, 2]; predictions differ from the labels, the column sums agree
example : (do
    let m ← regressionTrain d5 { useMultiThreading := false, numberOfClasses := 3, maxLevels := 1 } 1 (.fin 3)
    d5.featureRows.mapM (regressionPredict m)) =
    (.ok (lift [[6 / 5, -4 / 5, 3 / 5], [-4 / 5, 11 / 5, -2 / 5], [-4 / 5, 11 / 5, -2 / 5], [6 / 5, -4 / 5, 3 / 5],
      [6 / 5, -4 / 5, 3 / 5]]) : R (List (List E))) := by decide +kernel

end Verif
