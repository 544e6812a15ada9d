import Verif.Props.ExactBoost
/-!
# C111: training on what is left continues the training
-/

set_option linter.unusedSectionVars false

namespace Verif

variable {K : Type} [Field K] [LinearOrder K] [IsStrictOrderedRing K] [FloorSemiring K] [HasExp K]

/-- entrywise sum of two tables -/
def addTables (ps qs : List (List K)) : List (List K) := List.zipWith (List.zipWith (· + ·)) ps qs

theorem zipWith_assoc3 {α β γ : Type} (f : α → β → α) (g : γ → α → α) (hfg : ∀ c a b, f (g c a) b = g c (f a b)) :
    ∀ (cs : List γ) (as : List α) (bs : List β), List.zipWith f (List.zipWith g cs as) bs = List.zipWith g cs (List.zipWith f as bs)
  | [], _, _ => by simp
  | _ :: _, [], _ => by simp
  | _ :: _, _ :: _, [] => by simp
  | c :: cs, a :: as, b :: bs => by simp [hfg, zipWith_assoc3 f g hfg cs as bs]

theorem updated_addTables (lr : K) (o : List (Ext K) → List K) (ps qs : List (List K)) (rows : List (List (Ext K))) :
    updated lr o (addTables ps qs) rows = addTables ps (updated lr o qs rows) := by
  rw [updated, updated, addTables, addTables]
  exact zipWith_assoc3 (fun p row => List.zipWith (· + ·) p ((o row).map (fun x => lr * x))) (List.zipWith (· + ·))
    (fun p q row => zipWith_assoc3 _ _ (fun x y z => add_assoc x y z) p q _) ps qs rows

theorem zipWith_sub_add : ∀ (l p q : List K), List.zipWith (· - ·) l (List.zipWith (· + ·) p q) = List.zipWith (· - ·) (List.zipWith (· - ·) l p) q
  | [], _, _ => by simp
  | _ :: _, [], _ => by simp
  | _ :: _, _ :: _, [] => by simp
  | a :: l, b :: p, c :: q => by simp [sub_sub, zipWith_sub_add l p q]

theorem resid_addTables : ∀ (ls ps qs : List (List K)), resid ls (addTables ps qs) = resid (resid ls ps) qs
  | [], _, _ => by simp [resid]
  | _ :: _, [], _ => by simp [resid, addTables]
  | _ :: _, _ :: _, [] => by simp [resid, addTables]
  | a :: l, b :: p, c :: q => by
    have := resid_addTables l p q
    simp only [resid, addTables] at this ⊢
    simp only [List.zipWith_cons_cons, this, zipWith_sub_add]

section
variable {d : DataSet (Ext K)} {c t : Nat} {ls : List (List K)} {cfg : TreeConfig} {lr : K}

/-- the data set with the labels that are left -/
abbrev left (d : DataSet (Ext K)) (ls ps : List (List K)) : DataSet (Ext K) := { d with labels := lift (resid ls ps) }

theorem resid_mean_zero {ps : List (List K)} {s : TrainingData (Ext K) × List (TreeNode (Ext K) (GradBoostLeaf (Ext K)))}
    (hs : RegState d c t ls cfg lr s ps) : meanVec t (resid ls ps) = List.replicate t 0 := by
  apply List.ext_getElem (by simp [meanVec_length])
  intro j h1 h2
  have hj : j < t := by simpa using h2
  simp only [meanVec, List.getElem_map, List.getElem_range, List.getElem_replicate, meanOf, hs.unbiased j hj, zero_div]

theorem continue_loop (h : d.WF c t) (hls : d.labels = lift ls) (hc : cfg.numberOfClasses = t) (n k : Nat) :
    ∃ s ps r qs s', regLoopAt d cfg lr (liftV (meanVec t ls)) n = .ok s ∧ RegState d c t ls cfg lr s ps ∧
      regLoopAt (left d ls ps) cfg lr (liftV (meanVec t (resid ls ps))) k = .ok r ∧ RegState (left d ls ps) c t (resid ls ps) cfg lr r qs ∧
      regLoopAt d cfg lr (liftV (meanVec t ls)) (n + k) = .ok s' ∧ RegState d c t ls cfg lr s' (addTables ps qs) ∧ s'.2 = s.2 ++ r.2 := by
  obtain ⟨s, ps, h1, h2⟩ := regState_loop (lr := lr) h hls hc n
  have hwf := resid_wf h hls h2.finite.len h2.finite.width
  have hz := resid_mean_zero h2
  have hll : ps.length = ls.length := by rw [h2.finite.len, hls, lift_length]
  induction k with
  | zero =>
    refine ⟨s, ps, _, _, s, h1, h2, rfl, regState_start hwf rfl, h1, ?_, by simp⟩
    have : addTables ps (List.replicate (resid ls ps).length (meanVec t (resid ls ps))) = ps := by
      rw [hz, resid_length hll, ← hll, addTables]
      apply List.ext_getElem (by simp)
      intro i k1 k2
      rw [List.getElem_zipWith, List.getElem_replicate]
      have := h2.finite.width _ (List.getElem_mem k2)
      apply List.ext_getElem (by simp [this])
      intro j k3 k4
      simp
    rw [this]
    exact h2
  | succ k ih =>
    obtain ⟨s0, ps0, r, qs, s', e1, e2, h3, h4, h5, h6, h7⟩ := ih
    obtain rfl : s = s0 := Except.ok.inj (h1.symm.trans e1)
    obtain rfl : ps = ps0 := lift_injective (h2.finite.labels.symm.trans e2.finite.labels)
    have hg : (liftV (meanVec t ls) : List (Ext K)).length = t := by rw [liftV_length, meanVec_length]
    have hg' : (liftV (meanVec t (resid ls ps)) : List (Ext K)).length = t := by rw [liftV_length, meanVec_length]
    obtain ⟨r', rps, hr, hr2, _⟩ := regState_step hwf rfl hc h4
    obtain ⟨s'', sps, hs, hs2, _⟩ := regState_step h hls hc h6
    obtain ⟨hr3, hr4⟩ := regression_step_exact hwf rfl hc hg' h4.finite hr
    obtain ⟨hs3, hs4⟩ := regression_step_exact h hls hc hg h6.finite hs
    obtain rfl := lift_injective (hr2.finite.labels.symm.trans hr3.labels)
    obtain rfl := lift_injective (hs2.finite.labels.symm.trans hs3.labels)
    refine ⟨s, ps, r', _, s'', h1, h2, ?_, hr2, ?_, ?_, ?_⟩
    · rw [regLoopAt] at h3 ⊢
      rw [boostLoop_succ, h3]
      exact hr
    · rw [← Nat.add_assoc, regLoopAt]
      rw [regLoopAt] at h5
      rw [boostLoop_succ, h5]
      exact hs
    · rw [updated_addTables] at hs2
      rw [← resid_addTables]
      exact hs2
    · rw [hs4, hr4, h7, resid_addTables, List.append_assoc]

theorem state_outs {s : TrainingData (Ext K) × List (TreeNode (Ext K) (GradBoostLeaf (Ext K)))} {ps : List (List K)}
    (hs : RegState d c t ls cfg lr s ps) {row : List (Ext K)} (hrow : c ≤ row.length) :
    ∃ outs : List (List K), List.Forall₂ (fun tree o => gradOut row tree = .ok (liftV o) ∧ o.length = t) s.2 outs := by
  have := hs.trees
  generalize s.2 = ts at this
  induction ts with
  | nil => exact ⟨[], .nil⟩
  | cons tree ts ih =>
    obtain ⟨outs, h1⟩ := ih (fun x hx => this x (by simp [hx]))
    obtain ⟨rs, hw, rfl⟩ := this _ List.mem_cons_self
    exact ⟨_, .cons ⟨gradOut_regression_exact cfg.maxLevels hw rfl hrow, meanVec_length _ _⟩ h1⟩
end

/-- **C111**.  Train for `n` iterations, subtract the predictions for the training rows from the labels and train for `k` iterations on what is left.
The second ensemble starts from 0, its trees are the last `k` trees of an ensemble trained for `n + k` iterations, the first ones being those of the
first, and the predictions of both add up to its predictions. -/
theorem C111_continue (d : DataSet (Ext K)) (c t : Nat) (h : d.WF c t) (ls : List (List K)) (hls : d.labels = lift ls) (cfg : TreeConfig)
    (hc : cfg.numberOfClasses = t) (n k : Nat) (lr : K) :
    ∃ m ps r m', regressionTrain d cfg n (.fin lr) = .ok m ∧ d.featureRows.mapM (regressionPredict m) = .ok (lift ps) ∧
      regressionTrain { d with labels := lift (List.zipWith (List.zipWith (· - ·)) ls ps) } cfg k (.fin lr) = .ok r ∧
      regressionTrain d cfg (n + k) (.fin lr) = .ok m' ∧
      m'.initialGuess = m.initialGuess ∧ r.initialGuess = List.replicate t (.fin 0) ∧ m'.trees = m.trees ++ r.trees ∧
      ∀ row : List (Ext K), c ≤ row.length → ∃ v w : List K, v.length = t ∧ w.length = t ∧ regressionPredict m row = .ok (liftV v) ∧
        regressionPredict r row = .ok (liftV w) ∧ regressionPredict m' row = .ok (liftV (List.zipWith (· + ·) v w)) := by
  obtain ⟨s, ps, r, qs, s', h1, h2, h3, h4, h5, h6, h7⟩ := continue_loop (lr := lr) h hls hc n k
  have hwf := resid_wf h hls h2.finite.len h2.finite.width
  refine ⟨_, ps, _, _, regressionTrain_of_loop h hls h1, predict_of_state h h2, regressionTrain_of_loop hwf rfl h3,
    regressionTrain_of_loop h hls h5, rfl, ?_, h7, ?_⟩
  · simp only [resid_mean_zero h2, liftV, List.map_replicate]
  intro row hrow
  obtain ⟨o1, k1⟩ := state_outs h2 hrow
  obtain ⟨o2, k2⟩ := state_outs h4 hrow
  have k3 := List.rel_append k1 k2
  refine ⟨_, _, ?_, ?_, by rw [regressionPredict, predictInstance_eq]; exact rawScore_exact (meanVec_length _ _) k1,
    by rw [regressionPredict, predictInstance_eq]; exact rawScore_exact (meanVec_length _ _) k2, ?_⟩
  · simp
  · simp
  rw [regressionPredict, predictInstance_eq]
  simp only [h7]
  rw [rawScore_exact (meanVec_length _ _) k3, resid_mean_zero h2]
  congr 2
  apply List.ext_getElem (by simp)
  intro j j1 j2
  have hj : j < t := by simpa using j1
  have hz : (List.replicate t (0 : K)).getD j 0 = 0 := by simp [List.getD_eq_getElem?_getD, hj]
  simp only [List.getElem_map, List.getElem_range, List.getElem_zipWith, List.map_append, List.sum_append, hz]
  ring

namespace Sample

/-- what one tree leaves of the labels of d4 -/
def d4Left : DataSet E := { d4 with labels := [[.fin (-11 / 8)], [.fin (-53 / 24)], [.fin (19 / 24)], [.fin (67 / 24)]] }

-- one tree predicts 11/8 and 77/24, one more tree for what is left -11/16 and 11/48, and two trees 11/16 and 55/16
example : (regressionTrain d4 (exCfg 1) 1 (.fin (1 / 2))).toOption.map (fun m => (d4.featureRows.mapM (regressionPredict m)).toOption) =
    some (some [[.fin (11 / 8)], [.fin (77 / 24)], [.fin (77 / 24)], [.fin (77 / 24)]]) := by decide +kernel
example : (regressionTrain d4Left (exCfg 1) 1 (.fin (1 / 2))).toOption.map (fun m => (d4.featureRows.mapM (regressionPredict m)).toOption) =
    some (some [[.fin (-11 / 16)], [.fin (11 / 48)], [.fin (11 / 48)], [.fin (11 / 48)]]) := by decide +kernel
example : (regressionTrain d4 (exCfg 1) 2 (.fin (1 / 2))).toOption.map (fun m => (d4.featureRows.mapM (regressionPredict m)).toOption) =
    some (some [[.fin (11 / 16)], [.fin (55 / 16)], [.fin (55 / 16)], [.fin (55 / 16)]]) := by decide +kernel
example := C111_continue d4 2 1 d4_wf [[0], [1], [4], [6]] (by decide +kernel) (exCfg 1) rfl 2 3 (1 / 2)

end Sample

end Verif
