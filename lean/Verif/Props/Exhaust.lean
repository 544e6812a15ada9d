import Verif.Props.Gini
/-!
# C99: regression boosting exhausts what single questions explain
-/

set_option linter.unusedSectionVars false

namespace Verif

variable {K : Type} [Field K] [LinearOrder K] [IsStrictOrderedRing K] [FloorSemiring K] [HasExp K] {L : Type}

open Sample

/-- squared deviations from the means of two groups -/
theorem two_groups {α : Type} (t : Nat) (p : α → Bool) (l : List (α × List K)) :
    (l.map (fun e => ((List.range t).map (fun j =>
      ((meanVec t ((l.filter (fun b => decide (p b.1 = p e.1))).map Prod.snd)).getD j 0 - e.2.getD j 0) ^ 2)).sum)).sum =
    ((l.filter (fun e => !p e.1)).map Prod.snd).length * totalVar t ((l.filter (fun e => !p e.1)).map Prod.snd) +
      ((l.filter (fun e => p e.1)).map Prod.snd).length * totalVar t ((l.filter (fun e => p e.1)).map Prod.snd) := by
  have own : ∀ s : List (α × List K), (s.map (fun e => ((List.range t).map (fun j =>
      ((meanVec t (s.map Prod.snd)).getD j 0 - e.2.getD j 0) ^ 2)).sum)).sum = (s.map Prod.snd).length * totalVar t (s.map Prod.snd) := by
    intro s
    rw [sum_range_swap, totalVar, ← List.sum_map_mul_left]
    congr 1
    apply List.map_congr_left
    intro j hj
    rw [List.mem_range] at hj
    have h2 := length_mul_varOf (target (s.map Prod.snd) j)
    rw [target_length] at h2
    rw [h2, meanVec, getD_range hj, sqDev, target, List.map_map, List.map_map]
    congr 1
    apply List.map_congr_left
    intro e _
    simp only [Function.comp]
    ring
  have split : ∀ (f : α × List K → K) (s : List (α × List K)), (s.map f).sum =
      ((s.filter (fun e => !p e.1)).map f).sum + ((s.filter (fun e => p e.1)).map f).sum := by
    intro f s
    induction s with
    | nil => simp
    | cons e s ih =>
      cases h : p e.1 <;> simp [h, ih] <;> ring
  rw [split, ← own, ← own]
  congr 2
  · apply List.map_congr_left
    intro e he
    have h1 : p e.1 = false := by simpa using (List.mem_filter.mp he).2
    have h2 : (fun b : α × List K => decide (p b.1 = p e.1)) = (fun b => !p b.1) := by
      funext b
      rw [h1]
      cases p b.1 <;> rfl
    rw [h2]
  · apply List.map_congr_left
    intro e he
    have h1 : p e.1 = true := by simpa using (List.mem_filter.mp he).2
    have h2 : (fun b : α × List K => decide (p b.1 = p e.1)) = (fun b => p b.1) := by
      funext b
      rw [h1]
      cases p b.1 <;> rfl
    rw [h2]

/-- the outputs of a tree are what the residuals lose when they are replaced by the deviations from the leaf means -/
theorem sse_outs {rows : List (List (Ext K))} {t : Nat} {rs : List (List K)} (tree : TreeNode (Ext K) L) (hlen : rows.length = rs.length) :
    sse t (rows.map (fun row => meanVec t (mates tree (rows.zip rs) row))) = sse t rs -
      ((rows.zip rs).map (fun e => ((List.range t).map (fun j =>
        ((meanVec t (((rows.zip rs).filter (fun b => decide (tree.route b.1 = tree.route e.1))).map Prod.snd)).getD j 0 - e.2.getD j 0) ^ 2)).sum)).sum := by
  have h1 := sse_step_eq (lr := (1 : K)) (t := t) tree hlen
  have h2 : sse t ((rows.zip rs).map (fun e => (List.range t).map (fun j =>
      e.2.getD j 0 - 1 * (meanVec t (mates tree (rows.zip rs) e.1)).getD j 0))) =
      ((rows.zip rs).map (fun e => ((List.range t).map (fun j =>
        ((meanVec t (((rows.zip rs).filter (fun b => decide (tree.route b.1 = tree.route e.1))).map Prod.snd)).getD j 0 - e.2.getD j 0) ^ 2)).sum)).sum := by
    rw [sse, List.map_map]
    congr 1
    apply List.map_congr_left
    intro e _
    simp only [Function.comp]
    congr 1
    apply List.map_congr_left
    intro j hj
    rw [getD_range (List.mem_range.mp hj), mates]
    ring
  rw [← h2, h1]
  ring

theorem sse_totalVar (t : Nat) (rs : List (List K)) : rs.length * totalVar t rs ≤ sse t rs := by
  rw [sse, sum_range_swap, totalVar, ← List.sum_map_mul_left]
  apply List.sum_le_sum
  intro j _
  have h1 := length_mul_varOf (target rs j)
  rw [target_length] at h1
  have h2 := sqDev_shift 0 (target rs j)
  have h3 := colSq_eq rs j
  rw [colSq] at h3
  rw [h1, ← h3, h2]
  have : (0 : K) ≤ (target rs j).length * (0 - meanOf (target rs j)) ^ 2 := by positivity
  linarith

section
variable {d : DataSet (Ext K)} {c t : Nat} {ls : List (List K)} {cfg : TreeConfig} {lr : K}

/-- a tree fitted to residuals explains at least as much of them as any question -/
theorem outs_reduction {rs : List (List K)} (hw : ({ d with labels := lift rs } : DataSet (Ext K)).WF c t)
    (hties : ∀ j < c, TiesOnlyAtMinimum (column d.featureRows j)) (hm : 1 ≤ cfg.maxLevels) (q : Question (Ext K)) (hq : q.column < c) :
    rs.length * varianceReduction t d.featureRows rs q ≤ sse t (d.featureRows.map (residOut c t cfg.maxLevels d rs)) := by
  have hlen : d.featureRows.length = rs.length := by
    have := hw.label_count
    simp only [lift_length] at this
    exact this.symm
  have hnp : (0 : K) < rs.length := by
    rw [← hlen]
    exact_mod_cast List.length_pos_of_ne_nil hw.rows_ne
  obtain ⟨k, hk⟩ : ∃ k, cfg.maxLevels = k + 1 := ⟨cfg.maxLevels - 1, by omega⟩
  obtain ⟨s, g, h1, h2, h3, _, h5⟩ := C11_gain_bounds_reductions _ c t hw rs rfl
  cases hg : (s.gain ==. F64.zero) with
  | true =>
    have hg0 : g = 0 := by
      rw [h2] at hg
      simpa using hg
    have h6 := h5 q hq
    rw [hg0] at h6
    have h7 := mul_le_mul_of_nonneg_left h6 hnp.le
    rw [mul_zero] at h7
    exact h7.trans (sse_nonneg _ _)
  | false =>
    obtain ⟨h6, h7⟩ := C12_optimal_without_ties _ c t hw rs rfl hties s h1 hg
    have h8 := h7 q hq
    refine (mul_le_mul_of_nonneg_left h8 hnp.le).trans ?_
    rw [findBestSplit_ok hw] at h1
    cases h1
    have hmates : d.featureRows.map (residOut c t cfg.maxLevels d rs) =
        d.featureRows.map (fun row => meanVec t (mates (residTree c t cfg.maxLevels d rs) (d.featureRows.zip rs) row)) := rfl
    rw [hmates, sse_outs _ hlen]
    set q0 := (splitOf { d with labels := lift rs } t).question with hq0
    have hroute : ∀ a b : List (Ext K), (residTree c t cfg.maxLevels d rs).route a = (residTree c t cfg.maxLevels d rs).route b →
        satisfies q0 a = satisfies q0 b := by
      intro a b hab
      rw [residTree, hk, treeOf_node hg, TreeNode.route_new, TreeNode.route_new] at hab
      cases ha : satisfies q0 a <;> cases hb : satisfies q0 b <;> rw [hq0] at ha hb <;> rw [ha, hb] at hab <;> simp at hab ⊢
    have h9 := finer_le (t := t) (fun row => satisfies q0 row) (fun row => (residTree c t cfg.maxLevels d rs).route row) hroute
      (d.featureRows.zip rs)
    rw [two_groups t (fun row => satisfies q0 row)] at h9
    have h10 := sse_totalVar t rs
    have hcount : ((noLabels d.featureRows rs q0).length : K) + (yesLabels d.featureRows rs q0).length = rs.length := by
      have : ∀ l : List (List (Ext K) × List K), (l.filter (fun e => !satisfies q0 e.1)).length + (l.filter (fun e => satisfies q0 e.1)).length = l.length := by
        intro l
        induction l with
        | nil => rfl
        | cons e l ih => cases h : satisfies q0 e.1 <;> simp [h] at ih ⊢ <;> omega
      rw [noLabels, yesLabels, List.length_map, List.length_map, ← Nat.cast_add, this, List.length_zip, hlen, Nat.min_self]
    have h11 : (rs.length : K) * varianceReduction t d.featureRows rs q0 = rs.length * totalVar t rs -
        ((noLabels d.featureRows rs q0).length * totalVar t (noLabels d.featureRows rs q0) +
          (yesLabels d.featureRows rs q0).length * totalVar t (yesLabels d.featureRows rs q0)) := by
      rw [varianceReduction, hcount]
      field_simp
    rw [h11]
    rw [noLabels, yesLabels] at *
    linarith

theorem start_sse (h : d.WF c t) (hls : d.labels = lift ls) :
    sse t (resid ls (List.replicate ls.length (meanVec t ls))) ≤ ls.length * totalVar t ls := by
  obtain ⟨outs, ho, hb⟩ := spent_start (lr := (0 : K)) h hls ([] : List (Ext K))
  rw [sse, sum_range_swap, totalVar, ← List.sum_map_mul_left]
  apply List.sum_le_sum
  intro j hj
  have h1 := length_mul_varOf (target ls j)
  rw [target_length] at h1
  have := hb j (List.mem_range.mp hj)
  rw [h1, ← colSq_eq]
  simpa using this

/-- if every iteration explains at least `B`, what is left after `k` iterations -/
theorem exhaust_loop (h : d.WF c t) (hls : d.labels = lift ls) (hc : cfg.numberOfClasses = t) (k : Nat) :
    ∃ s ps, regLoopAt d cfg lr (liftV (meanVec t ls)) k = .ok s ∧ RegState d c t ls cfg lr s ps ∧
      ∀ B : K, (∀ i < k, ∀ s' ps', regLoopAt d cfg lr (liftV (meanVec t ls)) i = .ok s' → RegState d c t ls cfg lr s' ps' →
        B ≤ lr * (2 - lr) * sse t (d.featureRows.map (residOut c t cfg.maxLevels d (resid ls ps')))) →
        sse t (resid ls ps) + k * B ≤ ls.length * totalVar t ls := by
  induction k with
  | zero =>
    refine ⟨_, _, rfl, regState_start h hls, ?_⟩
    intro B _
    have := start_sse h hls
    simpa using this
  | succ k ih =>
    obtain ⟨s, ps, h1, hs, hB⟩ := ih
    obtain ⟨s', h3, hs', _, hsse⟩ := progress_step h hls hc hs
    refine ⟨s', _, by rw [regLoopAt] at h1 ⊢; rw [boostLoop_succ, h1]; exact h3, hs', ?_⟩
    intro B hall
    have h4 := hB B (fun i hi => hall i (by omega))
    have h5 := hall k (by omega) s ps h1 hs
    rw [hsse]
    push_cast
    linarith

end

/-- **C99**.  Let no value of a feature other than its smallest occur twice, and let the trees ask at least one question.  For every number `k` of
iterations there is one of the models after fewer than `k` iterations whose residuals are nearly unexplainable: no question reduces
their variance by more than the variance of the labels divided by `k * lr * (2 - lr)`. -/
theorem C99_exhausted (d : DataSet (Ext K)) (c t : Nat) (h : d.WF c t) (ls : List (List K)) (hls : d.labels = lift ls)
    (hties : ∀ j < c, TiesOnlyAtMinimum (column d.featureRows j)) (cfg : TreeConfig) (hc : cfg.numberOfClasses = t) (hm : 1 ≤ cfg.maxLevels)
    (lr : K) (h0 : 0 < lr) (h2 : lr < 2) (k : Nat) (hk : 0 < k) :
    ∃ i < k, ∃ m ps, regressionTrain d cfg i (.fin lr) = .ok m ∧ d.featureRows.mapM (regressionPredict m) = .ok (lift ps) ∧
      ∀ q : Question (Ext K), q.column < c →
        k * (lr * (2 - lr)) * varianceReduction t d.featureRows (List.zipWith (List.zipWith (· - ·)) ls ps) q ≤ totalVar t ls := by
  have hll : ls.length = d.featureRows.length := by rw [← h.label_count, hls, lift_length]
  have hnp : (0 : K) < ls.length := by
    rw [hll]
    exact_mod_cast List.length_pos_of_ne_nil h.rows_ne
  have hkp : (0 : K) < k := by exact_mod_cast hk
  have hlp : 0 < lr * (2 - lr) := mul_pos h0 (sub_pos.mpr h2)
  by_contra hcon
  push Not at hcon
  -- every model leaves a question that explains more
  have hall : ∀ i < k, ∀ s' ps', regLoopAt d cfg lr (liftV (meanVec t ls)) i = .ok s' → RegState d c t ls cfg lr s' ps' →
      ls.length * totalVar t ls / k < lr * (2 - lr) * sse t (d.featureRows.map (residOut c t cfg.maxLevels d (resid ls ps'))) := by
    intro i hi s' ps' e1 e2
    obtain ⟨q, hq, hlt⟩ := hcon i hi _ ps' (regressionTrain_of_loop h hls e1) (predict_of_state h e2)
    have hw := resid_wf h hls e2.finite.len e2.finite.width
    have h3 := outs_reduction (cfg := cfg) hw hties hm q hq
    have hps : ps'.length = ls.length := by rw [e2.finite.len, hls, lift_length]
    rw [resid_length hps] at h3
    rw [div_lt_iff₀ hkp]
    have h4 := mul_lt_mul_of_pos_left hlt hnp
    have h5 := mul_le_mul_of_nonneg_left h3 (mul_pos hkp hlp).le
    rw [resid] at h5
    rw [resid]
    linarith
  obtain ⟨k', rfl⟩ : ∃ k', k = k' + 1 := ⟨k - 1, by omega⟩
  obtain ⟨s, ps, h1, hs, hB⟩ := exhaust_loop (lr := lr) (cfg := cfg) h hls hc k'
  obtain ⟨s', h3, hs', _, hsse⟩ := progress_step h hls hc hs
  have h4 := hB (ls.length * totalVar t ls / (k' + 1 : Nat)) (fun i hi s' ps' e1 e2 => (hall i (by omega) s' ps' e1 e2).le)
  have h5 := hall k' (by omega) s ps h1 hs
  have h6 := sse_nonneg t (resid ls (updated lr (residOut c t cfg.maxLevels d (resid ls ps)) ps d.featureRows))
  rw [hsse] at h6
  have h7 : ((k' + 1 : Nat) : K) * (ls.length * totalVar t ls / (k' + 1 : Nat)) = ls.length * totalVar t ls := by field_simp
  push_cast at h4 h5 h7
  linarith

/-! ## a case that meets the hypotheses -/

example : distinct4.WF 2 1 ∧ distinct4.labels = lift [[0], [1], [4], [6]] ∧ (∀ j < 2, TiesOnlyAtMinimum (column distinct4.featureRows j)) :=
  ⟨distinct4_wf, by decide +kernel⟩

-- the predictions after two iterations with one question each
example : (do
    let m ← regressionTrain distinct4 { useMultiThreading := false, numberOfClasses := 1, maxLevels := 1 } 2 (.fin 1)
    distinct4.featureRows.mapM (regressionPredict m)) = .ok [[(.fin (5 / 6) : E)], [.fin (5 / 6)], [.fin 4], [.fin (16 / 3)]] := by
  decide +kernel

/-- three examples with a misleading feature and a useful one -/
def Sample.stuck3 : DataSet E :=
  { featureRows := [[0, 0], [1, 0], [1, 1]]
    labels := [[1], [0], [2]]
    featureColumns := [[0, 1, 1], [0, 0, 1]] }

/-- **C99** needs the condition on repeated values: here the question about the first feature is chosen again and again although it explains
nothing, and the question about the second feature, which would explain three quarters of the variance, is never asked. -/
theorem C99_violated_by_ties : stuck3.WF 2 1 ∧ stuck3.labels = lift [[1], [0], [2]] ∧
    (∀ i < 2, (do
      let m ← regressionTrain stuck3 { useMultiThreading := false, numberOfClasses := 1, maxLevels := 1 } i (.fin 1)
      stuck3.featureRows.mapM (regressionPredict m)) = .ok [[(.fin 1 : E)], [.fin 1], [.fin 1]]) ∧
    varianceReduction 1 stuck3.featureRows [[1 - 1], [0 - 1], [2 - 1]] { column := 1, value := 1 } = 1 / 2 ∧
    totalVar 1 [[1], [0], [(2 : ℚ)]] = 2 / 3 ∧ (2 / 3 : ℚ) < 2 * (1 * (2 - 1)) * (1 / 2) :=
  ⟨by constructor <;> decide +kernel, by decide +kernel⟩

end Verif
