import Verif.Props.Relabel
/-!
# C68: how much an iteration of regression boosting improves the training error

In exact arithmetic the training error falls by `lr (2 - lr)` times the mean square of the outputs of the new tree.  So an iteration
that does not improve it has a tree with output zero everywhere, and then the ensemble never changes again.
-/

set_option linter.unusedSectionVars false

namespace Verif

variable {K : Type} [Field K] [LinearOrder K] [IsStrictOrderedRing K] [FloorSemiring K] [HasExp K] {L : Type}

open Sample

theorem sse_step_eq {rows : List (List (Ext K))} {t : Nat} {rs : List (List K)} {lr : K}
    (tree : TreeNode (Ext K) L) (hlen : rows.length = rs.length) :
    sse t ((rows.zip rs).map (fun e => (List.range t).map (fun j =>
      e.2.getD j 0 - lr * (meanVec t (mates tree (rows.zip rs) e.1)).getD j 0))) =
      sse t rs - lr * (2 - lr) * sse t (rows.map (fun row => meanVec t (mates tree (rows.zip rs) row))) := by
  have hr : sse t rs = ((rows.zip rs).map (fun e => ((List.range t).map (fun j => (e.2.getD j 0) ^ 2)).sum)).sum := by
    rw [sse]
    conv_lhs => rw [← List.map_snd_zip (l₁ := rows) (l₂ := rs) (by omega)]
    rw [List.map_map]; rfl
  have ho : sse t (rows.map (fun row => meanVec t (mates tree (rows.zip rs) row))) =
      ((rows.zip rs).map (fun e => ((List.range t).map (fun j => ((meanVec t (mates tree (rows.zip rs) e.1)).getD j 0) ^ 2)).sum)).sum := by
    rw [sse, List.map_map]
    conv_lhs => arg 1; arg 2; rw [← List.map_fst_zip (l₁ := rows) (l₂ := rs) (by omega)]
    rw [List.map_map]; rfl
  rw [hr, ho, eq_sub_iff_add_eq, sse, List.map_map]
  simp only [Function.comp_def]
  rw [sum_range_swap, sum_range_swap, sum_range_swap, ← List.sum_map_mul_left, ← List.sum_map_add]
  congr 1
  apply List.map_congr_left
  intro j hj
  rw [List.mem_range] at hj
  simp only [getD_range hj, meanVec, mates]
  rw [← List.sum_map_mul_left, ← List.sum_map_add]
  refine group_eq (fun e : List (Ext K) × List K => tree.route e.1)
    (fun e s => (e.2.getD j 0 - lr * meanOf (target (s.map Prod.snd) j)) ^ 2 + lr * (2 - lr) * (meanOf (target (s.map Prod.snd) j)) ^ 2)
    (fun e _ => (e.2.getD j 0) ^ 2) _ ?_
  intro s hs _ _
  set xs := target (s.map Prod.snd) j with hxs
  have hsum : ∀ f : K → K, (s.map (fun e => f (e.2.getD j 0))).sum = (xs.map f).sum := by
    intro f
    rw [hxs, target, List.map_map, List.map_map]; rfl
  have hl : (s.length : K) = xs.length := by rw [hxs, target_length, List.length_map]
  have hn : (0 : K) < xs.length := by
    rw [← hl]; exact_mod_cast List.length_pos_of_ne_nil hs
  rw [List.sum_map_add]
  have e1 := hsum (fun x => (x - lr * meanOf xs) ^ 2)
  have e2 := hsum (fun x => x ^ 2)
  rw [e1, e2, List.map_const', List.sum_replicate, nsmul_eq_mul, hl]
  have := sqDev_eq (lr * meanOf xs) xs
  rw [sqDev] at this
  rw [this, meanOf]
  field_simp
  ring

theorem sse_nonneg (t : Nat) (rs : List (List K)) : 0 ≤ sse t rs := by
  apply List.sum_nonneg
  intro x hx
  obtain ⟨r, _, rfl⟩ := List.mem_map.mp hx
  apply List.sum_nonneg
  intro y hy
  obtain ⟨j, _, rfl⟩ := List.mem_map.mp hy
  positivity

theorem sse_eq_zero {t : Nat} {rs : List (List K)} (hw : ∀ r ∈ rs, r.length = t) (h : sse t rs = 0) : ∀ r ∈ rs, r = List.replicate t 0 := by
  have key : ∀ l : List K, (∀ x ∈ l, 0 ≤ x) → l.sum = 0 → ∀ x ∈ l, x = 0 := by
    intro l
    induction l with
    | nil => simp
    | cons a l ih =>
      intro hp hs x hx
      have h1 := hp a (by simp)
      have h2 : 0 ≤ l.sum := List.sum_nonneg (fun y hy => hp y (by simp [hy]))
      rw [List.sum_cons] at hs
      rcases List.mem_cons.mp hx with rfl | hx
      · linarith
      · exact ih (fun y hy => hp y (by simp [hy])) (by linarith) x hx
  intro r hr
  have h1 := key _ (by
    intro x hx
    obtain ⟨r, _, rfl⟩ := List.mem_map.mp hx
    apply List.sum_nonneg
    intro y hy
    obtain ⟨j, _, rfl⟩ := List.mem_map.mp hy
    positivity) h _ (List.mem_map_of_mem hr)
  rw [List.eq_replicate_iff]
  refine ⟨hw r hr, ?_⟩
  intro x hx
  obtain ⟨j, hj, rfl⟩ := List.getElem_of_mem hx
  have h2 := key _ (by
    intro y hy
    obtain ⟨j, _, rfl⟩ := List.mem_map.mp hy
    positivity) h1 ((r.getD j 0) ^ 2) (List.mem_map.mpr ⟨j, by rw [List.mem_range, ← hw r hr]; exact hj, rfl⟩)
  rw [List.getD_eq_getElem?_getD, List.getElem?_eq_getElem hj, Option.getD_some] at h2
  exact pow_eq_zero_iff (two_ne_zero) |>.mp h2

section
variable {d : DataSet (Ext K)} {c t : Nat} {ls : List (List K)} {cfg : TreeConfig} {lr : K}

/-- one step, with the new tree and the new error -/
theorem progress_step (h : d.WF c t) (hls : d.labels = lift ls) (hc : cfg.numberOfClasses = t)
    {s : TrainingData (Ext K) × List (TreeNode (Ext K) (GradBoostLeaf (Ext K)))} {ps : List (List K)}
    (hs : RegState d c t ls cfg lr s ps) :
    ∃ s', boostStep regressionResiduals (fun d => gradBoostTreeNew d cfg .regression)
        (fun t tree => updateDatasetLabels t tree (.fin lr)) s = .ok s' ∧
      RegState d c t ls cfg lr s' (updated lr (residOut c t cfg.maxLevels d (resid ls ps)) ps d.featureRows) ∧
      s'.2 = s.2 ++ [residTree c t cfg.maxLevels d (resid ls ps)] ∧
      sse t (resid ls (updated lr (residOut c t cfg.maxLevels d (resid ls ps)) ps d.featureRows)) =
        sse t (resid ls ps) - lr * (2 - lr) * sse t (d.featureRows.map (residOut c t cfg.maxLevels d (resid ls ps))) := by
  have hg : (liftV (meanVec t ls) : List (Ext K)).length = t := by rw [liftV_length, meanVec_length]
  obtain ⟨s', hb⟩ := regression_step h hc hg s hs.finite.tracks
  obtain ⟨h1, h2⟩ := regression_step_exact h hls hc hg hs.finite hb
  have hll : ps.length = ls.length := by rw [hs.finite.len, hls, lift_length]
  have hlr : ps.length = d.featureRows.length := by rw [hs.finite.len, h.label_count]
  have hlw := lift_width hls h.label_len
  have hlen : d.featureRows.length = (resid ls ps).length := by rw [resid_length hll]; omega
  have hres := resid_updated (rows := d.featureRows) (lr := lr) (o := residOut c t cfg.maxLevels d (resid ls ps)) hlw
    hs.finite.width (fun row _ => meanVec_length _ _) hll hlr
  refine ⟨s', hb, ⟨h1, ?_, ?_⟩, h2, ?_⟩
  · intro j hj
    rw [hres, sum_step hj _ hlen, hs.unbiased j hj, mul_zero]
  · intro tree htree
    rw [h2] at htree
    rcases List.mem_append.mp htree with htree | htree
    · exact hs.trees tree htree
    · rw [List.mem_singleton] at htree
      exact ⟨_, resid_wf h hls hs.finite.len hs.finite.width, htree⟩
  · rw [hres]
    exact sse_step_eq _ hlen

theorem score_of_state (h : d.WF c t) (ht0 : 0 < t) (hls : d.labels = lift ls)
    {s : TrainingData (Ext K) × List (TreeNode (Ext K) (GradBoostLeaf (Ext K)))} {ps : List (List K)} (hs : RegState d c t ls cfg lr s ps) :
    regressionScore { trees := s.2, initialGuess := liftV (meanVec t ls), learningRate := .fin lr } d =
      .ok (.fin (sse t (resid ls ps) / t / ls.length)) := by
  have hlw := lift_width hls h.label_len
  have hll : ls.length = d.featureRows.length := by rw [← h.label_count, hls, lift_length]
  have := (C29_ensemble_exact _ d t ht0 ps ls (predict_of_state h hs) hls hs.finite.width hlw hll h.rows_ne).1
  rwa [mseOf_resid hlw hs.finite.width] at this

end

/-- **C68** (decrease).  One more iteration lowers the training error by exactly `lr (2 - lr)` times the mean square of the entries of the
outputs of the new tree at the training rows. -/
theorem C68_decrease (d : DataSet (Ext K)) (c t : Nat) (h : d.WF c t) (ht0 : 0 < t) (ls : List (List K)) (hls : d.labels = lift ls)
    (cfg : TreeConfig) (hc : cfg.numberOfClasses = t) (n : Nat) (lr : K) :
    ∃ m m' new e e' outs, regressionTrain d cfg n (.fin lr) = .ok m ∧ regressionTrain d cfg (n + 1) (.fin lr) = .ok m' ∧
      m'.trees = m.trees ++ [new] ∧
      List.Forall₂ (fun row (o : List K) => o.length = t ∧ ∃ leaf : GradBoostLeaf (Ext K),
        findLeafNodeForData row new = .ok leaf ∧ leaf.leafOutput = some (liftV o)) d.featureRows outs ∧
      regressionScore m d = .ok (.fin e) ∧ regressionScore m' d = .ok (.fin e') ∧
      e' = e - lr * (2 - lr) * ((outs.flatten.map (fun x => x ^ 2)).sum / (d.featureRows.length * t)) := by
  obtain ⟨s, ps, h1, hs⟩ := regState_loop (lr := lr) h hls hc n
  obtain ⟨s', h3, hs', htr, hsse⟩ := progress_step h hls hc hs
  have hl' : regLoopAt d cfg lr (liftV (meanVec t ls)) (n + 1) = .ok s' := by rw [regLoopAt] at h1 ⊢; rw [boostLoop_succ, h1]; exact h3
  have hll : ls.length = d.featureRows.length := by rw [← h.label_count, hls, lift_length]
  refine ⟨_, _, _, _, _, d.featureRows.map (residOut c t cfg.maxLevels d (resid ls ps)), regressionTrain_of_loop h hls h1,
    regressionTrain_of_loop h hls hl', htr, ?_, score_of_state h ht0 hls hs, score_of_state h ht0 hls hs', ?_⟩
  · rw [List.forall₂_map_right_iff]
    rw [List.forall₂_same]
    intro row hrow
    refine ⟨meanVec_length t _, ?_⟩
    have hgo := gradOut_regression_exact cfg.maxLevels (resid_wf h hls hs.finite.len hs.finite.width) (ls := resid ls ps) rfl
      (h.row_len row hrow).ge
    simp only [gradOut, R.bind_eq_ok] at hgo
    obtain ⟨leaf, hl1, hl2⟩ := hgo
    refine ⟨leaf, hl1, ?_⟩
    revert hl2
    cases leaf.leafOutput with
    | none => intro hl2; cases hl2
    | some v => intro hl2; rw [Except.ok.inj hl2]
  · have hflat : ∀ rs : List (List K), (∀ r ∈ rs, r.length = t) → (rs.flatten.map (fun x => x ^ 2)).sum = sse t rs := by
      intro rs hw
      induction rs with
      | nil => simp [sse]
      | cons r rs ih =>
        rw [List.flatten_cons, List.map_append, List.sum_append, ih (fun x hx => hw x (by simp [hx])), sse, sse, List.map_cons, List.sum_cons]
        congr 2
        conv_lhs => rw [eq_range_getD (hw r (by simp)) 0, List.map_map]
        rfl
    rw [hflat _ (by
      intro r hr
      obtain ⟨row, _, rfl⟩ := List.mem_map.mp hr
      exact meanVec_length t _), hsse, hll]
    have htp : (t : K) ≠ 0 := by exact_mod_cast ht0.ne'
    have hnp : (d.featureRows.length : K) ≠ 0 := by exact_mod_cast (List.length_pos_of_ne_nil h.rows_ne).ne'
    field_simp

section
variable {d : DataSet (Ext K)} {c t : Nat} {ls : List (List K)} {cfg : TreeConfig} {lr : K}

/-- all outputs zero at the training rows: zero for every row -/
theorem out_zero {rs : List (List K)} (hw : ({ d with labels := lift rs } : DataSet (Ext K)).WF c t)
    (hz : ∀ row ∈ d.featureRows, residOut c t cfg.maxLevels d rs row = List.replicate t 0) {row : List (Ext K)} (hrow : c ≤ row.length) :
    residOut c t cfg.maxLevels d rs row = List.replicate t 0 := by
  have hne := mates_ne hw (ls := rs) rfl cfg.maxLevels (gradLeaf .regression t) hrow
  obtain ⟨l, hl⟩ := List.exists_mem_of_ne_nil _ hne
  obtain ⟨e, he, rfl⟩ := List.mem_map.mp hl
  obtain ⟨h1, h2⟩ := List.mem_filter.mp he
  have h2 := of_decide_eq_true h2
  rw [← hz e.1 (List.of_mem_zip h1).1, residOut, residOut, mates, mates, residTree, h2]

theorem updated_zero {o : List (Ext K) → List K} {ps : List (List K)} {rows : List (List (Ext K))} (hl : ps.length = rows.length)
    (hw : ∀ p ∈ ps, p.length = t) (hz : ∀ row ∈ rows, o row = List.replicate t 0) : updated lr o ps rows = ps := by
  apply List.ext_getElem
  · simp [updated, hl]
  intro i h1 h2
  simp only [updated, List.getElem_zipWith, hz _ (List.getElem_mem _)]
  apply List.ext_getElem
  · simp [hw _ (List.getElem_mem h2)]
  intro j h3 h4
  simp

/-- once the outputs are zero they stay zero -/
theorem stagnant (h : d.WF c t) (hls : d.labels = lift ls) (hc : cfg.numberOfClasses = t) {n : Nat}
    {s : TrainingData (Ext K) × List (TreeNode (Ext K) (GradBoostLeaf (Ext K)))} {ps : List (List K)}
    (h1 : regLoopAt d cfg lr (liftV (meanVec t ls)) n = .ok s) (hs : RegState d c t ls cfg lr s ps)
    (hz : ∀ row ∈ d.featureRows, residOut c t cfg.maxLevels d (resid ls ps) row = List.replicate t 0) (k : Nat) :
    ∃ s', regLoopAt d cfg lr (liftV (meanVec t ls)) (n + k) = .ok s' ∧ RegState d c t ls cfg lr s' ps ∧
      ∀ row : List (Ext K), c ≤ row.length →
        rawScore gradOut (liftV (meanVec t ls)) (.fin lr) s'.2 row = rawScore gradOut (liftV (meanVec t ls)) (.fin lr) s.2 row := by
  induction k with
  | zero => exact ⟨s, h1, hs, fun _ _ => rfl⟩
  | succ k ih =>
    obtain ⟨s1, e1, hs1, hp⟩ := ih
    obtain ⟨s', h3, hs', htr, _⟩ := progress_step h hls hc hs1
    have hlr : ps.length = d.featureRows.length := by rw [hs.finite.len, h.label_count]
    rw [updated_zero hlr hs.finite.width hz] at hs'
    refine ⟨s', by rw [regLoopAt] at e1 ⊢; rw [← Nat.add_assoc, boostLoop_succ, e1]; exact h3, hs', ?_⟩
    intro row hrow
    rw [← hp row hrow, htr]
    have hw := resid_wf h hls hs.finite.len hs.finite.width
    have : ∃ outs : List (List K), List.Forall₂ (fun tree o => gradOut row tree = .ok (liftV o) ∧ o.length = t) s1.2 outs := by
      have ht := hs1.trees
      revert ht
      generalize s1.2 = trees
      intro ht
      induction trees with
      | nil => exact ⟨[], .nil⟩
      | cons tree trees ih =>
        obtain ⟨outs, ho⟩ := ih (fun x hx => ht x (by simp [hx]))
        obtain ⟨rs, hw, rfl⟩ := ht tree (by simp)
        exact ⟨_ :: outs, .cons ⟨gradOut_regression_exact cfg.maxLevels hw (ls := rs) rfl hrow, meanVec_length t _⟩ ho⟩
    obtain ⟨outs, ho⟩ := this
    have hnew : gradOut row (residTree c t cfg.maxLevels d (resid ls ps)) = .ok (liftV (List.replicate t (0 : K))) := by
      rw [← out_zero hw hz hrow]
      exact gradOut_regression_exact cfg.maxLevels hw (ls := resid ls ps) rfl hrow
    rw [rawScore_exact (meanVec_length t ls) ho, rawScore_exact (meanVec_length t ls) (List.rel_append ho (.cons ⟨hnew, by simp⟩ .nil))]
    congr 2
    apply List.map_congr_left
    intro j hj
    rw [List.mem_range] at hj
    simp [hj]

end

/-- **C68** (stagnation).  With a learning rate strictly between 0 and 2: if an iteration leaves the training error as it was, that
iteration and all later ones leave every prediction as it was. -/
theorem C68_stagnation (d : DataSet (Ext K)) (c t : Nat) (h : d.WF c t) (ht0 : 0 < t) (ls : List (List K)) (hls : d.labels = lift ls)
    (cfg : TreeConfig) (hc : cfg.numberOfClasses = t) (n : Nat) (lr : K) (h0 : 0 < lr) (h2 : lr < 2)
    (m m' : BoostModel (Ext K) (GradBoostLeaf (Ext K))) (hm : regressionTrain d cfg n (.fin lr) = .ok m)
    (hm' : regressionTrain d cfg (n + 1) (.fin lr) = .ok m') (hsame : regressionScore m' d = regressionScore m d) (n' : Nat) (hn : n ≤ n') :
    ∃ m'', regressionTrain d cfg n' (.fin lr) = .ok m'' ∧
      ∀ row : List (Ext K), c ≤ row.length → regressionPredict m'' row = regressionPredict m row := by
  obtain ⟨s, ps, h1, hs⟩ := regState_loop (lr := lr) h hls hc n
  obtain ⟨s', h3, hs', htr, hsse⟩ := progress_step h hls hc hs
  have hl' : regLoopAt d cfg lr (liftV (meanVec t ls)) (n + 1) = .ok s' := by rw [regLoopAt] at h1 ⊢; rw [boostLoop_succ, h1]; exact h3
  have em := Except.ok.inj (hm.symm.trans (regressionTrain_of_loop h hls h1))
  have em' := Except.ok.inj (hm'.symm.trans (regressionTrain_of_loop h hls hl'))
  rw [em, em', score_of_state h ht0 hls hs, score_of_state h ht0 hls hs'] at hsame
  have hsame := Ext.fin.inj (Except.ok.inj hsame)
  have hll : ls.length = d.featureRows.length := by rw [← h.label_count, hls, lift_length]
  have htp : (t : K) ≠ 0 := by exact_mod_cast ht0.ne'
  have hnp : (ls.length : K) ≠ 0 := by rw [hll]; exact_mod_cast (List.length_pos_of_ne_nil h.rows_ne).ne'
  rw [div_left_inj' hnp, div_left_inj' htp, hsse] at hsame
  have hpos : lr * (2 - lr) ≠ 0 := by
    have := mul_pos h0 (by linarith : 0 < 2 - lr)
    exact this.ne'
  have hz0 : sse t (d.featureRows.map (residOut c t cfg.maxLevels d (resid ls ps))) = 0 := by
    have : lr * (2 - lr) * sse t (d.featureRows.map (residOut c t cfg.maxLevels d (resid ls ps))) = 0 := by linarith
    rcases mul_eq_zero.mp this with h | h
    · exact absurd h hpos
    · exact h
  have hz := sse_eq_zero (by
    intro r hr
    obtain ⟨row, _, rfl⟩ := List.mem_map.mp hr
    exact meanVec_length t _) hz0
  obtain ⟨k, rfl⟩ := Nat.exists_eq_add_of_le hn
  obtain ⟨s2, e2, hs2, hp⟩ := stagnant h hls hc h1 hs (fun row hr => hz _ (List.mem_map_of_mem hr)) k
  refine ⟨_, regressionTrain_of_loop h hls e2, ?_⟩
  intro row hrow
  rw [em]
  simp only [regressionPredict, predictInstance_eq]
  exact hp row hrow

/-! ## concrete cases -/

-- `91/16 - 3/4 * (121/48) = 243/64`: the outputs of the first tree are `-11/4` (once) and `11/12` (three times)
example : (do
    let m0 ← regressionTrain d4 (exCfg 1) 0 (.fin (1 / 2))
    let m1 ← regressionTrain d4 (exCfg 1) 1 (.fin (1 / 2))
    let outs ← d4.featureRows.mapM (fun row => do
      let tree ← unwrap m1.trees.head?
      let leaf ← findLeafNodeForData row tree
      unwrap leaf.leafOutput)
    pure (← regressionScore m0 d4, ← regressionScore m1 d4, outs)) =
    (.ok (.fin (91 / 16), .fin (243 / 64), [[.fin (-11 / 4)], [.fin (11 / 12)], [.fin (11 / 12)], [.fin (11 / 12)]]) : R (E × E × List (List E))) := by decide +kernel

/-- exclusive or: no single question helps -/
def Sample.xor : DataSet E :=
  { featureRows := [[0, 0], [0, 1], [1, 0], [1, 1]], labels := [[0], [1], [1], [0]], featureColumns := [[0, 0, 1, 1], [0, 1, 0, 1]] }

theorem xor_wf : xor.WF 2 1 :=
  ⟨by decide +kernel, by decide +kernel, by decide +kernel, by decide +kernel, by decide +kernel, by decide +kernel,
    by decide +kernel⟩

-- boosting stops at once, far from a perfect fit
example : (do
    let m0 ← regressionTrain Sample.xor (exCfg 1) 0 (.fin (1 / 2))
    let m1 ← regressionTrain Sample.xor (exCfg 1) 1 (.fin (1 / 2))
    let m3 ← regressionTrain Sample.xor (exCfg 1) 3 (.fin (1 / 2))
    pure (← regressionScore m0 Sample.xor, ← regressionScore m1 Sample.xor, ← regressionPredict m0 [0, 1], ← regressionPredict m3 [0, 1])) =
    (.ok (.fin (1 / 4), .fin (1 / 4), [.fin (1 / 2)], [.fin (1 / 2)]) : R (E × E × List E × List E)) := by decide +kernel

end Verif
