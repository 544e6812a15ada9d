import Verif.Props.LeastSquares
import Verif.Props.Progress
/-!
# C97: the predictions of regression ensembles stay bounded

Every tree whose output at a row is far from zero lowers the sum of squared residuals by a fixed share of the square of that output, as its leaf holds at
least one training example.  So the squares of the outputs at a row cannot add up to more than the sum of squares of the labels around
their mean allows.
-/

set_option linter.unusedSectionVars false

namespace Verif

variable {K : Type} [Field K] [LinearOrder K] [IsStrictOrderedRing K] [FloorSemiring K] [HasExp K] {L : Type}

open Sample

/-- the sum of squares in one column -/
def colSq (rs : List (List K)) (j : Nat) : K := sqDev 0 (target rs j)

theorem colSq_eq (rs : List (List K)) (j : Nat) : colSq rs j = (rs.map (fun r => (r.getD j 0) ^ 2)).sum := by
  simp [colSq, sqDev, target, Function.comp_def]

theorem colSq_nonneg (rs : List (List K)) (j : Nat) : 0 ≤ colSq rs j := by
  rw [colSq_eq]
  refine List.sum_nonneg ?_
  intro x hx
  obtain ⟨r, _, rfl⟩ := List.mem_map.mp hx
  exact sq_nonneg _

theorem colSq_mem {rs : List (List K)} {r : List K} (hr : r ∈ rs) (j : Nat) : (r.getD j 0) ^ 2 ≤ colSq rs j := by
  rw [colSq_eq]
  refine List.single_le_sum ?_ _ (List.mem_map.mpr ⟨r, hr, rfl⟩)
  intro x hx
  obtain ⟨r, _, rfl⟩ := List.mem_map.mp hx
  exact sq_nonneg _

/-- one column of the residuals after a step -/
theorem colSq_step {rows : List (List (Ext K))} {t : Nat} {rs : List (List K)} {lr : K} (tree : TreeNode (Ext K) L)
    (hlen : rows.length = rs.length) {j : Nat} (hj : j < t) :
    colSq ((rows.zip rs).map (fun e => (List.range t).map (fun j =>
      e.2.getD j 0 - lr * (meanVec t (mates tree (rows.zip rs) e.1)).getD j 0))) j =
      colSq rs j - lr * (2 - lr) * colSq (rows.map (fun row => meanVec t (mates tree (rows.zip rs) row))) j := by
  have hr : colSq rs j = ((rows.zip rs).map (fun e => (e.2.getD j 0) ^ 2)).sum := by
    rw [colSq_eq]
    conv_lhs => rw [← List.map_snd_zip (l₁ := rows) (l₂ := rs) (by omega)]
    rw [List.map_map]; rfl
  have ho : colSq (rows.map (fun row => meanVec t (mates tree (rows.zip rs) row))) j =
      ((rows.zip rs).map (fun e => ((meanVec t (mates tree (rows.zip rs) e.1)).getD j 0) ^ 2)).sum := by
    rw [colSq_eq, List.map_map]
    conv_lhs => arg 1; arg 2; rw [← List.map_fst_zip (l₁ := rows) (l₂ := rs) (by omega)]
    rw [List.map_map]; rfl
  rw [hr, ho, eq_sub_iff_add_eq, colSq_eq, List.map_map]
  simp only [Function.comp_def]
  simp only [getD_range hj, meanVec, mates]
  rw [← List.sum_map_mul_left, ← List.sum_map_add]
  refine group_eq (fun e : List (Ext K) × List K => tree.route e.1)
    (fun e s => (e.2.getD j 0 - lr * meanOf (target (s.map Prod.snd) j)) ^ 2 + lr * (2 - lr) * (meanOf (target (s.map Prod.snd) j)) ^ 2)
    (fun e _ => (e.2.getD j 0) ^ 2) _ ?_
  intro s hs _ _
  set xs := target (s.map Prod.snd) j with hxs
  have hsum : ∀ f : K → K, (s.map (fun e => f (e.2.getD j 0))).sum = (xs.map f).sum := by
    intro f
    rw [hxs, target, List.map_map, List.map_map]; rfl
  have hl : (s.length : K) = xs.length := by rw [hxs, target_length, List.length_map]
  have hn : (0 : K) < xs.length := by
    rw [← hl]; exact_mod_cast List.length_pos_of_ne_nil hs
  rw [List.sum_map_add]
  have e1 := hsum (fun x => (x - lr * meanOf xs) ^ 2)
  have e2 := hsum (fun x => x ^ 2)
  rw [e1, e2, List.map_const', List.sum_replicate, nsmul_eq_mul, hl]
  have := sqDev_eq (lr * meanOf xs) xs
  rw [sqDev] at this
  rw [this, meanOf]
  field_simp
  ring

section
variable {d : DataSet (Ext K)} {c t : Nat} {ls : List (List K)} {cfg : TreeConfig} {lr : K}

/-- the output at any row is the output at some training row -/
theorem residOut_seen {rs : List (List K)} (hw : ({ d with labels := lift rs } : DataSet (Ext K)).WF c t) {row : List (Ext K)}
    (hrow : c ≤ row.length) :
    residOut c t cfg.maxLevels d rs row ∈ d.featureRows.map (residOut c t cfg.maxLevels d rs) := by
  have hne := mates_ne hw (ls := rs) rfl cfg.maxLevels (gradLeaf .regression t) hrow
  obtain ⟨l, hl⟩ := List.exists_mem_of_ne_nil _ hne
  obtain ⟨e, he, rfl⟩ := List.mem_map.mp hl
  obtain ⟨h1, h2⟩ := List.mem_filter.mp he
  have h2 := of_decide_eq_true h2
  refine List.mem_map.mpr ⟨e.1, (List.of_mem_zip h1).1, ?_⟩
  rw [residOut, residOut, mates, mates, residTree, h2]

/-- outputs of the trees at a row, and what their squares leave of the residuals -/
def Spent (t : Nat) (ls ps : List (List K)) (lr : K) (trees : List (TreeNode (Ext K) (GradBoostLeaf (Ext K)))) (row : List (Ext K)) : Prop :=
  ∃ outs : List (List K), List.Forall₂ (fun tree o => gradOut row tree = .ok (liftV o) ∧ o.length = t) trees outs ∧
    ∀ j < t, colSq (resid ls ps) j + lr * (2 - lr) * (outs.map (fun o => (o.getD j 0) ^ 2)).sum ≤ sqDev (meanOf (target ls j)) (target ls j)

theorem spent_start (h : d.WF c t) (hls : d.labels = lift ls) (row : List (Ext K)) :
    Spent t ls (List.replicate ls.length (meanVec t ls)) lr [] row := by
  refine ⟨[], .nil, ?_⟩
  intro j hj
  have hlw := lift_width hls h.label_len
  have h1 : target (resid ls (List.replicate ls.length (meanVec t ls))) j = (target ls j).map (fun x => x - meanOf (target ls j)) := by
    apply List.ext_getElem
    · simp [target, resid]
    intro i h2 h3
    simp only [target, resid, List.length_map, List.length_zipWith, List.length_replicate] at h2
    have hi : i < ls.length := by omega
    have b1 := hlw _ (List.getElem_mem hi)
    simp only [target, resid, List.getElem_map, List.getElem_zipWith, List.getElem_replicate]
    rw [zipWith_getD b1 (meanVec_length _ _) 0 0, getD_range hj, meanVec, getD_range hj]
    rfl
  rw [colSq, h1]
  simp [sqDev, Function.comp_def]

theorem spent_loop (h : d.WF c t) (hls : d.labels = lift ls) (hc : cfg.numberOfClasses = t) (h0 : 0 ≤ lr) (h2 : lr ≤ 2) (n : Nat) :
    ∃ s ps, regLoopAt d cfg lr (liftV (meanVec t ls)) n = .ok s ∧ RegState d c t ls cfg lr s ps ∧
      ∀ row : List (Ext K), c ≤ row.length → Spent t ls ps lr s.2 row := by
  induction n with
  | zero => exact ⟨_, _, rfl, regState_start h hls, fun row _ => spent_start h hls row⟩
  | succ n ih =>
    obtain ⟨s, ps, h3, hs, hp⟩ := ih
    obtain ⟨s', h4, hs', htr, _⟩ := progress_step h hls hc hs
    refine ⟨s', _, by rw [regLoopAt] at h3 ⊢; rw [boostLoop_succ, h3]; exact h4, hs', ?_⟩
    intro row hrow
    obtain ⟨outs, ho, hb⟩ := hp row hrow
    have hw := resid_wf h hls hs.finite.len hs.finite.width
    have hll : ps.length = ls.length := by rw [hs.finite.len, hls, lift_length]
    have hlr : ps.length = d.featureRows.length := by rw [hs.finite.len, h.label_count]
    have hlw := lift_width hls h.label_len
    have hlen : d.featureRows.length = (resid ls ps).length := by rw [resid_length hll]; omega
    have hres := resid_updated (rows := d.featureRows) (lr := lr) (o := residOut c t cfg.maxLevels d (resid ls ps)) hlw
      hs.finite.width (fun row _ => meanVec_length _ _) hll hlr
    rw [htr]
    refine ⟨outs ++ [residOut c t cfg.maxLevels d (resid ls ps) row], List.rel_append ho (.cons ⟨gradOut_regression_exact cfg.maxLevels hw
      (ls := resid ls ps) rfl hrow, meanVec_length t _⟩ .nil), ?_⟩
    intro j hj
    have h5 := hb j hj
    have h6 := colSq_mem (residOut_seen (cfg := cfg) hw hrow) j
    rw [hres, colSq_step _ hlen hj, List.map_append, List.sum_append, List.map_singleton, List.sum_singleton]
    have h7 := mul_le_mul_of_nonneg_left h6 (mul_nonneg h0 (sub_nonneg.mpr h2))
    rw [mul_add]
    linarith

end

/-- the square of a sum -/
theorem sq_sum_le (xs : List K) : xs.sum ^ 2 ≤ xs.length * (xs.map (fun x => x ^ 2)).sum := by
  rcases xs.eq_nil_or_concat with rfl | hne
  · simp
  · have hn : (0 : K) < xs.length := by
      obtain ⟨l, a, rfl⟩ := hne
      simp only [List.concat_eq_append, List.length_append, List.length_singleton]
      positivity
    have h1 := sqDev_eq (meanOf xs) xs
    have h2 : 0 ≤ sqDev (meanOf xs) xs := by
      refine List.sum_nonneg ?_
      intro x hx
      obtain ⟨r, _, rfl⟩ := List.mem_map.mp hx
      exact sq_nonneg _
    rw [h1, meanOf] at h2
    have h3 := mul_le_mul_of_nonneg_left h2 hn.le
    have h4 : (xs.length : K) * ((xs.map (fun x => x ^ 2)).sum - 2 * (xs.sum / xs.length) * xs.sum + xs.length * (xs.sum / xs.length) ^ 2) =
        xs.length * (xs.map (fun x => x ^ 2)).sum - xs.sum ^ 2 := by
      field_simp
      ring
    rw [h4, mul_zero] at h3
    linarith

/-- **C97**.  After `n` iterations with a learning rate from 0 to 2, whatever the row: the square of the distance of a prediction from the mean label,
times `2 - lr`, is at most `n * lr` times the sum of squared deviations of the training labels from their mean. -/
theorem C97_bounded (d : DataSet (Ext K)) (c t : Nat) (h : d.WF c t) (ls : List (List K)) (hls : d.labels = lift ls) (cfg : TreeConfig)
    (hc : cfg.numberOfClasses = t) (n : Nat) (lr : K) (h0 : 0 ≤ lr) (h2 : lr ≤ 2) :
    ∃ m, regressionTrain d cfg n (.fin lr) = .ok m ∧
      ∀ row : List (Ext K), c ≤ row.length → ∃ p : List K, regressionPredict m row = .ok (liftV p) ∧ p.length = t ∧
        ∀ j < t, (2 - lr) * (p.getD j 0 - meanOf (target ls j)) ^ 2 ≤ n * lr * sqDev (meanOf (target ls j)) (target ls j) := by
  obtain ⟨s, ps, h1, hs, hp⟩ := spent_loop h hls hc h0 h2 n
  refine ⟨_, regressionTrain_of_loop h hls h1, ?_⟩
  intro row hrow
  obtain ⟨outs, ho, hb⟩ := hp row hrow
  refine ⟨(List.range t).map (fun j => (meanVec t ls).getD j 0 + lr * (outs.map (fun o => o.getD j 0)).sum), ?_, ?_, ?_⟩
  · rw [regressionPredict, predictInstance_eq]
    exact rawScore_exact (meanVec_length t ls) ho
  · simp
  · intro j hj
    rw [getD_range hj, meanVec, getD_range hj, add_sub_cancel_left]
    have hn : outs.length = n := by rw [← ho.length_eq]; exact boostLoop_length h1
    have h3 := sq_sum_le (outs.map (fun o => o.getD j 0))
    rw [List.length_map, hn, List.map_map] at h3
    have h4 := hb j hj
    have h5 := colSq_nonneg (resid ls ps) j
    have h6 : lr * (2 - lr) * (outs.map (fun o => (o.getD j 0) ^ 2)).sum ≤ sqDev (meanOf (target ls j)) (target ls j) := by linarith
    have h7 := mul_le_mul_of_nonneg_left h6 (mul_nonneg (Nat.cast_nonneg (α := K) n) h0)
    have h8 := mul_le_mul_of_nonneg_left h3 (mul_nonneg (sub_nonneg.mpr h2) (sq_nonneg lr))
    simp only [Function.comp_def] at h8
    calc _ = (2 - lr) * lr ^ 2 * ((outs.map (fun o => o.getD j 0)).sum) ^ 2 := by ring
      _ ≤ _ := h8
      _ = n * lr * (lr * (2 - lr) * (outs.map (fun o => (o.getD j 0) ^ 2)).sum) := by ring
      _ ≤ _ := h7

/-- **C97**.  At a training row the square of the distance of a prediction from the label is at most the sum of squared deviations of the
training labels from their mean, whatever the number of iterations. -/
theorem C97_training_rows (d : DataSet (Ext K)) (c t : Nat) (h : d.WF c t) (ls : List (List K)) (hls : d.labels = lift ls) (cfg : TreeConfig)
    (hc : cfg.numberOfClasses = t) (n : Nat) (lr : K) (h0 : 0 ≤ lr) (h2 : lr ≤ 2) :
    ∃ m ps, regressionTrain d cfg n (.fin lr) = .ok m ∧ d.featureRows.mapM (regressionPredict m) = .ok (lift ps) ∧
      ps.length = ls.length ∧ ∀ e ∈ ps.zip ls, e.1.length = t ∧
        ∀ j < t, (e.1.getD j 0 - e.2.getD j 0) ^ 2 ≤ sqDev (meanOf (target ls j)) (target ls j) := by
  obtain ⟨s, ps, h1, hs, hp⟩ := spent_loop h hls hc h0 h2 n
  have hll : ps.length = ls.length := by rw [hs.finite.len, hls, lift_length]
  have hlw := lift_width hls h.label_len
  refine ⟨_, ps, regressionTrain_of_loop h hls h1, predict_of_state h hs, hll, ?_⟩
  intro e he
  obtain ⟨he1, he2⟩ := List.of_mem_zip (show (e.1, e.2) ∈ ps.zip ls from he)
  refine ⟨hs.finite.width _ he1, ?_⟩
  intro j hj
  obtain ⟨row, hrow⟩ := List.exists_mem_of_ne_nil _ h.rows_ne
  obtain ⟨outs, _, hb⟩ := hp row (h.row_len row hrow).ge
  have h3 := hb j hj
  have hm : List.zipWith (fun x y => x - y) e.2 e.1 ∈ resid ls ps := by
    obtain ⟨i, hi, rfl⟩ := List.getElem_of_mem he
    rw [List.length_zip] at hi
    have : (resid ls ps)[i]'(by rw [resid_length hll]; omega) = List.zipWith (fun x y => x - y) ls[i] ps[i] := by
      simp [resid]
    rw [List.getElem_zip, ← this]
    exact List.getElem_mem _
  have h4 := colSq_mem hm j
  rw [zipWith_getD (hlw _ he2) (hs.finite.width _ he1) 0 0, getD_range hj] at h4
  have h5 : 0 ≤ (outs.map (fun o => (o.getD j 0) ^ 2)).sum := by
    refine List.sum_nonneg ?_
    intro x hx
    obtain ⟨r, _, rfl⟩ := List.mem_map.mp hx
    exact sq_nonneg _
  have h6 := mul_nonneg (mul_nonneg h0 (sub_nonneg.mpr h2)) h5
  have h7 : (e.1.getD j 0 - e.2.getD j 0) ^ 2 = (e.2.getD j 0 - e.1.getD j 0) ^ 2 := by ring
  rw [h7]
  linarith

/-! ## a case that meets the hypotheses -/

-- predictions outside the range of the labels 0, 1, 4, 6, but within the bounds
example : (do
    let m ← regressionTrain d4 { useMultiThreading := false, numberOfClasses := 1, maxLevels := 1 } 2 (.fin (3 / 2))
    d4.featureRows.mapM (regressionPredict m)) =
      .ok [[(.fin (-37 / 16) : E)], [.fin (51 / 16)], [.fin (51 / 16)], [.fin (111 / 16)]] := by decide +kernel
example : sqDev (meanOf (target [[0], [1], [4], [6]] 0)) (target ([[0], [1], [4], [6]] : List (List ℚ)) 0) = 91 / 4 := by decide +kernel

/-- **C97** needs the limit on the learning rate: with rate 4 the predictions leave both bounds. -/
theorem C97_violated_by_large_rates : (do
    let m ← regressionTrain d4 { useMultiThreading := false, numberOfClasses := 1, maxLevels := 1 } 3 (.fin 4)
    regressionPredict m [(.fin 0 : E), .fin 5]) = .ok [.fin (-297 / 4)] ∧ (91 / 4 : ℚ) < (-297 / 4 - 0) ^ 2 := by
  constructor
  · decide +kernel
  · norm_num

end Verif
