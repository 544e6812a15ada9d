import Verif.Lemmas.Additive
import Verif.Props.SingleTree
/-!
# C100: boosting with one question per tree converges to the best additive model
-/

set_option linter.unusedSectionVars false

namespace Verif

open Sample

section
variable {d : DataSet (Ext ℝ)} {c t : Nat} {ls : List (List ℝ)} {cfg : TreeConfig} {lr : ℝ}

/-- the outputs of a tree with one question -/
theorem stump_bound (hcfg : cfg.maxLevels = 1) {rs : List (List ℝ)} (hw : ({ d with labels := lift rs } : DataSet (Ext ℝ)).WF c t) :
    Bd c t d.featureRows (2 * d.featureRows.length * t * √(sse t (d.featureRows.map (residOut c t cfg.maxLevels d rs))))
      (fun row j => (residOut c t cfg.maxLevels d rs row).getD j 0) := by
  classical
  set a := √(sse t (d.featureRows.map (residOut c t cfg.maxLevels d rs))) with ha
  have ha0 : 0 ≤ a := Real.sqrt_nonneg _
  have hsmall : ∀ row ∈ d.featureRows, ∀ j < t, |(residOut c t cfg.maxLevels d rs row).getD j 0| ≤ a := by
    intro row hr j hj
    rw [ha]
    apply Real.abs_le_sqrt
    rw [sse]
    refine le_trans ?_ (List.single_le_sum ?_ _ (List.mem_map.mpr ⟨_, List.mem_map_of_mem hr, rfl⟩))
    · refine List.single_le_sum (l := (List.range t).map (fun j => (residOut c t cfg.maxLevels d rs row).getD j 0 ^ 2)) ?_ _
        (List.mem_map.mpr ⟨j, List.mem_range.mpr hj, rfl⟩)
      intro x hx
      obtain ⟨j, _, rfl⟩ := List.mem_map.mp hx
      exact sq_nonneg _
    · intro x hx
      obtain ⟨r, _, rfl⟩ := List.mem_map.mp hx
      refine List.sum_nonneg ?_
      intro y hy
      obtain ⟨j, _, rfl⟩ := List.mem_map.mp hy
      exact sq_nonneg _
  -- the value on one side
  have side : ∀ (P : List (Ext ℝ) → Prop), (∀ r ∈ d.featureRows, ∀ r' ∈ d.featureRows, P r → P r' →
      residOut c t cfg.maxLevels d rs r = residOut c t cfg.maxLevels d rs r') →
      ∃ w : Nat → ℝ, (∀ j < t, |w j| ≤ a) ∧ ∀ r ∈ d.featureRows, P r → ∀ j, (residOut c t cfg.maxLevels d rs r).getD j 0 = w j := by
    intro P hP
    by_cases hex : ∃ r ∈ d.featureRows, P r
    · obtain ⟨r, hr, hPr⟩ := hex
      exact ⟨fun j => (residOut c t cfg.maxLevels d rs r).getD j 0, fun j hj => hsmall r hr j hj, fun r' hr' h' j => by
        rw [hP r' hr' r hr h' hPr]⟩
    · exact ⟨fun _ => 0, fun _ _ => by simpa using ha0, fun r hr h' => absurd ⟨r, hr, h'⟩ hex⟩
  have same : ∀ r r' : List (Ext ℝ), (residTree c t cfg.maxLevels d rs).route r = (residTree c t cfg.maxLevels d rs).route r' →
      residOut c t cfg.maxLevels d rs r = residOut c t cfg.maxLevels d rs r' := by
    intro r r' hr
    rw [residOut, residOut, mates, mates, hr]
  have hpos : 0 ≤ 2 * (d.featureRows.length : ℝ) * t * a := by positivity
  have weaken : ∀ {A : ℝ} {G : List (Ext ℝ) → Nat → ℝ}, Bd c t d.featureRows A G → A ≤ 2 * (d.featureRows.length : ℝ) * t * a →
      Bd c t d.featureRows (2 * (d.featureRows.length : ℝ) * t * a) G := by
    intro A G hG hA rs h1 h2 b h3 h4
    exact (hG rs h1 h2 b h3 h4).trans (mul_le_mul_of_nonneg_right hA h3)
  cases hg : ((splitOf { d with labels := lift rs } t).gain ==. F64.zero) with
  | true =>
    obtain ⟨w, _, h1⟩ := side (fun _ => True) (by
      intro r _ r' _ _ _
      apply same
      rw [residTree, hcfg, treeOf_leaf hg]
      rfl)
    exact weaken ((Bd.const w).congr (fun r hr j _ => h1 r hr trivial j)) hpos
  | false =>
    set q := (splitOf { d with labels := lift rs } t).question with hq
    have hqc : q.column < c := (splitOf_separates hw hg).2.1
    have hroute : ∀ r r' : List (Ext ℝ), satisfies q r = satisfies q r' →
        residOut c t cfg.maxLevels d rs r = residOut c t cfg.maxLevels d rs r' := by
      intro r r' hr
      apply same
      rw [residTree, hcfg, treeOf_node hg, TreeNode.route_new, TreeNode.route_new, ← hq, hr]
      rfl
    obtain ⟨w, hw1, hw2⟩ := side (fun r => satisfies q r = true) (fun r _ r' _ h1 h2 => hroute r r' (h1.trans h2.symm))
    obtain ⟨u, hu1, hu2⟩ := side (fun r => satisfies q r = false) (fun r _ r' _ h1 h2 => hroute r r' (h1.trans h2.symm))
    refine weaken (((Bd.const u).add (Bd.question hqc (fun j => w j - u j))).congr ?_) ?_
    · intro r hr j _
      cases hs : satisfies q r with
      | true => rw [hw2 r hr hs j]; simp
      | false => rw [hu2 r hr hs j]; simp
    · have h1 : ((List.range t).map (fun j => |w j - u j|)).sum ≤ ((List.range t).map (fun _ => 2 * a)).sum := by
        apply List.sum_le_sum
        intro j hj
        have h2 := hw1 j (List.mem_range.mp hj)
        have h3 := hu1 j (List.mem_range.mp hj)
        have h4 := abs_sub (w j) (u j)
        linarith
      rw [List.map_const', List.sum_replicate, List.length_range, nsmul_eq_mul] at h1
      have h2 := mul_le_mul_of_nonneg_left h1 (Nat.cast_nonneg (α := ℝ) d.featureRows.length)
      linarith

/-- the predictions on the training rows after the iterations -/
noncomputable def psSeq (d : DataSet (Ext ℝ)) (c t : Nat) (ls : List (List ℝ)) (m : Nat) (lr : ℝ) : Nat → List (List ℝ)
  | 0 => List.replicate ls.length (meanVec t ls)
  | i + 1 => updated lr (residOut c t m d (resid ls (psSeq d c t ls m lr i))) (psSeq d c t ls m lr i) d.featureRows

/-- the size of the outputs of a tree -/
noncomputable def outSize (d : DataSet (Ext ℝ)) (c t : Nat) (ls : List (List ℝ)) (m : Nat) (lr : ℝ) (i : Nat) : ℝ :=
  √(sse t (d.featureRows.map (residOut c t m d (resid ls (psSeq d c t ls m lr i)))))

theorem psSeq_state (h : d.WF c t) (hls : d.labels = lift ls) (hc : cfg.numberOfClasses = t) (i : Nat) :
    ∃ s, regLoopAt d cfg lr (liftV (meanVec t ls)) i = .ok s ∧ RegState d c t ls cfg lr s (psSeq d c t ls cfg.maxLevels lr i) := by
  induction i with
  | zero => exact ⟨_, rfl, regState_start h hls⟩
  | succ i ih =>
    obtain ⟨s, h1, hs⟩ := ih
    obtain ⟨s', h3, hs', _, _⟩ := progress_step h hls hc hs
    exact ⟨s', by rw [regLoopAt] at h1 ⊢; rw [boostLoop_succ, h1]; exact h3, hs'⟩

theorem psSeq_sse (h : d.WF c t) (hls : d.labels = lift ls) (hc : cfg.numberOfClasses = t) (i : Nat) :
    sse t (resid ls (psSeq d c t ls cfg.maxLevels lr (i + 1))) =
      sse t (resid ls (psSeq d c t ls cfg.maxLevels lr i)) - lr * (2 - lr) * outSize d c t ls cfg.maxLevels lr i ^ 2 := by
  obtain ⟨s, _, hs⟩ := psSeq_state (lr := lr) (cfg := cfg) h hls hc i
  obtain ⟨_, _, _, _, h3⟩ := progress_step h hls hc hs
  rw [outSize, Real.sq_sqrt (sse_nonneg _ _), psSeq, h3]

/-- the predictions as a function of the rows, with a bound -/
theorem psSeq_bound (h : d.WF c t) (hls : d.labels = lift ls) (hc : cfg.numberOfClasses = t) (hcfg : cfg.maxLevels = 1) (i : Nat) :
    ∃ G : List (Ext ℝ) → Nat → ℝ, psSeq d c t ls cfg.maxLevels lr i = d.featureRows.map (fun row => (List.range t).map (G row)) ∧
      Bd c t d.featureRows (|lr| * (2 * d.featureRows.length * t) * ((List.range i).map (outSize d c t ls cfg.maxLevels lr)).sum) G := by
  have hll : ls.length = d.featureRows.length := by rw [← h.label_count, hls, lift_length]
  induction i with
  | zero =>
    refine ⟨fun _ j => (meanVec t ls).getD j 0, ?_, ?_⟩
    · rw [psSeq, List.map_const', hll, ← eq_range_getD (meanVec_length t ls) 0]
    · simpa using Bd.const _
  | succ i ih =>
    obtain ⟨G, h1, hG⟩ := ih
    obtain ⟨s, _, hs⟩ := psSeq_state (lr := lr) (cfg := cfg) h hls hc i
    have hw := resid_wf h hls hs.finite.len hs.finite.width
    refine ⟨fun row j => G row j + lr * (residOut c t cfg.maxLevels d (resid ls (psSeq d c t ls cfg.maxLevels lr i)) row).getD j 0, ?_, ?_⟩
    · rw [psSeq, updated]
      conv_lhs => arg 2; rw [h1]
      rw [List.zipWith_map_left]
      apply List.ext_getElem
      · simp
      intro k h2 h3
      have h5 : k < d.featureRows.length := by simpa using h3
      simp only [List.getElem_zipWith, List.getElem_map]
      rw [zipWith_getD (t := t) (by simp) (by rw [List.length_map]; exact meanVec_length t _) 0 0]
      apply List.map_congr_left
      intro j hj
      rw [List.mem_range] at hj
      rw [getD_range hj]
      have h4 : j < (residOut c t cfg.maxLevels d (resid ls (psSeq d c t ls cfg.maxLevels lr i)) d.featureRows[k]).length := by
        rw [meanVec_length]; exact hj
      have h6 : ∀ v : List ℝ, j < v.length → (v.map (fun x => lr * x)).getD j 0 = lr * v.getD j 0 := by
        intro v hv
        simp [hv]
      rw [h6 _ h4]
    · have h2 := hG.add ((stump_bound (c := c) (t := t) hcfg hw).smul lr)
      have h3 : |lr| * (2 * d.featureRows.length * t) * ((List.range i).map (outSize d c t ls cfg.maxLevels lr)).sum +
          |lr| * (2 * d.featureRows.length * t * √(sse t (d.featureRows.map (residOut c t cfg.maxLevels d (resid ls (psSeq d c t ls cfg.maxLevels lr i)))))) =
          |lr| * (2 * d.featureRows.length * t) * ((List.range (i + 1)).map (outSize d c t ls cfg.maxLevels lr)).sum := by
        rw [List.range_succ, List.map_append, List.sum_append, List.map_singleton, List.sum_singleton, outSize]
        ring
      rw [h3] at h2
      exact h2

theorem sse_compare {rows : List (List (Ext ℝ))} (hl : ∀ l ∈ ls, l.length = t) (hlen : rows.length = ls.length) (G F : List (Ext ℝ) → Nat → ℝ) :
    sse t (resid ls (rows.map (fun row => (List.range t).map (G row)))) +
      2 * ipr t rows (resid ls (rows.map (fun row => (List.range t).map (G row)))) (fun row j => G row j + -1 * F row j) ≤
      sse t (resid ls (rows.map (fun row => (List.range t).map (F row)))) := by
  induction ls generalizing rows with
  | nil => simp [sse, resid, ipr]
  | cons l ls ih =>
    cases rows with
    | nil => simp at hlen
    | cons row rows =>
      have h1 := ih (rows := rows) (fun x hx => hl x (by simp [hx])) (by simpa using hlen)
      have hlt := hl l (by simp)
      rw [sse, sse, ipr] at h1 ⊢
      simp only [resid, List.map_cons, List.zipWith_cons_cons, List.zip_cons_cons, List.sum_cons] at h1 ⊢
      have h2 : ((List.range t).map (fun j => (List.zipWith (· - ·) l ((List.range t).map (G row))).getD j 0 ^ 2)).sum +
          2 * ((List.range t).map (fun j => (List.zipWith (· - ·) l ((List.range t).map (G row))).getD j 0 * (G row j + -1 * F row j))).sum ≤
          ((List.range t).map (fun j => (List.zipWith (· - ·) l ((List.range t).map (F row))).getD j 0 ^ 2)).sum := by
        rw [← List.sum_map_mul_left, ← List.sum_map_add]
        apply List.sum_le_sum
        intro j hj
        rw [List.mem_range] at hj
        rw [zipWith_getD hlt (by simp) 0 0, zipWith_getD hlt (by simp) 0 0, getD_range hj, getD_range hj, getD_range hj, getD_range hj]
        nlinarith [sq_nonneg (G row j - F row j)]
      linarith

end

/-- **C100**.  Let no value of a feature other than its smallest occur twice, and let every tree ask at most one question.  With a learning rate
strictly between 0 and 2 the training error comes, with enough iterations, as close as one likes to the training error of the best sum of arbitrary
functions of the single features, and stays there. -/
theorem C100_best_additive (d : DataSet (Ext ℝ)) (c t : Nat) (h : d.WF c t) (ht0 : 0 < t) (ls : List (List ℝ)) (hls : d.labels = lift ls)
    (hties : ∀ j < c, TiesOnlyAtMinimum (column d.featureRows j)) (cfg : TreeConfig) (hc : cfg.numberOfClasses = t) (hm : cfg.maxLevels = 1)
    (lr : ℝ) (h0 : 0 < lr) (h2 : lr < 2) (φ : Nat → Ext ℝ → Nat → ℝ) (ε : ℝ) (hε : 0 < ε) :
    ∃ k₀, ∀ k ≥ k₀, ∃ m e, regressionTrain d cfg k (.fin lr) = .ok m ∧ regressionScore m d = .ok (.fin e) ∧
      e ≤ mseOf (d.featureRows.map (additive c t φ)) ls + ε := by
  have hll : ls.length = d.featureRows.length := by rw [← h.label_count, hls, lift_length]
  have hlw := lift_width hls h.label_len
  have hnp : (0 : ℝ) < ls.length := by
    rw [hll]
    exact_mod_cast List.length_pos_of_ne_nil h.rows_ne
  have htp : (0 : ℝ) < t := by exact_mod_cast ht0
  have hlp : 0 < lr * (2 - lr) := mul_pos h0 (sub_pos.mpr h2)
  set P := psSeq d c t ls cfg.maxLevels lr with hP
  set a := outSize d c t ls cfg.maxLevels lr with ha
  have hstep : ∀ i, sse t (resid ls (P (i + 1))) = sse t (resid ls (P i)) - lr * (2 - lr) * a i ^ 2 := fun i => psSeq_sse h hls hc i
  have hsum : ∀ k, ((List.range k).map (fun i => a i ^ 2)).sum ≤ sse t (resid ls (P 0)) / (lr * (2 - lr)) := by
    intro k
    rw [le_div_iff₀ hlp]
    have key : sse t (resid ls (P k)) + ((List.range k).map (fun i => a i ^ 2)).sum * (lr * (2 - lr)) = sse t (resid ls (P 0)) := by
      induction k with
      | zero => simp
      | succ k ih =>
        rw [hstep, List.range_succ, List.map_append, List.sum_append, List.map_singleton, List.sum_singleton, ← ih]
        ring
    have := sse_nonneg t (resid ls (P k))
    linarith
  obtain ⟨A, hA0, hA⟩ := Bdd.additive (t := t) h.row_len h.no_nan φ
  obtain ⟨i, hi⟩ := small_product (a := a) hsum (A := A) (β := |lr| * (2 * d.featureRows.length * t)) (δ := ε * t * ls.length / 2) (by positivity)
  set F : List (Ext ℝ) → Nat → ℝ := fun row j => ((List.range c).map (fun p => φ p (row.getD p F64.zero) j)).sum with hF
  have hfs : d.featureRows.map (additive c t φ) = d.featureRows.map (fun row => (List.range t).map (F row)) := rfl
  have hi2 : sse t (resid ls (P i)) ≤ sse t (resid ls (d.featureRows.map (additive c t φ))) + ε * t * ls.length := by
    obtain ⟨G, hG1, hG⟩ := psSeq_bound (lr := lr) h hls hc hm i
    obtain ⟨s, _, hs⟩ := psSeq_state (lr := lr) (cfg := cfg) h hls hc i
    have hw := resid_wf h hls hs.finite.len hs.finite.width
    have hb := hG.add (hA.smul (-1))
    have hps : (P i).length = ls.length := by rw [hP, hs.finite.len, hls, lift_length]
    have h3 := hb (resid ls (P i)) (by rw [resid_length hps, hll]) hs.unbiased (a i) (Real.sqrt_nonneg _) (by
      intro q hq
      have := outs_reduction (cfg := cfg) hw hties hm.ge q hq
      rw [ha, outSize, Real.sq_sqrt (sse_nonneg _ _)]
      exact this)
    have h4 := sse_compare hlw hll.symm G F
    rw [← hG1, ← hP, ← hfs] at h4
    have h5 := (abs_le.mp h3).1
    rw [abs_neg, abs_one, one_mul] at h5
    rw [← ha] at h5
    linarith
  refine ⟨i, fun k hk => ?_⟩
  have hmono : sse t (resid ls (P k)) ≤ sse t (resid ls (P i)) := by
    induction k, hk using Nat.le_induction with
    | base => exact le_rfl
    | succ k _ ih =>
      rw [hstep]
      have : 0 ≤ lr * (2 - lr) * a k ^ 2 := mul_nonneg hlp.le (sq_nonneg _)
      linarith
  obtain ⟨s, h1, hs⟩ := psSeq_state (lr := lr) (cfg := cfg) h hls hc k
  refine ⟨_, _, regressionTrain_of_loop h hls h1, score_of_state h ht0 hls hs, ?_⟩
  have hfw : ∀ p ∈ d.featureRows.map (additive c t φ), p.length = t := by
    intro p hp
    obtain ⟨row, _, rfl⟩ := List.mem_map.mp hp
    simp [additive]
  rw [mseOf_comm (t := t) (by simp [hll]) hfw hlw, mseOf_resid hlw hfw, div_div, div_div, div_le_iff₀ (mul_pos htp hnp), add_mul,
    div_mul_cancel₀ _ (mul_pos htp hnp).ne']
  rw [← hP]
  linarith

/-- **C100** (corollary).  If every label is a sum of functions of the single features, the training error tends to 0. -/
theorem C100_additive_labels (d : DataSet (Ext ℝ)) (c t : Nat) (h : d.WF c t) (ht0 : 0 < t) (φ : Nat → Ext ℝ → Nat → ℝ)
    (hls : d.labels = lift (d.featureRows.map (additive c t φ)))
    (hties : ∀ j < c, TiesOnlyAtMinimum (column d.featureRows j)) (cfg : TreeConfig) (hc : cfg.numberOfClasses = t) (hm : cfg.maxLevels = 1)
    (lr : ℝ) (h0 : 0 < lr) (h2 : lr < 2) (ε : ℝ) (hε : 0 < ε) :
    ∃ k₀, ∀ k ≥ k₀, ∃ m e, regressionTrain d cfg k (.fin lr) = .ok m ∧ regressionScore m d = .ok (.fin e) ∧ 0 ≤ e ∧ e ≤ ε := by
  obtain ⟨k₀, hk⟩ := C100_best_additive d c t h ht0 _ hls hties cfg hc hm lr h0 h2 φ ε hε
  refine ⟨k₀, fun k hk' => ?_⟩
  obtain ⟨m, e, h1, h3, h4⟩ := hk k hk'
  have hfw : ∀ p ∈ d.featureRows.map (additive c t φ), p.length = t := by
    intro p hp
    obtain ⟨row, _, rfl⟩ := List.mem_map.mp hp
    simp [additive]
  have hz : mseOf (d.featureRows.map (additive c t φ)) (d.featureRows.map (additive c t φ)) = 0 :=
    (mseOf_eq_zero ht0 hfw hfw rfl (by simpa using h.rows_ne)).mpr rfl
  rw [hz, zero_add] at h4
  refine ⟨m, e, h1, h3, ?_, h4⟩
  obtain ⟨s, e1, hs⟩ := psSeq_state (lr := lr) (cfg := cfg) h hls hc k
  rw [regressionTrain_of_loop h hls e1] at h1
  cases h1
  rw [score_of_state h ht0 hls hs] at h3
  cases h3
  have := sse_nonneg t (resid (d.featureRows.map (additive c t φ)) (psSeq d c t (d.featureRows.map (additive c t φ)) cfg.maxLevels lr k))
  positivity

/-! ## a case that meets the hypotheses -/

/-- four examples with two features; the label is twice the first feature minus the second -/
noncomputable def Sample.plane4 : DataSet (Ext ℝ) :=
  { featureRows := [[.fin 0, .fin 3], [.fin 1, .fin 0], [.fin 2, .fin 5], [.fin 3, .fin 1]]
    labels := [[.fin (-3)], [.fin 2], [.fin (-1)], [.fin 5]]
    featureColumns := [[.fin 0, .fin 1, .fin 2, .fin 3], [.fin 3, .fin 0, .fin 5, .fin 1]] }

theorem Sample.plane4_wf : plane4.WF 2 1 := by
  constructor <;> simp [plane4, columnsOf, isNaN, List.range_succ, column]

/-- twice the first feature minus the second -/
noncomputable def Sample.planeParts (p : Nat) (x : Ext ℝ) (_ : Nat) : ℝ :=
  match x with
  | .fin y => if p = 0 then 2 * y else -y
  | _ => 0

example : plane4.labels = lift (plane4.featureRows.map (additive 2 1 planeParts)) := by
  simp [plane4, additive, planeParts, lift, liftV, List.range_succ]
  norm_num

example : ∀ j < 2, TiesOnlyAtMinimum (column plane4.featureRows j) := by
  intro j hj
  interval_cases j <;> simp [plane4, TiesOnlyAtMinimum, column]

/-- **C100** needs the condition on repeated values: here the labels are a sum of functions of the two features, but however long the
training, the prediction for every example is the mean of the labels. -/
theorem C100_violated_by_ties :
    stuck3.WF 2 1 ∧ (∃ f g : E → ℚ, stuck3.labels = stuck3.featureRows.map (fun row => [.fin (f (row.getD 0 0) + g (row.getD 1 0))])) ∧
    ∀ k, ∃ m, regressionTrain stuck3 { useMultiThreading := false, numberOfClasses := 1, maxLevels := 1 } k (.fin 1) = .ok m ∧
      ∀ row ∈ stuck3.featureRows, regressionPredict m row = .ok [.fin 1] := by
  have hw : stuck3.WF 2 1 := C99_violated_by_ties.1
  refine ⟨hw, ⟨fun x => if x = .fin 0 then 1 else 0, fun x => if x = .fin 0 then 0 else 2, by decide +kernel⟩, ?_⟩
  intro k
  obtain ⟨m, h0⟩ : ∃ m, regressionTrain stuck3 { useMultiThreading := false, numberOfClasses := 1, maxLevels := 1 } 0 (.fin 1) = .ok m := ⟨_, rfl⟩
  obtain ⟨m', h1, _⟩ := C34_trained stuck3 2 1 hw [[1], [0], [2]] (by decide +kernel)
    { useMultiThreading := false, numberOfClasses := 1, maxLevels := 1 } rfl 1 1
  have e0 : (do
      let m ← regressionTrain stuck3 { useMultiThreading := false, numberOfClasses := 1, maxLevels := 1 } 0 (.fin 1)
      regressionScore m stuck3) = .ok (.fin (2 / 3) : E) := by decide +kernel
  have e1 : (do
      let m ← regressionTrain stuck3 { useMultiThreading := false, numberOfClasses := 1, maxLevels := 1 } 1 (.fin 1)
      regressionScore m stuck3) = .ok (.fin (2 / 3) : E) := by decide +kernel
  have e2 : ∀ row ∈ stuck3.featureRows, (do
      let m ← regressionTrain stuck3 { useMultiThreading := false, numberOfClasses := 1, maxLevels := 1 } 0 (.fin 1)
      regressionPredict m row) = .ok [(.fin 1 : E)] := by decide +kernel
  rw [h0] at e0
  rw [h1] at e1
  obtain ⟨m'', h2, h3⟩ := C68_stagnation stuck3 2 1 hw (by decide) [[1], [0], [2]] (by decide +kernel) _ rfl 0 1 (by norm_num) (by norm_num)
    m m' h0 h1 (e1.trans e0.symm) k (Nat.zero_le k)
  refine ⟨m'', h2, ?_⟩
  intro row hr
  have h4 := e2 row hr
  rw [h0] at h4
  rw [h3 row (hw.row_len row hr).ge]
  exact h4

end Verif
