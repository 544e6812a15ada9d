import Verif.Props.NearScore
import Verif.Props.ExactTree
/-!
# C93: deeper trees fit no worse, rounding included

With binary64 numbers the labels at a leaf are still exactly those of the training rows that take the same path, and the paths of a
deeper tree still extend those of a shallower one.  So the exact error can only fall with more levels, and the computed score follows it
up to the rounding errors of the averages and of the score.
-/

set_option linter.unusedSectionVars false

namespace Verif

open B64 Sample

section
variable [B64Env]

theorem lift_inj {ls ls' : List (List ℚ)} (h : lift ls = lift ls') : ls = ls' := by
  have hf : Function.Injective (List.map (Ext.fin : ℚ → Ext ℚ)) := by
    apply List.map_injective_iff.mpr
    intro a b hab
    injection hab
  exact (List.map_injective_iff.mpr hf) h

/-- the exact labels of the training rows that take the same path as `row` -/
def exactMates {L : Type} (d : DataSet B64) (tree : TreeNode B64 L) (ls : List (List ℚ)) (row : List B64) : List (List ℚ) :=
  ((d.featureRows.zip ls).filter (fun e => decide (tree.route e.1 = tree.route row))).map Prod.snd

theorem companions_exact {L : Type} {d : DataSet B64} {ls : List (List ℚ)} (hls : d.exact.labels = lift ls) (tree : TreeNode B64 L)
    (row : List B64) : (companions d tree row).map (List.map B64.val) = lift (exactMates d tree ls row) := by
  have key : ∀ (rows labels : List (List B64)) (ls : List (List ℚ)), labels.map (List.map B64.val) = lift ls →
      (((rows.zip labels).filter (fun e => decide (tree.route e.1 = tree.route row))).map Prod.snd).map (List.map B64.val) =
        lift (((rows.zip ls).filter (fun e => decide (tree.route e.1 = tree.route row))).map Prod.snd) := by
    intro rows
    induction rows with
    | nil => intro _ _ _; rfl
    | cons r rows ih =>
      intro labels ls h
      cases labels with
      | nil =>
        cases ls with
        | nil => rfl
        | cons _ _ => simp [lift] at h
      | cons l labels =>
        cases ls with
        | nil => simp [lift] at h
        | cons l' ls =>
          rw [List.map_cons, lift, List.map_cons] at h
          injection h with h1 h2
          have := ih labels ls h2
          rw [List.zip_cons_cons, List.zip_cons_cons, List.filter_cons, List.filter_cons]
          by_cases hr : tree.route r = tree.route row
          · simp only [hr, decide_true, if_true, List.map_cons, lift]
            rw [h1]
            exact congrArg _ this
          · simp only [hr, decide_false, Bool.false_eq_true, if_false]
            exact this
  exact key _ _ _ hls

theorem mse_rows {α : Type} {t : ℕ} (rows : List α) {ls : List (List ℚ)} (hlw : ∀ l ∈ ls, l.length = t) (f : α → List ℚ)
    (hf : ∀ row, (f row).length = t) :
    mseOf (rows.map f) ls = ((rows.zip ls).map (fun e =>
      ((List.range t).map (fun j => ((f e.1).getD j 0 - e.2.getD j 0) ^ 2)).sum)).sum / t / rows.length := by
  rw [mseOf, List.length_map]
  congr 1
  rw [div_eq_mul_inv, ← List.sum_map_mul_right, List.zipWith_map_left, ← List.map_uncurry_zip_eq_zipWith]
  congr 1
  apply List.map_congr_left
  intro e he
  simp only [Function.uncurry]
  rw [sqErr_eq (hf _) (hlw _ (List.of_mem_zip (show (e.1, e.2) ∈ _ from he)).2), div_eq_mul_inv]

/-- the score of a tree on its own training set, against the exact error of the exact means of the leaves -/
theorem own_score {d : DataSet B64} {c t : ℕ} (h : d.WF c t) (ht1 : 1 ≤ t) (ht2 : t ≤ 2 ^ 24) {ls : List (List ℚ)} {B : ℚ}
    (hls : d.exact.labels = lift ls) (hS : Scale ls.length B) (hB : AtMost B ls) (cfg : TreeConfig) (ht : cfg.numberOfClasses = t) :
    ∃ a v, regressionTreeNew d cfg = .ok (treeOf regLeaf c t cfg.maxLevels d) ∧
      calculateOverallMse d (treeOf regLeaf c t cfg.maxLevels d) = .ok a ∧ a.val = .fin v ∧
      |v - ((d.featureRows.zip ls).map (fun e => ((List.range t).map (fun j =>
        ((meanVec t (((d.featureRows.zip ls).filter (fun b => decide ((treeOf regLeaf c t cfg.maxLevels d).route b.1 =
          (treeOf regLeaf c t cfg.maxLevels d).route e.1))).map Prod.snd)).getD j 0 - e.2.getD j 0) ^ 2)).sum)).sum / t / ls.length|
        ≤ treeScoreTolerance ls.length ls.length t B := by
  have hlen : ls.length = d.labels.length := by
    have := congrArg List.length hls
    rw [lift_length] at this
    rw [← this, DataSet.exact, List.length_map]
  have hll : d.featureRows.length = ls.length := by rw [hlen, h.label_count]
  have hlw : ∀ l ∈ ls, l.length = t := by
    refine lift_width hls ?_
    intro l hl
    simp only [DataSet.exact, List.mem_map] at hl
    obtain ⟨l', hl', rfl⟩ := hl
    rw [List.length_map]
    exact h.label_len _ hl'
  have hne : ls ≠ [] := by
    intro h0
    rw [h0, List.length_nil] at hll
    exact h.rows_ne (List.eq_nil_of_length_eq_zero hll)
  have hb := regressionTreeNew_ok h ht
  obtain ⟨a, v, P, h1, h2, h3, h4⟩ := C69_tree_score d c t h cfg ht ht1 ht2 ls B hls hS hB _ hb d ls
    (fun row hr => (h.row_len row hr).ge) hls hne hll hlw hS.rows hB
  refine ⟨a, v, hb, h1, h2, ?_⟩
  have hP : ∀ (rows : List (List B64)) (P : List (List ℚ)), List.Forall₂ (fun row p => ∃ ls',
      (companions d (treeOf regLeaf c t cfg.maxLevels d) row).map (List.map B64.val) = lift ls' ∧ p = meanVec t ls') rows P →
      P = rows.map (fun row => meanVec t (exactMates d (treeOf regLeaf c t cfg.maxLevels d) ls row)) := by
    intro rows P h3
    induction h3 with
    | nil => rfl
    | cons hp _ ih =>
      obtain ⟨ls', k1, rfl⟩ := hp
      rw [companions_exact hls] at k1
      rw [List.map_cons, ← ih, lift_inj k1]
  rw [hP _ _ h3, mse_rows _ hlw _ (fun _ => meanVec_length _ _), hll] at h4
  exact h4

/-- **C93**.  Allowing more levels never increases the score on the training set by more than the rounding errors of two scores. -/
theorem C93_more_levels (d : DataSet B64) (c t : ℕ) (h : d.WF c t) (ht1 : 1 ≤ t) (ht2 : t ≤ 2 ^ 24) (ls : List (List ℚ)) (B : ℚ)
    (hls : d.exact.labels = lift ls) (hS : Scale ls.length B) (hB : AtMost B ls) (cfg cfg' : TreeConfig) (ht : cfg.numberOfClasses = t)
    (ht' : cfg'.numberOfClasses = t) (hle : cfg.maxLevels ≤ cfg'.maxLevels) :
    ∃ tree tree' a a' v v', regressionTreeNew d cfg = .ok tree ∧ regressionTreeNew d cfg' = .ok tree' ∧
      calculateOverallMse d tree = .ok a ∧ calculateOverallMse d tree' = .ok a' ∧ a.val = .fin v ∧ a'.val = .fin v' ∧
      v' ≤ v + 2 * treeScoreTolerance ls.length ls.length t B := by
  obtain ⟨a, v, h1, h2, h3, h4⟩ := own_score h ht1 ht2 hls hS hB cfg ht
  obtain ⟨a', v', h1', h2', h3', h4'⟩ := own_score h ht1 ht2 hls hS hB cfg' ht'
  refine ⟨_, _, a, a', v, v', h1, h1', h2, h2', h3, h3', ?_⟩
  have hfin := finer_le (t := t) (fun row => (treeOf regLeaf c t cfg.maxLevels d).route row)
    (fun row => (treeOf regLeaf c t cfg'.maxLevels d).route row) (by
      intro a b hab
      obtain ⟨k, hk⟩ := Nat.exists_eq_add_of_le hle
      rw [hk] at hab
      simp only [route_take _ k cfg.maxLevels d, hab]) (d.featureRows.zip ls)
  have hdiv := div_le_div_of_nonneg_right (div_le_div_of_nonneg_right hfin (Nat.cast_nonneg (α := ℚ) t))
    (Nat.cast_nonneg (α := ℚ) ls.length)
  have := abs_le.mp h4
  have := abs_le.mp h4'
  linarith

/-- **C93**.  On its own training set the score of a tree of any depth is at most the mean over the targets of the variance of the
labels, up to the rounding errors of the score. -/
theorem C93_training_error (d : DataSet B64) (c t : ℕ) (h : d.WF c t) (ht1 : 1 ≤ t) (ht2 : t ≤ 2 ^ 24) (ls : List (List ℚ)) (B : ℚ)
    (hls : d.exact.labels = lift ls) (hS : Scale ls.length B) (hB : AtMost B ls) (cfg : TreeConfig) (ht : cfg.numberOfClasses = t) :
    ∃ tree a v, regressionTreeNew d cfg = .ok tree ∧ calculateOverallMse d tree = .ok a ∧ a.val = .fin v ∧
      v ≤ totalVar t ls / t + treeScoreTolerance ls.length ls.length t B := by
  obtain ⟨a, v, h1, h2, h3, h4⟩ := own_score h ht1 ht2 hls hS hB cfg ht
  refine ⟨_, a, v, h1, h2, h3, ?_⟩
  have hlen : ls.length = d.labels.length := by
    have := congrArg List.length hls
    rw [lift_length] at this
    rw [← this, DataSet.exact, List.length_map]
  have hll : ls.length = d.featureRows.length := by rw [hlen, h.label_count]
  have htp : (0 : ℚ) < t := by exact_mod_cast ht1
  have hnp : (0 : ℚ) < ls.length := by rw [hll]; exact_mod_cast List.length_pos_of_ne_nil h.rows_ne
  have hfin := finer_le (t := t) (fun _ => ()) (fun row => (treeOf regLeaf c t cfg.maxLevels d).route row) (fun _ _ _ => rfl)
    (d.featureRows.zip ls)
  have heq : ((d.featureRows.zip ls).map (fun e => ((List.range t).map (fun j =>
      ((meanVec t (((d.featureRows.zip ls).filter (fun b => decide ((fun _ => ()) b.1 = (fun _ => ()) e.1))).map Prod.snd)).getD j 0 -
        e.2.getD j 0) ^ 2)).sum)).sum = totalVar t ls * ls.length := by
    simp only [decide_true, List.filter_true]
    rw [sum_range_swap, totalVar, ← List.sum_map_mul_right]
    congr 1
    apply List.map_congr_left
    intro j hj
    rw [List.mem_range] at hj
    simp only [meanVec, getD_range hj]
    rw [List.map_snd_zip (by omega)]
    have h1 := length_mul_varOf (target ls j)
    rw [target_length] at h1
    rw [mul_comm, h1, sqDev]
    have h2 : target ls j = (d.featureRows.zip ls).map (fun e => e.2.getD j 0) := by
      rw [target]
      conv_lhs => rw [← List.map_snd_zip (l₁ := d.featureRows) (l₂ := ls) (by omega)]
      rw [List.map_map]
      rfl
    conv_rhs => rw [h2]
    rw [List.map_map]
    congr 1
    apply List.map_congr_left
    intro e _
    simp only [Function.comp]
    rw [← h2]
    ring
  rw [heq] at hfin
  have hdiv := div_le_div_of_nonneg_right (div_le_div_of_nonneg_right hfin htp.le) hnp.le
  have hq : totalVar t ls * (ls.length : ℚ) / t / ls.length = totalVar t ls / t := by
    rw [mul_div_right_comm, mul_div_assoc, div_self hnp.ne', mul_one]
  rw [hq] at hdiv
  have := abs_le.mp h4
  linarith

end

/-- The tolerance is needed: with four labels 0.1 the tree without a question scores 0, and the tree with one question, whose leaf for
three rows averages to 0.10000000000000002, scores more. -/
theorem C93_violated_without_tolerance : ∀ negZero : Bool, let _ := env negZero
    (do
      let t0 ← regressionTreeNew tenth4 { useMultiThreading := false, numberOfClasses := 1, maxLevels := 0 }
      let t1 ← regressionTreeNew tenth4 { useMultiThreading := false, numberOfClasses := 1, maxLevels := 1 }
      let a ← calculateOverallMse tenth4 t0
      let b ← calculateOverallMse tenth4 t1
      pure (a ==. F64.zero, a <. b)) = .ok (true, true) := by
  decide +kernel

-- the hypotheses hold for this table, and the rounding errors allowed for a score of it are tiny
example : ∀ negZero : Bool, let _ := env negZero
    tenth4.WF 1 1 := by
  intro negZero
  dsimp only
  refine @DataSet.WF.mk _ (@instF64B64OfB64Env (env negZero)) _ _ _ ?_ ?_ ?_ ?_ ?_ ?_ ?_ <;> revert negZero <;> decide +kernel

example : tenth4.exact.labels = lift (List.replicate 4 [3602879701896397 / 36028797018963968]) ∧
    Scale 4 1 ∧ AtMost 1 (List.replicate 4 [3602879701896397 / 36028797018963968]) ∧ treeScoreTolerance 4 4 1 1 = 13 / 2 ^ 46 := by
  refine ⟨by decide +kernel, ⟨by norm_num, by decide +kernel, by decide +kernel⟩, ?_, by norm_num [treeScoreTolerance]⟩
  intro v hv x hx
  rw [List.eq_of_mem_replicate hv, List.mem_singleton] at hx
  rw [hx]
  norm_num

end Verif
