import Verif.Spec.Weights
import Verif.Lemmas.Noise
import Verif.Props.ExactBoost
/-!
# C110: predictions of regression learners are weighted sums of the training labels

In exact arithmetic.  The weights depend on the questions alone, not on the labels.
-/

set_option linter.unusedSectionVars false

namespace Verif

variable {K : Type} [Field K] [LinearOrder K] [IsStrictOrderedRing K] [FloorSemiring K] [HasExp K]

open Sample

theorem getD_at {α : Type} (l : List α) (a : α) {i : Nat} (h : i < l.length) : l.getD i a = l[i] := by simp [h]

section weights
variable {F : Type} [F64 F] {L : Type}

theorem sum_indicator (N k : Nat) (hk : k < N) (l : Nat → K) :
    ((List.range N).map (fun i => (if k = i then 1 else 0) * l i)).sum = l k := by
  induction N with
  | zero => omega
  | succ N ih =>
    rw [List.range_succ, List.map_append, List.sum_append, List.map_singleton, List.sum_singleton]
    by_cases h : k = N
    · subst h
      have : ((List.range k).map (fun i => (if k = i then 1 else 0) * l i)) = (List.range k).map (fun _ => (0 : K)) := by
        apply List.map_congr_left
        intro i hi
        rw [if_neg (by have := List.mem_range.mp hi; omega), zero_mul]
      rw [this]
      simp
    · rw [ih (by omega), if_neg h]
      ring

/-- one more tree, for any quantity `l` of the training rows -/
theorem weight_sum_step (rows : List (List F)) (lr : K) (tree : TreeNode F L) (earlier : List (TreeNode F L)) (row : List F) (l : Nat → K) :
    ((List.range rows.length).map (fun i => weight rows lr (tree :: earlier) row i * l i)).sum =
      ((List.range rows.length).map (fun i => weight rows lr earlier row i * l i)).sum +
      lr * meanOf ((inLeaf rows tree row).map (fun k =>
        l k - ((List.range rows.length).map (fun i => weight rows lr earlier (rows.getD k []) i * l i)).sum)) := by
  have hk : ∀ k ∈ inLeaf rows tree row, k < rows.length := fun k hk => List.mem_range.mp (List.mem_filter.mp hk).1
  have h1 : ∀ k ∈ inLeaf rows tree row, l k - ((List.range rows.length).map (fun i => weight rows lr earlier (rows.getD k []) i * l i)).sum =
      ((List.range rows.length).map (fun i => ((if k = i then 1 else 0) - weight rows lr earlier (rows.getD k []) i) * l i)).sum := by
    intro k hk'
    rw [← sum_indicator rows.length k (hk k hk') l]
    have : ∀ (xs : List Nat) (a b : Nat → K), (xs.map a).sum - (xs.map b).sum = (xs.map (fun i => a i - b i)).sum := by
      intro xs a b
      induction xs with
      | nil => simp
      | cons x xs ih => simp only [List.map_cons, List.sum_cons, ← ih]; ring
    rw [this]
    congr 1
    apply List.map_congr_left
    intro i _
    ring
  rw [List.map_congr_left h1]
  have h2 : meanOf ((inLeaf rows tree row).map (fun k =>
      ((List.range rows.length).map (fun i => ((if k = i then 1 else 0) - weight rows lr earlier (rows.getD k []) i) * l i)).sum)) =
      ((List.range rows.length).map (fun i => meanOf ((inLeaf rows tree row).map (fun k =>
        (if k = i then 1 else 0) - weight rows lr earlier (rows.getD k []) i)) * l i)).sum := by
    rw [meanOf, sum_range_swap, div_eq_mul_inv, ← List.sum_map_mul_right]
    congr 1
    apply List.map_congr_left
    intro i _
    rw [meanOf, List.length_map, List.length_map, List.sum_map_mul_right]
    ring
  rw [h2, ← List.sum_map_mul_left, ← List.sum_map_add]
  congr 1
  apply List.map_congr_left
  intro i _
  rw [weight]
  ring

/-- the weights add up to one -/
theorem weight_total (rows : List (List F)) (hne : rows ≠ []) (lr : K) (trees : List (TreeNode F L)) (row : List F) :
    ((List.range rows.length).map (fun i => weight rows lr trees row i)).sum = 1 := by
  induction trees generalizing row with
  | nil =>
    have := length_cast_ne (K := K) hne
    simp only [weight, List.map_const', List.sum_replicate, List.length_range, nsmul_eq_mul]
    field_simp
  | cons tree earlier ih =>
    have h := weight_sum_step rows lr tree earlier row (fun _ => 1)
    simp only [mul_one, ih, sub_self] at h
    rw [h]
    simp [meanOf]

/-- the weights are a matter of the ways of the rows -/
theorem weight_congr {L' : Type} (rows : List (List F)) (lr : K) {trees : List (TreeNode F L)} {trees' : List (TreeNode F L')}
    (h : List.Forall₂ (fun tree tree' => ∀ row, TreeNode.route row tree' = TreeNode.route row tree) trees trees') (row : List F) (i : Nat) :
    weight rows lr trees' row i = weight rows lr trees row i := by
  induction h generalizing row with
  | nil => rfl
  | @cons tree tree' _ _ hx _ ih =>
    have : inLeaf rows tree' row = inLeaf rows tree row := by simp only [inLeaf, hx]
    simp only [weight, this, ih]

end weights

section loop
variable {d : DataSet (Ext K)} {c t : Nat} {ls : List (List K)} {cfg : TreeConfig} {lr : K}

theorem weightedLabels_length {t : Nat} {w : Nat → K} {ls : List (List K)} : (weightedLabels t w ls).length = t := by simp [weightedLabels]

theorem weightedLabels_getD {t : Nat} {w : Nat → K} {ls : List (List K)} {j : Nat} (hj : j < t) :
    (weightedLabels t w ls).getD j 0 = ((List.range ls.length).map (fun i => w i * (ls.getD i []).getD j 0)).sum := by
  rw [weightedLabels, getD_range hj]

theorem filter_zip_range {α β : Type} (p : α → Bool) (a0 : α) (b0 : β) (xs : List α) (ys : List β) (h : xs.length = ys.length) :
    ((xs.zip ys).filter (fun e => p e.1)).map Prod.snd =
      ((List.range xs.length).filter (fun k => p (xs.getD k a0))).map (fun k => ys.getD k b0) := by
  induction xs generalizing ys with
  | nil => simp
  | cons x xs ih =>
    cases ys with
    | nil => simp at h
    | cons y ys =>
      have h' : xs.length = ys.length := by simpa using h
      rw [List.zip_cons_cons, List.length_cons, List.range_succ_eq_map, List.filter_cons, List.filter_cons, List.filter_map]
      have ih := ih ys h'
      by_cases hp : p x
      · simp only [hp, if_true, List.map_cons, ih, List.getD_cons_zero, List.map_map]
        rfl
      · simp only [hp, Bool.false_eq_true, if_false, ih, List.getD_cons_zero, List.map_map]
        rfl

theorem mates_inLeaf {L : Type} (tree : TreeNode (Ext K) L) (rows : List (List (Ext K))) (vs : List (List K)) (hl : rows.length = vs.length)
    (row : List (Ext K)) : mates tree (rows.zip vs) row = (inLeaf rows tree row).map (fun k => vs.getD k []) :=
  filter_zip_range (fun r => decide (tree.route r = tree.route row)) [] [] rows vs hl

/-- what the model predicts is what the weights say -/
def WeightedBy (d : DataSet (Ext K)) (c t : Nat) (ls : List (List K)) (lr : K) (trees : List (TreeNode (Ext K) (GradBoostLeaf (Ext K)))) : Prop :=
  ∀ row : List (Ext K), c ≤ row.length → rawScore gradOut (liftV (meanVec t ls)) (.fin lr) trees row =
    .ok (liftV (weightedLabels t (weight d.featureRows lr trees.reverse row) ls))

theorem weighted_start (h : d.WF c t) (hls : d.labels = lift ls) : WeightedBy d c t ls lr [] := by
  intro row _
  have hll : ls.length = d.featureRows.length := by rw [← h.label_count, hls, lift_length]
  have h0 := rawScore_exact (out := gradOut) (lr := lr) (row := row) (meanVec_length t ls) (List.Forall₂.nil (R := fun tree o => gradOut row tree = .ok (liftV o) ∧ o.length = t))
  rw [h0]
  congr 2
  apply List.map_congr_left
  intro j hj
  have hj := List.mem_range.mp hj
  rw [meanVec, getD_range hj, List.map_nil, List.sum_nil, mul_zero, add_zero, meanOf, target_length]
  simp only [List.reverse_nil, weight, hll]
  rw [List.sum_map_mul_left, one_div, div_eq_inv_mul]
  congr 2
  rw [target]
  apply List.ext_getElem (by simp [hll])
  intro i h1 h2
  simp at h1
  simp [h1]

theorem weighted_step' (h : d.WF c t) (hls : d.labels = lift ls)
    {s : TrainingData (Ext K) × List (TreeNode (Ext K) (GradBoostLeaf (Ext K)))} {ps : List (List K)} (hs : RegState d c t ls cfg lr s ps)
    (hw : WeightedBy d c t ls lr s.2) : WeightedBy d c t ls lr (s.2 ++ [residTree c t cfg.maxLevels d (resid ls ps)]) := by
  intro row hrow
  have hll : ls.length = d.featureRows.length := by rw [← h.label_count, hls, lift_length]
  have hlw := lift_width hls h.label_len
  have hpl : ps.length = ls.length := by rw [hs.finite.len, hls, lift_length]
  have hrw := resid_wf h hls hs.finite.len hs.finite.width
  have ho := gradOut_regression_exact cfg.maxLevels hrw (ls := resid ls ps) rfl hrow
  rw [rawScore_snoc (hw row hrow) ho (by rw [liftV_length, liftV_length, weightedLabels_length, meanVec_length])]
  have hps : ∀ k < ls.length, ps.getD k [] = weightedLabels t (weight d.featureRows lr s.2.reverse (d.featureRows.getD k [])) ls := by
    intro k hk
    have hkr : k < d.featureRows.length := by omega
    have hkp : k < ps.length := by omega
    have hr : d.featureRows[k]? = some d.featureRows[k] := List.getElem?_eq_getElem hkr
    have h1 := hs.finite.tracks.score k d.featureRows[k] (liftV ps[k]) hr (by rw [hs.finite.labels, lift, List.getElem?_map, List.getElem?_eq_getElem hkp]; rfl)
    have h2 := hw d.featureRows[k] (by rw [h.row_len _ (List.getElem_mem hkr)])
    rw [h1] at h2
    rw [getD_at _ _ hkr, getD_at _ _ hkp]
    exact liftV_injective (Except.ok.inj h2)
  rw [liftV_map_mul, liftV_zip_add]
  congr 2
  apply List.ext_getElem (by simp [weightedLabels_length, meanVec_length])
  intro j h1 h2
  have hj : j < t := by rwa [weightedLabels_length] at h2
  simp only [List.getElem_zipWith, List.getElem_map]
  have e1 := weightedLabels_getD (w := weight d.featureRows lr s.2.reverse row) (ls := ls) hj
  have e2 := weightedLabels_getD (w := weight d.featureRows lr (s.2 ++ [residTree c t cfg.maxLevels d (resid ls ps)]).reverse row) (ls := ls) hj
  rw [getD_at _ _ (by rw [weightedLabels_length]; exact hj)] at e1 e2
  rw [e1, e2, List.reverse_append, List.reverse_singleton, List.singleton_append, hll, weight_sum_step, ← hll]
  congr 2
  have e3 : ∀ vs : List (List K), (meanVec t vs)[j]'(by rw [meanVec_length]; exact hj) = meanOf (target vs j) := by
    intro vs
    simp [meanVec]
  rw [e3, mates_inLeaf _ _ _ (by rw [resid_length hpl, hll]), target, List.map_map]
  congr 1
  apply List.map_congr_left
  intro k hk
  have hk : k < ls.length := by rw [hll]; exact List.mem_range.mp (List.mem_filter.mp hk).1
  have hkp : k < ps.length := by omega
  rw [← weightedLabels_getD hj, ← hps k hk, Function.comp_apply, getD_at (resid ls ps) _ (by rw [resid_length hpl]; exact hk)]
  simp only [resid, List.getElem_zipWith]
  rw [zipWith_getD (hlw _ (List.getElem_mem hk)) (hs.finite.width _ (List.getElem_mem hkp)) 0 0, getD_range hj, getD_at _ _ hk,
    getD_at _ _ hkp]

theorem weighted_loop (h : d.WF c t) (hls : d.labels = lift ls) (hc : cfg.numberOfClasses = t) (n : Nat) :
    ∃ s ps, regLoopAt d cfg lr (liftV (meanVec t ls)) n = .ok s ∧ RegState d c t ls cfg lr s ps ∧ WeightedBy d c t ls lr s.2 := by
  induction n with
  | zero => exact ⟨_, _, rfl, regState_start h hls, weighted_start h hls⟩
  | succ n ih =>
    obtain ⟨s, ps, h1, h2, h3⟩ := ih
    obtain ⟨s', ps', h4, h5, _⟩ := regState_step h hls hc h2
    obtain ⟨_, h6⟩ := regression_step_exact h hls hc (by rw [liftV_length, meanVec_length]) h2.finite h4
    exact ⟨s', ps', by rw [regLoopAt] at h1 ⊢; rw [boostLoop_succ, h1]; exact h4, h5, by rw [h6]; exact weighted_step' h hls h2 h3⟩

end loop

/-- the trained model with what is known about it -/
theorem trained_weights {d : DataSet (Ext K)} {c t : Nat} (h : d.WF c t) {ls : List (List K)} (hls : d.labels = lift ls) {cfg : TreeConfig}
    (hc : cfg.numberOfClasses = t) (n : Nat) (lr : K) :
    ∃ m, regressionTrain d cfg n (.fin lr) = .ok m ∧ (∀ tree ∈ m.trees, tree.Proper ∧ ∀ row : List (Ext K), c ≤ row.length →
        inLeaf d.featureRows tree row ≠ []) ∧
      ∀ row : List (Ext K), c ≤ row.length →
        regressionPredict m row = .ok (liftV (weightedLabels t (weight d.featureRows lr m.trees.reverse row) ls)) := by
  obtain ⟨s, ps, h1, h2, h3⟩ := weighted_loop (lr := lr) h hls hc n
  refine ⟨_, regressionTrain_of_loop h hls h1, ?_, ?_⟩
  · intro tree htree
    obtain ⟨rs, hw, rfl⟩ := h2.trees tree htree
    refine ⟨treeOf_proper _ _, fun row hrow => ?_⟩
    obtain ⟨dd, hdw, _, he⟩ := gradOut_ok .regression cfg.maxLevels hw hrow
    obtain ⟨_, h5, _⟩ := mates_ok (ls := rs) rfl hdw he
    rw [mates_inLeaf _ _ _ (by have := hw.label_count; simp only [lift_length] at this; exact this.symm)] at h5
    intro h0
    rw [h0] at h5
    exact h5 rfl
  · intro row hrow
    rw [regressionPredict, predictInstance_eq]
    exact h3 row hrow

/-- **C110**.  Every prediction of a regression ensemble is a weighted sum of the training labels.  The weights are those of the specification, the
same for all targets, and add up to one. -/
theorem C110_weights (d : DataSet (Ext K)) (c t : Nat) (h : d.WF c t) (ls : List (List K)) (hls : d.labels = lift ls) (cfg : TreeConfig)
    (hc : cfg.numberOfClasses = t) (n : Nat) (lr : K) :
    ∃ m, regressionTrain d cfg n (.fin lr) = .ok m ∧ ∀ row : List (Ext K), c ≤ row.length →
      regressionPredict m row = .ok (liftV (weightedLabels t (weight d.featureRows lr m.trees.reverse row) ls)) ∧
      ((List.range d.featureRows.length).map (weight d.featureRows lr m.trees.reverse row)).sum = 1 := by
  obtain ⟨m, h1, _, h2⟩ := trained_weights h hls hc n lr
  exact ⟨m, h1, fun row hrow => ⟨h2 row hrow, weight_total _ h.rows_ne _ _ _⟩⟩

/-- **C110**.  The labels matter to the weights only through the questions: if ensembles that were trained on the same rows with other labels, even for
another number of targets, ask the same questions, the weights of the one give the predictions of the other. -/
theorem C110_same_questions (d d' : DataSet (Ext K)) (c t t' : Nat) (h : d.WF c t) (h' : d'.WF c t') (hrows : d'.featureRows = d.featureRows)
    (ls ls' : List (List K)) (hls : d.labels = lift ls) (hls' : d'.labels = lift ls') (cfg cfg' : TreeConfig) (hc : cfg.numberOfClasses = t)
    (hc' : cfg'.numberOfClasses = t') (n n' : Nat) (lr : K) (m m' : BoostModel (Ext K) (GradBoostLeaf (Ext K)))
    (hm : regressionTrain d cfg n (.fin lr) = .ok m) (hm' : regressionTrain d' cfg' n' (.fin lr) = .ok m')
    (hq : AlikeTrees m.trees m'.trees) :
    (∀ row i, weight d.featureRows lr m'.trees.reverse row i = weight d.featureRows lr m.trees.reverse row i) ∧
    ∀ row : List (Ext K), c ≤ row.length →
      regressionPredict m' row = .ok (liftV (weightedLabels t' (weight d.featureRows lr m.trees.reverse row) ls')) := by
  obtain ⟨m1, h1, h2, _⟩ := trained_weights h hls hc n lr
  obtain ⟨m2, h1', h2', h3'⟩ := trained_weights h' hls' hc' n' lr
  rw [hm] at h1
  rw [hm'] at h1'
  rw [← Except.ok.inj h1] at h2
  rw [← Except.ok.inj h1'] at h2' h3'
  have hroute : List.Forall₂ (fun tree tree' => ∀ row, TreeNode.route row tree' = TreeNode.route row tree) m.trees m'.trees := by
    rw [AlikeTrees] at hq
    generalize m.trees = ts at hq h2
    generalize m'.trees = ts' at hq h2'
    induction hq with
    | nil => exact .nil
    | @cons a b _ _ hx _ ih =>
      exact .cons (fun row => route_of_questions (h2 a (by simp)).1 (h2' b (by simp)).1 hx row)
        (ih (fun x hx => h2 x (by simp [hx])) (fun x hx => h2' x (by simp [hx])))
  have hw : ∀ row i, weight d.featureRows lr m'.trees.reverse row i = weight d.featureRows lr m.trees.reverse row i := by
    intro row i
    apply weight_congr
    exact List.rel_reverse hroute
  refine ⟨hw, fun row hrow => ?_⟩
  rw [h3' row hrow, hrows]
  congr 3
  funext i
  exact hw row i

/-- **C110** (influence of one label).  Give the `k`-th training row the label `l'` instead of `l`.  If the questions stay the same, every prediction
moves by the weight of this row times the difference of the labels. -/
theorem C110_one_label (d : DataSet (Ext K)) (c t : Nat) (h : d.WF c t) (ls : List (List K)) (hls : d.labels = lift ls)
    (k : Nat) (l l' : List K) (hk : ls[k]? = some l) (hl' : l'.length = t) (cfg : TreeConfig) (hc : cfg.numberOfClasses = t)
    (n : Nat) (lr : K) (m m' : BoostModel (Ext K) (GradBoostLeaf (Ext K))) (hm : regressionTrain d cfg n (.fin lr) = .ok m)
    (hm' : regressionTrain { d with labels := lift (ls.set k l') } cfg n (.fin lr) = .ok m') (hq : AlikeTrees m.trees m'.trees)
    (row : List (Ext K)) (hrow : c ≤ row.length) :
    ∃ v v' : List K, regressionPredict m row = .ok (liftV v) ∧ regressionPredict m' row = .ok (liftV v') ∧ v.length = t ∧ v'.length = t ∧
      ∀ j < t, v'.getD j 0 - v.getD j 0 = weight d.featureRows lr m.trees.reverse row k * (l'.getD j 0 - l.getD j 0) := by
  have hlw := lift_width hls h.label_len
  have hlen : ls.length = d.featureRows.length := by rw [← h.label_count, hls, lift_length]
  have hwf : ({ d with labels := lift (ls.set k l') } : DataSet (Ext K)).WF c t := by
    refine h.relabel (by rw [lift_length, List.length_set, hls, lift_length]) ?_
    intro v hv
    obtain ⟨u, hu, rfl⟩ := mem_lift.mp hv
    rw [liftV_length]
    rcases List.mem_or_eq_of_mem_set hu with hu | rfl
    · exact hlw u hu
    · exact hl'
  obtain ⟨_, h1⟩ := C110_same_questions d _ c t t h hwf rfl ls (ls.set k l') hls rfl cfg cfg hc hc n n lr m m' hm hm' hq
  obtain ⟨m1, h2, _, h3⟩ := trained_weights h hls hc n lr
  rw [hm] at h2
  rw [← Except.ok.inj h2] at h3
  refine ⟨_, _, h3 row hrow, h1 row hrow, weightedLabels_length, weightedLabels_length, fun j hj => ?_⟩
  have hkl : k < ls.length := (List.getElem?_eq_some_iff.mp hk).1
  rw [weightedLabels_getD hj, weightedLabels_getD hj, List.length_set,
    ← sum_indicator ls.length k hkl (fun i => weight d.featureRows lr m.trees.reverse row i * (l'.getD j 0 - l.getD j 0))]
  have hsub : ∀ (xs : List Nat) (a b : Nat → K), (xs.map a).sum - (xs.map b).sum = (xs.map (fun i => a i - b i)).sum := by
    intro xs a b
    induction xs with
    | nil => simp
    | cons x xs ih => simp only [List.map_cons, List.sum_cons, ← ih]; ring
  rw [hsub]
  congr 1
  apply List.map_congr_left
  intro i _
  by_cases hik : k = i
  · subst hik
    rw [if_pos rfl]
    simp only [List.getD_eq_getElem?_getD, List.getElem?_set_self hkl, hk, Option.getD_some]
    ring
  · rw [if_neg hik]
    simp only [List.getD_eq_getElem?_getD, List.getElem?_set_ne hik]
    ring

/-- **C110** (superposition).  If three ensembles ask the same questions and the labels of the third are `a` times the labels of the first plus `b` times
those of the second, its predictions are combined in the same way. -/
theorem C110_superposition (d : DataSet (Ext K)) (c t : Nat) (h : d.WF c t) (ls ls' : List (List K)) (hls : d.labels = lift ls)
    (hlen : ls'.length = ls.length) (hw' : ∀ l ∈ ls', l.length = t) (a b : K) (cfg : TreeConfig) (hc : cfg.numberOfClasses = t)
    (n : Nat) (lr : K) (m m' m'' : BoostModel (Ext K) (GradBoostLeaf (Ext K))) (hm : regressionTrain d cfg n (.fin lr) = .ok m)
    (hm' : regressionTrain { d with labels := lift ls' } cfg n (.fin lr) = .ok m')
    (hm'' : regressionTrain { d with labels := lift (List.zipWith (List.zipWith (fun x y => a * x + b * y)) ls ls') } cfg n (.fin lr) = .ok m'')
    (hq : AlikeTrees m.trees m'.trees) (hq' : AlikeTrees m.trees m''.trees) (row : List (Ext K)) (hrow : c ≤ row.length) :
    ∃ v v' : List K, v.length = t ∧ v'.length = t ∧ regressionPredict m row = .ok (liftV v) ∧ regressionPredict m' row = .ok (liftV v') ∧
      regressionPredict m'' row = .ok (liftV (List.zipWith (fun x y => a * x + b * y) v v')) := by
  have hlw := lift_width hls h.label_len
  have hwf' : ({ d with labels := lift ls' } : DataSet (Ext K)).WF c t := by
    refine h.relabel (by rw [lift_length, hlen, hls, lift_length]) ?_
    intro v hv
    obtain ⟨u, hu, rfl⟩ := mem_lift.mp hv
    rw [liftV_length, hw' u hu]
  have hwf'' : ({ d with labels := lift (List.zipWith (List.zipWith (fun x y => a * x + b * y)) ls ls') } : DataSet (Ext K)).WF c t := by
    refine h.relabel (by rw [lift_length, List.length_zipWith, hlen, hls, lift_length, Nat.min_self]) ?_
    intro v hv
    obtain ⟨u, hu, rfl⟩ := mem_lift.mp hv
    obtain ⟨i, hi, rfl⟩ := List.getElem_of_mem hu
    rw [liftV_length, List.getElem_zipWith, List.length_zipWith, hlw _ (List.getElem_mem _), hw' _ (List.getElem_mem _), Nat.min_self]
  obtain ⟨_, h1⟩ := C110_same_questions d _ c t t h hwf' rfl ls _ hls rfl cfg cfg hc hc n n lr m m' hm hm' hq
  obtain ⟨_, h1'⟩ := C110_same_questions d _ c t t h hwf'' rfl ls _ hls rfl cfg cfg hc hc n n lr m m'' hm hm'' hq'
  obtain ⟨m1, h2, _, h3⟩ := trained_weights h hls hc n lr
  rw [hm] at h2
  rw [← Except.ok.inj h2] at h3
  refine ⟨_, _, weightedLabels_length, weightedLabels_length, h3 row hrow, h1 row hrow, ?_⟩
  rw [h1' row hrow]
  congr 2
  apply List.ext_getElem (by rw [List.length_zipWith, weightedLabels_length, weightedLabels_length, weightedLabels_length, Nat.min_self])
  intro j k1 k2
  have hj : j < t := by rwa [weightedLabels_length] at k1
  rw [List.getElem_zipWith]
  simp only [weightedLabels, List.getElem_map, List.getElem_range, List.length_zipWith, hlen, Nat.min_self]
  rw [← List.sum_map_mul_left, ← List.sum_map_mul_left, ← List.sum_map_add]
  congr 1
  apply List.map_congr_left
  intro i hi
  have hi : i < ls.length := List.mem_range.mp hi
  have hi' : i < ls'.length := by omega
  have g : (List.zipWith (List.zipWith (fun x y => a * x + b * y)) ls ls').getD i [] = List.zipWith (fun x y => a * x + b * y) ls[i] ls'[i] := by
    rw [getD_at _ _ (by rw [List.length_zipWith, hlen, Nat.min_self]; exact hi), List.getElem_zipWith]
  have e1 := hlw _ (List.getElem_mem hi)
  have e2 := hw' _ (List.getElem_mem hi')
  rw [g, getD_at _ _ hi, getD_at _ _ hi', getD_at _ _ (by rw [List.length_zipWith, e1, e2, Nat.min_self]; exact hj),
    getD_at _ _ (by rw [e1]; exact hj), getD_at _ _ (by rw [e2]; exact hj), List.getElem_zipWith]
  ring

omit [LinearOrder K] [IsStrictOrderedRing K] [FloorSemiring K] [HasExp K] in
theorem sum_missing {i : Nat} (ks : List Nat) (x : K) (hks : ks.Nodup) : (ks.map (fun k => (if k = i then (1 : K) else 0) - x)).sum =
    (if i ∈ ks then 1 else 0) - ks.length * x := by
  induction ks with
  | nil => simp
  | cons k ks ih =>
    rw [List.nodup_cons] at hks
    rw [List.map_cons, List.sum_cons, ih hks.2]
    by_cases hki : k = i
    · subst hki
      rw [if_pos rfl, if_neg hks.1, if_pos List.mem_cons_self]
      push_cast [List.length_cons]
      ring
    · rw [if_neg hki]
      have : (i ∈ k :: ks) = (i ∈ ks) := by simp [Ne.symm hki]
      simp only [this, List.length_cons]
      push_cast
      ring

/-- **C110** (one tree).  In an ensemble of a single tree, every training row has the weight `(1 - lr) / rows`, and `lr / companions` more if it shares
the leaf of the row to predict; these are not negative for learning rates between 0 and 1. -/
theorem C110_one_tree (d : DataSet (Ext K)) (c t : Nat) (h : d.WF c t) (ls : List (List K)) (hls : d.labels = lift ls) (cfg : TreeConfig)
    (hc : cfg.numberOfClasses = t) (lr : K) :
    ∃ m tree, regressionTrain d cfg 1 (.fin lr) = .ok m ∧ m.trees = [tree] ∧ ∀ row : List (Ext K), c ≤ row.length →
      inLeaf d.featureRows tree row ≠ [] ∧ ∀ i < d.featureRows.length,
        weight d.featureRows lr m.trees.reverse row i = (1 - lr) / d.featureRows.length +
          (if i ∈ inLeaf d.featureRows tree row then lr / (inLeaf d.featureRows tree row).length else 0) := by
  obtain ⟨m, h1, h2, _⟩ := trained_weights h hls hc 1 lr
  obtain ⟨m1, h3, h4, _⟩ := C34_trained d c t h ls hls cfg hc 1 lr
  rw [h1] at h3
  rw [← Except.ok.inj h3] at h4
  obtain ⟨tree, htree⟩ := List.length_eq_one_iff.mp h4
  refine ⟨m, tree, h1, htree, fun row hrow => ?_⟩
  have hne := (h2 tree (by rw [htree]; simp)).2 row hrow
  refine ⟨hne, fun i hi => ?_⟩
  rw [htree]
  simp only [List.reverse_singleton, weight]
  have hnd : (inLeaf d.featureRows tree row).Nodup := List.Nodup.filter _ List.nodup_range
  have hn := length_cast_ne (K := K) hne
  have hN := length_cast_ne (K := K) h.rows_ne
  rw [meanOf, sum_missing _ _ hnd, List.length_map]
  by_cases hin : i ∈ inLeaf d.featureRows tree row
  · rw [if_pos hin, if_pos hin]
    field_simp
    ring
  · rw [if_neg hin, if_neg hin]
    field_simp
    ring

/-- **C110** (always the same questions).  If all trees ask the same questions, the ensemble is one tree of which only a part
`1 - (1 - lr) ^ n` has been learned: the weight of a training row is this part of `1 / companions` in the leaf of the row to predict, zero in the
others, and the rest of `1 / rows`. -/
theorem C110_same_tree (d : DataSet (Ext K)) (c t : Nat) (h : d.WF c t) (ls : List (List K)) (hls : d.labels = lift ls) (cfg : TreeConfig)
    (hc : cfg.numberOfClasses = t) (n : Nat) (lr : K) (m : BoostModel (Ext K) (GradBoostLeaf (Ext K)))
    (hm : regressionTrain d cfg n (.fin lr) = .ok m) (tree : TreeNode (Ext K) (GradBoostLeaf (Ext K))) (htree : tree ∈ m.trees)
    (hq : ∀ tree' ∈ m.trees, ∀ p, tree'.questionAt p = tree.questionAt p) (row : List (Ext K)) (hrow : c ≤ row.length)
    (i : Nat) :
    inLeaf d.featureRows tree row ≠ [] ∧
    weight d.featureRows lr m.trees.reverse row i = (1 - lr) ^ n / d.featureRows.length +
      (1 - (1 - lr) ^ n) * (if i ∈ inLeaf d.featureRows tree row then 1 / ((inLeaf d.featureRows tree row).length : K) else 0) := by
  obtain ⟨m1, h1, h2, _⟩ := trained_weights h hls hc n lr
  obtain rfl : m = m1 := Except.ok.inj (hm.symm.trans h1)
  obtain ⟨m2, h3, h4, _⟩ := C34_trained d c t h ls hls cfg hc n lr
  obtain rfl : m = m2 := Except.ok.inj (hm.symm.trans h3)
  refine ⟨(h2 tree htree).2 row hrow, ?_⟩
  have hroute : ∀ tree' ∈ m.trees.reverse, ∀ r : List (Ext K), TreeNode.route r tree' = TreeNode.route r tree := by
    intro tree' ht r
    rw [List.mem_reverse] at ht
    exact route_of_questions (h2 tree htree).1 (h2 tree' ht).1 (hq tree' ht) r
  have hne : ∀ r : List (Ext K), c ≤ r.length → inLeaf d.featureRows tree r ≠ [] := (h2 tree htree).2
  rw [← h4, ← List.length_reverse]
  generalize m.trees.reverse = ts at hroute
  clear h4 h1 h3 hm h2 hq htree
  induction ts generalizing row with
  | nil => simp [weight]
  | cons a ts ih =>
    have ih := fun r (hr : c ≤ r.length) => ih r hr (fun x hx => hroute x (by simp [hx]))
    have ha : inLeaf d.featureRows a row = inLeaf d.featureRows tree row := by
      simp only [inLeaf, hroute a List.mem_cons_self]
    have hnd : (inLeaf d.featureRows tree row).Nodup := List.Nodup.filter _ List.nodup_range
    have hcong : ∀ k ∈ inLeaf d.featureRows tree row, weight d.featureRows lr ts (d.featureRows.getD k []) i = weight d.featureRows lr ts row i := by
      intro k hk
      simp only [inLeaf, List.mem_filter, List.mem_range, decide_eq_true_eq] at hk
      have hkr : c ≤ (d.featureRows.getD k []).length := by
        rw [getD_at _ _ hk.1]
        exact (h.row_len _ (List.getElem_mem _)).ge
      have hin : inLeaf d.featureRows tree (d.featureRows.getD k []) = inLeaf d.featureRows tree row := by simp only [inLeaf, hk.2]
      rw [ih _ hkr, ih _ hrow, hin]
    rw [weight, ha, List.map_congr_left (fun k hk => by rw [hcong k hk]), ih row hrow, meanOf, sum_missing _ _ hnd, List.length_map,
      List.length_cons]
    have hn := length_cast_ne (K := K) (hne row hrow)
    have hN := length_cast_ne (K := K) h.rows_ne
    split
    · field_simp
      ring
    · field_simp
      ring

/-- **C110** (regression tree).  The average label of the leaf of a row is the weighted sum with equal weights for the training rows in this leaf and
weight zero for all others. -/
theorem C110_tree (d : DataSet (Ext K)) (c t : Nat) (h : d.WF c t) (ls : List (List K)) (hls : d.labels = lift ls) (cfg : TreeConfig)
    (hc : cfg.numberOfClasses = t) :
    ∃ tree, regressionTreeNew d cfg = .ok tree ∧ ∀ row : List (Ext K), c ≤ row.length → inLeaf d.featureRows tree row ≠ [] ∧
      ∃ dd : DataSet (Ext K), findLeafNodeForData row tree = .ok { data := some dd } ∧
        calculateAverageVector dd.labels = .ok (liftV (weightedLabels t (fun i =>
          if i ∈ inLeaf d.featureRows tree row then 1 / ((inLeaf d.featureRows tree row).length : K) else 0) ls)) := by
  have hlen : d.featureRows.length = ls.length := by rw [← h.label_count, hls, lift_length]
  refine ⟨_, regressionTreeNew_ok h hc, fun row hrow => ?_⟩
  obtain ⟨dd, hw, hf, he⟩ := tree_lookup (leafOf := regLeaf) cfg.maxLevels h hrow
  obtain ⟨h1, h2, h3⟩ := mates_ok hls hw he
  have h4 := mates_inLeaf (treeOf regLeaf c t cfg.maxLevels d) d.featureRows ls hlen row
  have hne : inLeaf d.featureRows (treeOf regLeaf c t cfg.maxLevels d) row ≠ [] := by
    intro h0
    rw [h4, h0] at h2
    exact h2 rfl
  refine ⟨hne, dd, hf, ?_⟩
  have havg := avgVec_exact h3 h2
  rw [calculateAverageVector_ok hw.labels_ne hw.label_len, h1, havg]
  congr 2
  rw [meanVec, weightedLabels]
  apply List.map_congr_left
  intro j hj
  rw [h4, target, List.map_map, meanOf, List.length_map]
  have hsum : ∀ (N : Nat) (p : Nat → Bool) (y : K) (x : Nat → K), (((List.range N).filter p).map x).sum * y =
      ((List.range N).map (fun i => (if p i = true then y else 0) * x i)).sum := by
    intro N p y x
    induction N with
    | zero => simp
    | succ N ih =>
      rw [List.range_succ, List.filter_append, List.map_append, List.sum_append, add_mul, ih, List.map_append, List.sum_append]
      by_cases hp : p N = true
      · simp [hp, mul_comm]
      · simp [hp]
  rw [div_eq_mul_one_div, inLeaf, hlen]
  refine (hsum _ _ _ _).trans ?_
  congr 1
  apply List.map_congr_left
  intro i hi
  congr 1
  simp only [List.mem_filter, hi, true_and]

/-! ## Examples -/

/-- the question of a tree with a single one -/
def stump {F L : Type} : TreeNode F L → Option (Question F)
  | .mk q (some (.mk _ none none _)) (some (.mk _ none none _)) _ => some q
  | _ => none

theorem stump_questions {F L : Type} [F64 F] {a b : TreeNode F L} {q : Question F} (ha : stump a = some q) (hb : stump b = some q) (p : List Bool) :
    b.questionAt p = a.questionAt p := by
  have key : ∀ x : TreeNode F L, stump x = some q → x.questionAt p = if p = [] then some q else none := by
    intro x hx
    unfold stump at hx
    split at hx
    · cases hx
      rcases p with _ | ⟨_ | _, p⟩ <;> simp [TreeNode.questionAt]
    · cases hx
  rw [key a ha, key b hb]

namespace Sample

/-- d4 with another last label -/
def d4With (x : ℚ) : DataSet E := { d4 with labels := lift ([[0], [1], [4], [6]].set 3 [x]) }

/-- both trees of the ensemble ask whether the first feature is at least 1 -/
def asksOne (m : BoostModel E (GradBoostLeaf E)) : Bool := decide (m.trees.map stump = [some ⟨0, 1⟩, some ⟨0, 1⟩])

theorem asksOne_same {m m' : BoostModel E (GradBoostLeaf E)} (h : asksOne m = true) (h' : asksOne m' = true) : AlikeTrees m.trees m'.trees := by
  have h := of_decide_eq_true h
  have h' := of_decide_eq_true h'
  have key : ∀ (ts : List (TreeNode E (GradBoostLeaf E))), ts.map stump = [some ⟨0, 1⟩, some ⟨0, 1⟩] →
      ∃ a b, ts = [a, b] ∧ stump a = some ⟨0, 1⟩ ∧ stump b = some ⟨0, 1⟩ := by
    intro ts h
    rcases ts with _ | ⟨a, _ | ⟨b, _ | ⟨_, _⟩⟩⟩
    · simp at h
    · simp at h
    · simp only [List.map_cons, List.map_nil, List.cons.injEq, and_true] at h
      exact ⟨a, b, rfl, h⟩
    · simp at h
  obtain ⟨a, b, e, h1, h2⟩ := key _ h
  obtain ⟨a', b', e', h1', h2'⟩ := key _ h'
  rw [e, e']
  exact .cons (fun p => stump_questions h1 h1' p) (.cons (fun p => stump_questions h2 h2' p) .nil)

/-- a model found by evaluation -/
theorem trained_of {α : Type} {r : R α} {f : α → Bool} (h : (r.toOption.map f) = some true) : ∃ m, r = .ok m ∧ f m = true := by
  match r, h with
  | .ok m, h => exact ⟨m, rfl, by simpa [Except.toOption] using h⟩

-- the last label 5 instead of 6 leaves the questions, so the predictions 55/16 and 50/16 show the weight 5/16 of the last row
example : ∃ m m', regressionTrain d4 (exCfg 1) 2 (.fin (1 / 2)) = .ok m ∧ regressionTrain (d4With 5) (exCfg 1) 2 (.fin (1 / 2)) = .ok m' ∧
    AlikeTrees m.trees m'.trees ∧ weight d4.featureRows (1 / 2 : ℚ) m.trees.reverse [2, 7] 3 = 5 / 16 := by
  obtain ⟨m, h1, h2⟩ := trained_of (r := regressionTrain d4 (exCfg 1) 2 (.fin (1 / 2)))
    (f := fun m => asksOne m && decide ((regressionPredict m [2, 7]).toOption = some [.fin (55 / 16)])) (by decide +kernel)
  obtain ⟨m', h1', h2'⟩ := trained_of (r := regressionTrain (d4With 5) (exCfg 1) 2 (.fin (1 / 2)))
    (f := fun m => asksOne m && decide ((regressionPredict m [2, 7]).toOption = some [.fin (50 / 16)])) (by decide +kernel)
  simp only [Bool.and_eq_true, decide_eq_true_eq] at h2 h2'
  have hq := asksOne_same h2.1 h2'.1
  refine ⟨m, m', h1, h1', hq, ?_⟩
  obtain ⟨v, v', e1, e2, _, _, e3⟩ := C110_one_label d4 2 1 d4_wf [[0], [1], [4], [6]] (by decide +kernel) 3 [6] [5] rfl rfl (exCfg 1) rfl 2 (1 / 2)
    m m' h1 h1' hq [2, 7] (by decide)
  have k1 := h2.2
  have k2 := h2'.2
  rw [e1] at k1
  rw [e2] at k2
  have k1 : v = [55 / 16] := liftV_injective (Option.some.inj k1)
  have k2 : v' = [50 / 16] := liftV_injective (Option.some.inj k2)
  have := e3 0 (by decide)
  rw [k1, k2] at this
  norm_num at this
  linarith

-- with the last label 8 the second tree asks something else: the hypothesis on the questions matters
example : ((regressionTrain (d4With 8) (exCfg 1) 2 (.fin (1 / 2))).toOption.map asksOne) = some false := by decide +kernel

-- 11/2 is half of 5 and half of 6, so the predictions are averaged too
example : ∃ m m' m'', regressionTrain d4 (exCfg 1) 2 (.fin (1 / 2)) = .ok m ∧ regressionTrain (d4With 5) (exCfg 1) 2 (.fin (1 / 2)) = .ok m' ∧
    regressionTrain (d4With (11 / 2)) (exCfg 1) 2 (.fin (1 / 2)) = .ok m'' ∧ ∀ row : List E, 2 ≤ row.length → ∃ v v' : List ℚ,
      v.length = 1 ∧ v'.length = 1 ∧ regressionPredict m row = .ok (liftV v) ∧ regressionPredict m' row = .ok (liftV v') ∧
      regressionPredict m'' row = .ok (liftV (List.zipWith (fun x y => 1 / 2 * x + 1 / 2 * y) v v')) := by
  obtain ⟨m, h1, h2⟩ := trained_of (r := regressionTrain d4 (exCfg 1) 2 (.fin (1 / 2))) (f := asksOne) (by decide +kernel)
  obtain ⟨m', h1', h2'⟩ := trained_of (r := regressionTrain (d4With 5) (exCfg 1) 2 (.fin (1 / 2))) (f := asksOne) (by decide +kernel)
  obtain ⟨m'', h1'', h2''⟩ := trained_of (r := regressionTrain (d4With (11 / 2)) (exCfg 1) 2 (.fin (1 / 2))) (f := asksOne) (by decide +kernel)
  refine ⟨m, m', m'', h1, h1', h1'', fun row hrow => ?_⟩
  have hd : ({ d4 with labels := lift (List.zipWith (List.zipWith (fun x y => 1 / 2 * x + 1 / 2 * y)) [[0], [1], [4], [6]] [[0], [1], [4], [5]]) } :
      DataSet E) = d4With (11 / 2) := by
    have : List.zipWith (List.zipWith (fun x y : ℚ => 1 / 2 * x + 1 / 2 * y)) [[0], [1], [4], [6]] [[0], [1], [4], [5]] =
      [[0], [1], [4], [11 / 2]] := by decide +kernel
    rw [this]
    rfl
  exact C110_superposition d4 2 1 d4_wf [[0], [1], [4], [6]] [[0], [1], [4], [5]] (by decide +kernel) rfl (by decide +kernel) (1 / 2) (1 / 2) (exCfg 1)
    rfl 2 (1 / 2) m m' m'' h1 h1' (by rw [hd]; exact h1'') (asksOne_same h2 h2') (asksOne_same h2 h2'') row hrow

-- two trees with the same question: a quarter of 1/4 and three quarters of 1/3 make 5/16
example : ∃ (m : _) (tree : TreeNode E (GradBoostLeaf E)), regressionTrain d4 (exCfg 1) 2 (.fin (1 / 2)) = .ok m ∧ inLeaf d4.featureRows tree [2, 7] ≠ [] ∧
    weight d4.featureRows (1 / 2 : ℚ) m.trees.reverse [2, 7] 3 = (1 - 1 / 2) ^ 2 / (4 : ℕ) +
      (1 - (1 - 1 / 2) ^ 2) * (if 3 ∈ inLeaf d4.featureRows tree [2, 7] then 1 / ((inLeaf d4.featureRows tree [2, 7]).length : ℚ) else 0) := by
  obtain ⟨m, h1, h2⟩ := trained_of (r := regressionTrain d4 (exCfg 1) 2 (.fin (1 / 2))) (f := asksOne) (by decide +kernel)
  obtain ⟨tree, htree⟩ : ∃ tree, tree ∈ m.trees := by
    cases e : m.trees with
    | nil => rw [asksOne, e] at h2; exact absurd h2 (by decide)
    | cons a _ => exact ⟨a, by simp⟩
  have hs := of_decide_eq_true h2
  have hall : ∀ x ∈ m.trees, stump x = some ⟨0, 1⟩ := by
    intro x hx
    have := List.mem_map_of_mem (f := stump) hx
    rw [hs] at this
    simpa using this
  exact ⟨m, tree, h1, C110_same_tree d4 2 1 d4_wf [[0], [1], [4], [6]] (by decide +kernel) (exCfg 1) rfl 2 (1 / 2) m h1 tree htree
    (fun x hx p => stump_questions (hall tree htree) (hall x hx) p) [2, 7] (by decide) 3⟩

-- one tree, and a regression tree
example := C110_one_tree d4 2 1 d4_wf [[0], [1], [4], [6]] (by decide +kernel) (exCfg 1) rfl (1 / 2)
example := C110_tree d4 2 1 d4_wf [[0], [1], [4], [6]] (by decide +kernel) (exCfg 1) rfl
example := C110_weights d4 2 1 d4_wf [[0], [1], [4], [6]] (by decide +kernel) (exCfg 1) rfl 5 (1 / 3)

end Sample

end Verif
