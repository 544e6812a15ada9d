import Verif.Lemmas.Repeat
import Verif.Props.ExactBoost
import Verif.Props.ExactClass
/-!
# C60: every example several times

Exact arithmetic.  Repeating every example the same number of times, copies next to each other, changes nothing.  A copy of the whole
data set appended at its end can change the result.
-/

set_option linter.unusedSectionVars false

namespace Verif

variable {K : Type} [Field K] [LinearOrder K] [IsStrictOrderedRing K] [FloorSemiring K] [HasExp K]

open Sample

/-- repeat the examples stored in a leaf -/
def RegressionLeaf.repeated {F : Type} (k : Nat) (l : RegressionLeaf F) : RegressionLeaf F := { data := l.data.map (DataSet.repeated k) }

/-- **C60** (split search).  The search finds the same question and the same gain. -/
theorem C60_split (d : DataSet (Ext K)) (c t : Nat) (h : d.WF c t) (ls : List (List K)) (hls : d.labels = lift ls) (k : Nat) (hk : 0 < k) :
    findBestSplit (d.repeated k) t = findBestSplit d t := by
  rw [findBestSplit_ok h, findBestSplit_ok (repeated_wf hk h), splitOf_repeat hk h hls]

/-- **C60** (regression tree).  The tree asks the same questions and sends every row the same way; every leaf holds its examples, each
`k` times in a row. -/
theorem C60_regression_tree (d : DataSet (Ext K)) (c t : Nat) (h : d.WF c t) (ls : List (List K)) (hls : d.labels = lift ls) (k : Nat)
    (hk : 0 < k) (cfg : TreeConfig) (hc : cfg.numberOfClasses = t) :
    ∃ tree tree', regressionTreeNew d cfg = .ok tree ∧ regressionTreeNew (d.repeated k) cfg = .ok tree' ∧
      (∀ p, tree'.questionAt p = tree.questionAt p) ∧ (∀ row, tree'.route row = tree.route row) ∧
      (∀ p, tree'.leafAt p = (tree.leafAt p).map (RegressionLeaf.repeated k)) := by
  obtain ⟨h1, h2, h3⟩ := treeOf_repeat_rel (leafOf := regLeaf) (leafOf' := regLeaf) (g := RegressionLeaf.repeated k) hk (fun _ => rfl)
    cfg.maxLevels d h hls
  exact ⟨_, _, regressionTreeNew_ok h hc, regressionTreeNew_ok (repeated_wf hk h) hc, h1, h3, h2⟩

theorem mates_repeat {L L' : Type} {tree : TreeNode (Ext K) L} {tree' : TreeNode (Ext K) L'} (h : ∀ row, tree'.route row = tree.route row)
    (k : Nat) (rows : List (List (Ext K))) (ls : List (List K)) (row : List (Ext K)) :
    mates tree' ((repeatEach k rows).zip (repeatEach k ls)) row = repeatEach k (mates tree (rows.zip ls) row) := by
  simp only [mates, repeatEach_zip, repeatEach_filter, repeatEach_map, h]

theorem mseOf_repeat {k : Nat} (hk : 0 < k) (ps as : List (List K)) : mseOf (repeatEach k ps) (repeatEach k as) = mseOf ps as := by
  have : (k : K) ≠ 0 := by exact_mod_cast hk.ne'
  rw [mseOf, repeatEach_zipWith, sum_repeat, repeatEach_length, Nat.cast_mul, mul_div_mul_left _ _ this, mseOf]

/-- **C60** (score of a regression tree).  Trained on the repeated examples, and tested on a test set or on a repeated test set, the
error is the same. -/
theorem C60_tree_score (d : DataSet (Ext K)) (c t : Nat) (h : d.WF c t) (ht0 : 0 < t) (ls : List (List K)) (hls : d.labels = lift ls)
    (k : Nat) (hk : 0 < k) (cfg : TreeConfig) (hc : cfg.numberOfClasses = t)
    (test : DataSet (Ext K)) (hrows : ∀ row ∈ test.featureRows, c ≤ row.length) (as : List (List K)) (has : test.labels = lift as)
    (haw : ∀ v ∈ as, v.length = t) (hcount : as.length = test.featureRows.length) (hne : test.featureRows ≠ [])
    (k' : Nat) (hk' : 0 < k') :
    ∃ tree tree' e, regressionTreeNew d cfg = .ok tree ∧ regressionTreeNew (d.repeated k) cfg = .ok tree' ∧
      calculateOverallMse test tree = .ok (.fin e) ∧ calculateOverallMse test tree' = .ok (.fin e) ∧
      calculateOverallMse (test.repeated k') tree' = .ok (.fin e) := by
  obtain ⟨_, _, h3⟩ := treeOf_repeat_rel (leafOf := regLeaf) (leafOf' := regLeaf) (g := RegressionLeaf.repeated k) hk (fun _ => rfl)
    cfg.maxLevels d h hls
  have hl : (d.repeated k).labels = lift (repeatEach k ls) := by rw [lift_repeat, ← hls]; rfl
  have hp : ∀ row, meanVec t (mates (treeOf regLeaf c t cfg.maxLevels (d.repeated k)) ((d.repeated k).featureRows.zip (repeatEach k ls)) row) =
      meanVec t (mates (treeOf regLeaf c t cfg.maxLevels d) (d.featureRows.zip ls) row) := by
    intro row
    have := mates_repeat h3 k d.featureRows ls row
    rw [← meanVec_repeat hk t (mates (treeOf regLeaf c t cfg.maxLevels d) (d.featureRows.zip ls) row), ← this]; rfl
  refine ⟨_, _, _, regressionTreeNew_ok h hc, regressionTreeNew_ok (repeated_wf hk h) hc,
    overallMse_exact h ht0 hls cfg.maxLevels hrows has haw hcount hne, ?_, ?_⟩
  · rw [overallMse_exact (repeated_wf hk h) ht0 hl cfg.maxLevels hrows has haw hcount hne]
    simp only [hp]
  · rw [overallMse_exact (test := test.repeated k') (as := repeatEach k' as) (repeated_wf hk h) ht0 hl cfg.maxLevels
      (fun row hr => hrows row ((mem_repeatEach hk').mp hr)) (by rw [lift_repeat, ← has]; rfl)
      (fun v hv => haw v ((mem_repeatEach hk').mp hv)) (by simp [DataSet.repeated, repeatEach_length, hcount])
      (by simpa [DataSet.repeated, repeatEach_eq_nil hk'] using hne)]
    simp only [hp]
    rw [show (test.repeated k').featureRows = repeatEach k' test.featureRows from rfl, repeatEach_map, mseOf_repeat hk']

/-- **C60** (boosting trees).  The trees are equal. -/
theorem C60_boosting_trees (d : DataSet (Ext K)) (c t : Nat) (h : d.WF c t) (ls : List (List K)) (hls : d.labels = lift ls) (k : Nat)
    (hk : 0 < k) (cfg : TreeConfig) (hc : cfg.numberOfClasses = t) (o : LeafOutputType) :
    gradBoostTreeNew (d.repeated k) cfg o = gradBoostTreeNew d cfg o ∧ amgTreeNew (d.repeated k) cfg o = amgTreeNew d cfg o := by
  have hw := repeated_wf hk h
  rw [gradBoostTreeNew_ok h hc, gradBoostTreeNew_ok hw hc, amgTreeNew_ok h hc, amgTreeNew_ok hw hc, gradTree_repeat hk o h hls,
    amgTree_repeat hk o h hls]
  exact ⟨rfl, rfl⟩

section ensembles
variable {d : DataSet (Ext K)} {c t : Nat} {ls : List (List K)} {cfg : TreeConfig} {lr : K} {k : Nat}

theorem repeated_labels (r : List (List (Ext K))) :
    ({ d.repeated k with labels := repeatEach k r } : DataSet (Ext K)) = ({ d with labels := r } : DataSet (Ext K)).repeated k := rfl

/-- **C60** (regression ensemble).  Training returns the same model. -/
theorem C60_regression_ensemble (d : DataSet (Ext K)) (c t : Nat) (h : d.WF c t) (ls : List (List K)) (hls : d.labels = lift ls) (k : Nat)
    (hk : 0 < k) (cfg : TreeConfig) (hc : cfg.numberOfClasses = t) (n : Nat) (lr : K) :
    regressionTrain (d.repeated k) cfg n (.fin lr) = regressionTrain d cfg n (.fin lr) := by
  have hl : (d.repeated k).labels = lift (repeatEach k ls) := by rw [lift_repeat, ← hls]; rfl
  have hw := repeated_wf hk h
  have hg : (liftV (meanVec t ls) : List (Ext K)).length = t := by rw [liftV_length, meanVec_length]
  obtain ⟨s, ps, h1, _⟩ := regState_loop (lr := lr) h hls hc n
  obtain ⟨s', ps', h2, _⟩ := regState_loop (lr := lr) hw hl hc n
  rw [meanVec_repeat hk] at h2
  rw [regressionTrain_of_loop h hls h1, regressionTrain_of_loop hw hl (by rw [meanVec_repeat hk]; exact h2), meanVec_repeat hk]
  have : s'.2 = s.2 := by
    refine loop_repeat hk h.label_count.symm (grad_updateAdds _ _) ?_ ?_ h1 h2
    · intro a a' r r' ta ta' hm e1 e2
      rw [regressionResiduals_ok h hg ta] at e1
      rw [regressionResiduals_ok hw hg ta', hm] at e2
      cases e1
      cases e2
      exact repeatEach_zipWith _ _ _ _
    · intro n a r e1 e2
      obtain ⟨s, ps, k1, k2⟩ := regState_loop (lr := lr) h hls hc n
      rw [regLoopAt] at k1
      rw [k1] at e1
      cases e1
      rw [regressionResiduals_ok h hg k2.finite.tracks, k2.finite.labels, hls, resid_lift] at e2
      cases e2
      rw [repeated_labels]
      exact (C60_boosting_trees _ c t (resid_wf h hls k2.finite.len k2.finite.width) _ rfl k hk cfg hc .regression).1
  rw [this]

theorem class_residuals_repeat (h : d.WF c t) (hk : 0 < k) {L : Type} {out : List (Ext K) → TreeNode (Ext K) L → R (List (Ext K))}
    {g : List (Ext K)} (hg : g.length = t) {lr : Ext K} (a a' : TrainingData (Ext K) × List (TreeNode (Ext K) L)) (r r' : List (List (Ext K)))
    (ta : Tracks out d g lr a) (ta' : Tracks out (d.repeated k) g lr a') (hm : a'.1.mutableLabels = repeatEach k a.1.mutableLabels)
    (e1 : multiClassResiduals a.1 = .ok r) (e2 : multiClassResiduals a'.1 = .ok r') : r' = repeatEach k r := by
  rw [multiClassResiduals_ok h hg ta] at e1
  rw [multiClassResiduals_ok (repeated_wf hk h) hg ta', hm] at e2
  cases e1
  cases e2
  exact repeatEach_zipWith _ _ _ _

/-- **C60** (multi-class ensemble).  One-hot labels of two or more classes: training returns the same model. -/
theorem C60_multiClass_ensemble (d : DataSet (Ext K)) (c t : Nat) (h : d.WF c t) (h2 : 2 ≤ t) (ht : t ≤ 2 ^ 53)
    (hot : ∀ l ∈ d.labels, ∃ j < t, l = oneHot t j) (k : Nat) (hk : 0 < k) (cfg : TreeConfig) (hc : cfg.numberOfClasses = t)
    (n : Nat) (lr : K) :
    multiClassTrain (d.repeated k) cfg n (.fin lr) = multiClassTrain d cfg n (.fin lr) := by
  obtain ⟨ls, hls, hh⟩ := labels_hot hot
  have hl : (d.repeated k).labels = lift (repeatEach k ls) := by rw [lift_repeat, ← hls]; rfl
  have hh' : ∀ l ∈ repeatEach k ls, ∃ j < t, l = Verif.hot t j := fun l hl => hh l ((mem_repeatEach hk).mp hl)
  have hw := repeated_wf hk h
  have hg : (liftV (List.replicate t (1 / (t : K))) : List (Ext K)).length = t := by simp [liftV]
  obtain ⟨s, ps, h3, _⟩ := multi_loop (lr := lr) h h2 hls hh hc n
  obtain ⟨s', ps', h4, _⟩ := multi_loop (lr := lr) hw h2 hl hh' hc n
  rw [multi_train h h2 ht h3, multi_train hw h2 ht h4]
  have : s'.2 = s.2 := by
    refine loop_repeat hk h.label_count.symm (grad_updateAdds _ _) (class_residuals_repeat h hk hg) ?_ h3 h4
    intro n a r e1 e2
    obtain ⟨s, ps, k1, k2⟩ := multi_loop (lr := lr) h h2 hls hh hc n
    rw [k1] at e1
    cases e1
    rw [multiClassResiduals_ok h hg k2.finite.tracks, k2.finite.labels, hls, probResid_lift (by omega) k2.finite.width] at e2
    cases e2
    rw [repeated_labels]
    exact (C60_boosting_trees _ c t (probResid_wf h hls k2.finite.len k2.finite.width) _ rfl k hk cfg hc _).1
  rw [this]

/-- **C60** (AMG ensemble).  One-hot labels of two or more classes: training returns the same model. -/
theorem C60_amg_ensemble (d : DataSet (Ext K)) (c t : Nat) (h : d.WF c t) (h2 : 2 ≤ t) (ht : t ≤ 2 ^ 53)
    (hot : ∀ l ∈ d.labels, ∃ j < t, l = oneHot t j) (k : Nat) (hk : 0 < k) (cfg : TreeConfig) (hc : cfg.numberOfClasses = t)
    (n : Nat) (lr : K) :
    amgTrain (d.repeated k) cfg n (.fin lr) = amgTrain d cfg n (.fin lr) := by
  obtain ⟨ls, hls, hh⟩ := labels_hot hot
  have hl : (d.repeated k).labels = lift (repeatEach k ls) := by rw [lift_repeat, ← hls]; rfl
  have hh' : ∀ l ∈ repeatEach k ls, ∃ j < t, l = Verif.hot t j := fun l hl => hh l ((mem_repeatEach hk).mp hl)
  have hw := repeated_wf hk h
  have hg : (liftV (List.replicate t (1 / (t : K))) : List (Ext K)).length = t := by simp [liftV]
  obtain ⟨s, ps, h3, _⟩ := amg_loop (lr := lr) h h2 hls hh hc n
  obtain ⟨s', ps', h4, _⟩ := amg_loop (lr := lr) hw h2 hl hh' hc n
  rw [amg_train h h2 ht h3, amg_train hw h2 ht h4]
  have : s'.2 = s.2 := by
    refine loop_repeat (out := amgOut t) hk h.label_count.symm (by rw [hg]; exact amg_updateAdds _ _) (class_residuals_repeat h hk hg) ?_ h3 h4
    intro n a r e1 e2
    obtain ⟨s, ps, k1, k2⟩ := amg_loop (lr := lr) h h2 hls hh hc n
    rw [k1] at e1
    cases e1
    rw [multiClassResiduals_ok h hg k2.finite.tracks, k2.finite.labels, hls, probResid_lift (by omega) k2.finite.width] at e2
    cases e2
    rw [repeated_labels]
    exact (C60_boosting_trees _ c t (probResid_wf h hls k2.finite.len k2.finite.width) _ rfl k hk cfg hc _).2
  rw [this]

end ensembles

/-- rows that share the value 1 of the only feature -/
def tied : DataSet E :=
  { featureRows := [[0], [1], [1]], featureColumns := [[0, 1, 1]], labels := lift [[0], [0], [3]] }

theorem tied_wf : tied.WF 1 1 :=
  ⟨by decide +kernel, by decide +kernel, by decide +kernel, by decide +kernel, by decide +kernel, by decide +kernel, by decide +kernel⟩

/-- **C60**, where it ends.  The copies must stand next to each other: after appending a copy of the data set at its end the search can
report another gain, when different examples share a feature value. -/
theorem C60_appended_copy_violated : tied.WF 1 1 ∧ tied.twice.WF 1 1 ∧
    tied.twice.examples.Perm (tied.repeated 2).examples ∧
    (findBestSplit tied 1).map (fun s => s.gain) = .ok (.fin 2) ∧ (findBestSplit (tied.repeated 2) 1).map (fun s => s.gain) = .ok (.fin 2) ∧
    (findBestSplit tied.twice 1).map (fun s => s.gain) = .ok (.fin 1) := by
  refine ⟨tied_wf, ⟨by decide +kernel, by decide +kernel, by decide +kernel, by decide +kernel, by decide +kernel, by decide +kernel, by decide +kernel⟩, by decide +kernel, by decide +kernel, by decide +kernel, ?_⟩
  decide +kernel

-- the conditions are met
example : d4.WF 2 1 ∧ d5.WF 2 3 ∧ (∀ l ∈ d5.labels, ∃ j < 3, l = (oneHot 3 j : List E)) ∧
    (d4.repeated 3).featureRows.length = 12 := ⟨d4_wf, d5_wf, by decide +kernel, by decide +kernel⟩

end Verif
