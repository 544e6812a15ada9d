import Verif.Lemmas.ExactClass
import Verif.Props.ExactBoost
/-!
# C37, C38, C41: classification boosting with exact arithmetic
-/

set_option linter.unusedSectionVars false
set_option linter.unusedSimpArgs false

namespace Verif

variable {K : Type} [Field K] [LinearOrder K] [IsStrictOrderedRing K] [FloorSemiring K] [HasExp K]

open Sample

/-! ## C37 -/

/-- **C37**.  The class probabilities of a finite, non-empty score vector are the soft-max, positive and add up to 1. -/
theorem C37_probabilities (v : List K) (hne : v ≠ []) :
    calculateProbabilities (liftV v) = liftV (softmax v) ∧ (softmax v).length = v.length ∧ (∀ p ∈ softmax v, 0 < p) ∧
      (softmax v).sum = 1 :=
  ⟨calculateProbabilities_exact hne, softmax_length v, softmax_pos, softmax_sum hne⟩

/-- **C37**.  Residuals: for one-hot labels of two or more classes and finite scores, the residuals of every row are the label minus
the soft-max of the scores; they are finite, non-zero, strictly between -1 and 1 and add up to 0. -/
theorem C37_residuals (s : TrainingData (Ext K)) (t : Nat) (h2 : 2 ≤ t) (hn : s.size = s.data.labels.length)
    (hot : ∀ l ∈ s.data.labels, ∃ k < t, l = oneHot t k) (scores : List (List K)) (hs : s.mutableLabels = lift scores)
    (hlen : scores.length = s.data.labels.length) (hw : ∀ v ∈ scores, v.length = t) :
    ∃ ls rs : List (List K), s.data.labels = lift ls ∧ multiClassResiduals s = .ok (lift rs) ∧ rs.length = s.data.labels.length ∧
      rs = List.zipWith (fun l v => List.zipWith (· - ·) l (softmax v)) ls scores ∧
      ∀ r ∈ rs, r.length = t ∧ r.sum = 0 ∧ ∀ x ∈ r, x ≠ 0 ∧ -1 < x ∧ x < 1 := by
  obtain ⟨ls, hls, hh⟩ := labels_hot hot
  have hll : ls.length = s.data.labels.length := by rw [hls, lift_length]
  have hlw : ∀ l ∈ ls, l.length = t := by
    intro l hl
    obtain ⟨k, _, rfl⟩ := hh l hl
    exact hot_length t k
  refine ⟨ls, probResid ls scores, hls, ?_, by rw [probResid_length (by omega), hll], rfl, ?_⟩
  · have := mapM_ok (f := fun i => do
      let trueLabel ← idx s.data.labels i
      let currentLabel ← idx s.mutableLabels i
      subtractSlices trueLabel (calculateProbabilities currentLabel)) (l := List.range s.size)
      (g := fun i => List.zipWith F64.sub (s.data.labels.getD i []) (calculateProbabilities (s.mutableLabels.getD i []))) (by
      intro i hi
      rw [List.mem_range, hn] at hi
      have hi2 : i < s.mutableLabels.length := by rw [hs, lift_length, hlen]; exact hi
      rw [idx_lt hi, R.ok_bind, idx_lt hi2, R.ok_bind, subtractSlices_ok]
      · simp [hi, hi2]
      · rw [calculateProbabilities_length]
        obtain ⟨k, _, hk⟩ := hot _ (List.getElem_mem hi)
        have h3 : s.mutableLabels[i] ∈ lift scores := by rw [← hs]; exact List.getElem_mem hi2
        obtain ⟨v, hv, hv2⟩ := mem_lift.mp h3
        rw [hk, ← hv2, liftV_length, hw v hv]
        simp [oneHot])
    rw [multiClassResiduals, this]
    congr 1
    rw [← probResid_lift (t := t) (by omega) hw, ← hls, ← hs]
    apply List.ext_getElem
    · simp [hn, hs, lift_length, hlen]
    · intro i h3 h4
      simp at h4
      simp [h4]
  · intro r hr
    have hg := probResid_good h2 hh hw r hr
    refine ⟨probResid_width hlw hw r hr, ?_, ?_⟩
    · obtain ⟨i, hi, rfl⟩ := List.getElem_of_mem hr
      simp only [probResid, List.getElem_zipWith]
      obtain ⟨k, hkt, hk⟩ := hh _ (List.getElem_mem (show i < ls.length by simp [probResid] at hi; omega))
      rw [hk]
      exact residual_sum hkt (hw _ (List.getElem_mem _))
    · intro x hx
      obtain ⟨h3, h4⟩ := hg x hx
      exact ⟨abs_pos.mp h3, (abs_lt.mp h4).1, (abs_lt.mp h4).2⟩

-- a concrete case, with the exponential replaced by 1 + x^2
example : calculateProbabilities (F := E) [1, 2, 0] = [.fin (1 / 4), .fin (5 / 8), .fin (1 / 8)] := by decide +kernel
example : multiClassResiduals { data := d5, mutableLabels := [[1, 2, 0], [1, 2, 0], [0, 0, 0], [1, 1, 1], [0, 1, 0]], size := 5 } =
    .ok [[.fin (3 / 4), .fin (-5 / 8), .fin (-1 / 8)], [.fin (-1 / 4), .fin (3 / 8), .fin (-1 / 8)],
      [.fin (-1 / 3), .fin (2 / 3), .fin (-1 / 3)], [.fin (-1 / 3), .fin (-1 / 3), .fin (2 / 3)],
      [.fin (3 / 4), .fin (-1 / 2), .fin (-1 / 4)]] := by decide +kernel

/-! ## the loop -/

section loop
variable {L : Type} {d : DataSet (Ext K)} {c t m : Nat} {ls : List (List K)} {lr : K} {guess : List (Ext K)}
  {out : List (Ext K) → TreeNode (Ext K) L → R (List (Ext K))} {leafOf : DataSet (Ext K) → L} {P : List K → Prop}

/-- what is known after some iterations -/
structure ClassState (out : List (Ext K) → TreeNode (Ext K) L → R (List (Ext K))) (leafOf : DataSet (Ext K) → L) (d : DataSet (Ext K))
    (c t m : Nat) (ls : List (List K)) (guess : List (Ext K)) (lr : K)
    (s : TrainingData (Ext K) × List (TreeNode (Ext K) L)) (ps : List (List K)) : Prop where
  finite : Finite out d guess lr t s ps
  trees : ∀ (k : Nat) (tree : TreeNode (Ext K) L), s.2[k]? = some tree → ∃ qs : List (List K), (∀ q ∈ qs, q.length = t) ∧
    qs.length = d.labels.length ∧ d.featureRows.mapM (rawScore out guess (.fin lr) (s.2.take k)) = .ok (lift qs) ∧
    tree = treeOf leafOf c t m { d with labels := lift (probResid ls qs) }

/-- leaf outputs are finite for good residuals -/
def OutFinite (out : List (Ext K) → TreeNode (Ext K) L → R (List (Ext K))) (leafOf : DataSet (Ext K) → L) (d : DataSet (Ext K))
    (c t m : Nat) (P : List K → Prop) : Prop :=
  ∀ rs : List (List K), ({ d with labels := lift rs } : DataSet (Ext K)).WF c t → (∀ r ∈ rs, Good r) →
    ∀ row : List (Ext K), c ≤ row.length →
      ∃ o : List K, out row (treeOf leafOf c t m { d with labels := lift rs }) = .ok (liftV o) ∧ o.length = t ∧ P o

theorem class_step_exact (h : d.WF c t) (h2 : 2 ≤ t) (hls : d.labels = lift ls) (hh : ∀ l ∈ ls, ∃ k < t, l = hot t k)
    (hg : guess.length = t) (ho : OutFinite out leafOf d c t m P) {fit : DataSet (Ext K) → R (TreeNode (Ext K) L)}
    (hfit : ∀ dd : DataSet (Ext K), dd.WF c t → fit dd = .ok (treeOf leafOf c t m dd))
    {upd : TrainingData (Ext K) → TreeNode (Ext K) L → R (TrainingData (Ext K))} (hu : UpdateAdds upd out (.fin lr) t)
    {s s' : TrainingData (Ext K) × List (TreeNode (Ext K) L)} {ps : List (List K)} (hs : ClassState out leafOf d c t m ls guess lr s ps)
    (hb : boostStep multiClassResiduals fit upd s = .ok s') : ∃ ps', ClassState out leafOf d c t m ls guess lr s' ps' := by
  have hwf := probResid_wf h hls hs.finite.len hs.finite.width
  have hps_rows : ps.length = d.featureRows.length := by rw [hs.finite.len, h.label_count]
  have htr' := tracks_step (by rw [hg]; exact hu) hs.finite.tracks hb
  obtain ⟨r, tree, t1, h1, h3, h4, rfl⟩ := boostStep_inv hb
  rw [multiClassResiduals_ok h hg hs.finite.tracks, hs.finite.labels, hls, probResid_lift (by omega) hs.finite.width] at h1
  have := Except.ok.inj h1
  subst this
  rw [hs.finite.tracks.data, hfit _ hwf] at h3
  have := Except.ok.inj h3
  subst this
  have hgood := probResid_good h2 hh hs.finite.width
  have hout : ∀ row : List (Ext K), ∃ o : List K, c ≤ row.length →
      out row (treeOf leafOf c t m { d with labels := lift (probResid ls ps) }) = .ok (liftV o) ∧ o.length = t := by
    intro row
    by_cases hrow : c ≤ row.length
    · obtain ⟨o, h5, h6, _⟩ := ho _ hwf hgood row hrow
      exact ⟨o, fun _ => ⟨h5, h6⟩⟩
    · exact ⟨[], fun hc => absurd hc hrow⟩
  choose o ho2 using hout
  refine ⟨updated lr o ps d.featureRows, ⟨htr', ?_, ?_, ?_⟩, ?_⟩
  · have := update_exact (o := o) hu hs.finite.labels (by rw [hs.finite.len, hs.finite.tracks.size]) hs.finite.width
      (by rw [hs.finite.tracks.data, hs.finite.tracks.size, h.label_count])
      (fun row hrow => (ho2 row (by rw [hs.finite.tracks.data] at hrow; exact (h.row_len row hrow).ge)).1) h4
    rw [hs.finite.tracks.data] at this
    exact this
  · rw [updated_length hps_rows, hs.finite.len]
  · exact updated_width hs.finite.width (fun row hrow => (ho2 row (h.row_len row hrow).ge).2)
  · intro k tree hk
    rcases Nat.lt_or_ge k s.2.length with hlt | hge
    · simp only at hk ⊢
      rw [List.getElem?_append_left hlt] at hk
      obtain ⟨qs, h5⟩ := hs.trees k tree hk
      rw [List.take_append_of_le_length (by omega)]
      exact ⟨qs, h5⟩
    · simp only at hk ⊢
      have hkl := (List.getElem?_eq_some_iff.mp hk).1
      simp at hkl
      have hkk : k = s.2.length := by omega
      subst hkk
      simp at hk
      subst hk
      refine ⟨ps, hs.finite.width, hs.finite.len, ?_, rfl⟩
      rw [List.take_left', tracks_mapM hs.finite.tracks h.label_count.symm, hs.finite.labels]
      rfl

theorem class_start (g : List K) (hg : g.length = t) :
    ClassState out leafOf d c t m ls (liftV g) lr (startState d (liftV g), []) (List.replicate d.labels.length g) := by
  refine ⟨⟨tracks_start d _ _, ?_, by simp, ?_⟩, by simp⟩
  · simp [startState, lift]
  · intro p hp
    rw [List.eq_of_mem_replicate hp, hg]

/-- raw scores of any row -/
theorem class_score (h : d.WF c t) (h2 : 2 ≤ t) (hls : d.labels = lift ls) (hh : ∀ l ∈ ls, ∃ k < t, l = hot t k)
    (ho : OutFinite out leafOf d c t m P) {g : List K} (hg : g.length = t)
    {s : TrainingData (Ext K) × List (TreeNode (Ext K) L)} {ps : List (List K)} (hs : ClassState out leafOf d c t m ls (liftV g) lr s ps)
    (row : List (Ext K)) (hrow : c ≤ row.length) :
    ∃ outs : List (List K), outs.length = s.2.length ∧ (∀ o ∈ outs, o.length = t ∧ P o) ∧
      rawScore out (liftV g) (.fin lr) s.2 row =
        .ok (liftV ((List.range t).map (fun j => g.getD j 0 + lr * (outs.map (fun o => o.getD j 0)).sum))) := by
  have : ∀ tree ∈ s.2, ∃ o : List K, out row tree = .ok (liftV o) ∧ o.length = t ∧ P o := by
    intro tree ht
    obtain ⟨k, hk⟩ := List.getElem?_of_mem ht
    obtain ⟨qs, h3, h4, _, rfl⟩ := hs.trees k tree hk
    exact ho _ (probResid_wf h hls h4 h3) (probResid_good h2 hh h3) row hrow
  have h5 : ∃ outs : List (List K), List.Forall₂ (fun tree o => out row tree = .ok (liftV o) ∧ o.length = t ∧ P o) s.2 outs := by
    revert this
    generalize s.2 = trees
    intro this
    induction trees with
    | nil => exact ⟨[], .nil⟩
    | cons x xs ih =>
      obtain ⟨outs, h6⟩ := ih (fun y hy => this y (by simp [hy]))
      obtain ⟨o, h7⟩ := this x (by simp)
      exact ⟨o :: outs, .cons h7 h6⟩
  obtain ⟨outs, h6⟩ := h5
  refine ⟨outs, h6.length_eq.symm, ?_, rawScore_exact hg (h6.imp (fun _ _ h => ⟨h.1, h.2.1⟩))⟩
  intro o hmem
  obtain ⟨i, hi, rfl⟩ := List.getElem_of_mem hmem
  rw [List.forall₂_iff_get] at h6
  exact (h6.2 i (by omega) hi).2

/-- the initial guess of both classification ensembles -/
theorem guess_class (h : d.WF c t) (h1 : 0 < t) (ht : t ≤ 2 ^ 53) {ty : BoostingEnsembleType} (hty : ty ≠ .regressionBoost) {s : Nat} :
    determineInitialGuess { data := d, mutableLabels := d.labels, size := s } ty = .ok (liftV (List.replicate t (1 / (t : K)))) := by
  rw [determineInitialGuess_class h ht hty]
  have : (t : K) ≠ 0 := by exact_mod_cast h1.ne'
  simp [liftV, Ext.one_def, Ext.ofNat_def, Ext.fin_div _ _ this]

end loop

section multi
variable {d : DataSet (Ext K)} {c t : Nat} {ls : List (List K)} {cfg : TreeConfig} {lr : K}

theorem multi_out (m : Nat) : OutFinite gradOut (gradLeaf .multiClassClassification t) d c t m (fun _ => True) := by
  intro rs hw hg row hrow
  exact ⟨_, gradOut_class_exact m hw rfl hg hrow, classLeaf_length _ _, trivial⟩

theorem multi_loop (h : d.WF c t) (h2 : 2 ≤ t) (hls : d.labels = lift ls) (hh : ∀ l ∈ ls, ∃ k < t, l = hot t k)
    (hc : cfg.numberOfClasses = t) (n : Nat) :
    ∃ s ps, boostLoop multiClassResiduals (fun d => gradBoostTreeNew d cfg .multiClassClassification)
        (fun t tree => updateDatasetLabels t tree (.fin lr)) n (startState d (liftV (List.replicate t (1 / (t : K))))) = .ok s ∧
      ClassState gradOut (gradLeaf .multiClassClassification t) d c t cfg.maxLevels ls (liftV (List.replicate t (1 / (t : K)))) lr s ps := by
  have hg : (liftV (List.replicate t (1 / (t : K))) : List (Ext K)).length = t := by simp [liftV]
  induction n with
  | zero => exact ⟨_, _, rfl, class_start _ (by simp)⟩
  | succ n ih =>
    obtain ⟨s, ps, h1, h3⟩ := ih
    obtain ⟨s', h4⟩ := multiClass_step h hc hg s h3.finite.tracks
    obtain ⟨ps', h5⟩ := class_step_exact h h2 hls hh hg (multi_out _)
      (fun dd hd => gradBoostTreeNew_ok hd hc _) (grad_updateAdds _ _) h3 h4
    exact ⟨s', ps', by rw [boostLoop_succ, h1]; exact h4, h5⟩

theorem multi_train (h : d.WF c t) (h2 : 2 ≤ t) (ht : t ≤ 2 ^ 53) {n : Nat}
    {s : TrainingData (Ext K) × List (TreeNode (Ext K) (GradBoostLeaf (Ext K)))}
    (hl : boostLoop multiClassResiduals (fun d => gradBoostTreeNew d cfg .multiClassClassification)
        (fun t tree => updateDatasetLabels t tree (.fin lr)) n (startState d (liftV (List.replicate t (1 / (t : K))))) = .ok s) :
    multiClassTrain d cfg n (.fin lr) =
      .ok { trees := s.2, initialGuess := liftV (List.replicate t (1 / (t : K))), learningRate := .fin lr } := by
  have hg := guess_class h (by omega) ht (s := d.labels.length) (ty := .multiClassBoost) (by simp)
  have hfull := boostingLoop_mk (ex := { ensembleType := .multiClassBoost, loopExecutor := multiClassLoop }) hg (n := n) (cfg := cfg)
    (lr := Ext.fin lr) (final := s.1) (trees := s.2) hl
  exact train_of_full hfull

end multi

/-! ## C38 -/

/-- **C38**.  One-hot labels of two or more classes: training succeeds and in every tree the leaf reached by any row holds, for
each class, `(K-1)/K` times the sum of the residuals divided by the sum of `|r| (1 - |r|)`, taken over the training rows in that
leaf; the residuals are label minus soft-max of the finite scores of the trees before. -/
theorem C38_leaf_formula (d : DataSet (Ext K)) (c t : Nat) (h : d.WF c t) (h2 : 2 ≤ t) (ht : t ≤ 2 ^ 53)
    (hot : ∀ l ∈ d.labels, ∃ k < t, l = oneHot t k) (cfg : TreeConfig) (hc : cfg.numberOfClasses = t) (n : Nat) (lr : K) :
    ∃ (m : BoostModel (Ext K) (GradBoostLeaf (Ext K))) (ls : List (List K)),
      multiClassTrain d cfg n (.fin lr) = .ok m ∧ m.trees.length = n ∧ d.labels = lift ls ∧
      ∀ (k : Nat) (tree : TreeNode (Ext K) (GradBoostLeaf (Ext K))), m.trees[k]? = some tree → ∃ scores : List (List K),
        d.featureRows.mapM (fun row => predictInstance row (m.trees.take k) m.initialGuess m.learningRate) = .ok (lift scores) ∧
        ∀ row : List (Ext K), c ≤ row.length → ∃ leaf : GradBoostLeaf (Ext K), findLeafNodeForData row tree = .ok leaf ∧
          leaf.leafOutput = some (liftV (classLeaf t (mates tree (d.featureRows.zip (probResid ls scores)) row))) := by
  obtain ⟨ls, hls, hh⟩ := labels_hot hot
  obtain ⟨s, ps, h3, hs⟩ := multi_loop (lr := lr) h h2 hls hh hc n
  refine ⟨_, ls, multi_train h h2 ht h3, boostLoop_length h3, hls, ?_⟩
  intro k tree hk
  obtain ⟨qs, h4, h5, h6, rfl⟩ := hs.trees k tree hk
  refine ⟨qs, ?_, ?_⟩
  · rw [← h6]
    apply mapM_congr
    intro row _
    rw [predictInstance_eq]
  · intro row hrow
    have hgo := gradOut_class_exact cfg.maxLevels (probResid_wf h hls h5 h4) (rs := probResid ls qs) rfl (probResid_good h2 hh h4) hrow
    simp only [gradOut, R.bind_eq_ok] at hgo
    obtain ⟨leaf, hl1, hl2⟩ := hgo
    refine ⟨leaf, hl1, ?_⟩
    revert hl2
    cases leaf.leafOutput with
    | none => intro hl2; cases hl2
    | some v => intro hl2; rw [Except.ok.inj hl2]

/-- **C38**.  No leaf of the formula above divides by zero, so the raw scores of every row stay finite for all iteration counts and
learning rates. -/
theorem C38_scores_finite (d : DataSet (Ext K)) (c t : Nat) (h : d.WF c t) (h2 : 2 ≤ t) (ht : t ≤ 2 ^ 53)
    (hot : ∀ l ∈ d.labels, ∃ k < t, l = oneHot t k) (cfg : TreeConfig) (hc : cfg.numberOfClasses = t) (n : Nat) (lr : K) :
    ∃ m : BoostModel (Ext K) (GradBoostLeaf (Ext K)), multiClassTrain d cfg n (.fin lr) = .ok m ∧
      ∀ row : List (Ext K), c ≤ row.length → ∃ v : List K, v.length = t ∧
        predictInstance row m.trees m.initialGuess m.learningRate = .ok (liftV v) := by
  obtain ⟨ls, hls, hh⟩ := labels_hot hot
  obtain ⟨s, ps, h3, hs⟩ := multi_loop (lr := lr) h h2 hls hh hc n
  refine ⟨_, multi_train h h2 ht h3, ?_⟩
  intro row hrow
  obtain ⟨outs, _, _, h4⟩ := class_score h h2 hls hh (multi_out _) (by simp) hs row hrow
  refine ⟨_, ?_, by rw [predictInstance_eq]; exact h4⟩
  rw [List.length_map, List.length_range]

/-- **C38**.  The denominators: for residuals strictly between -1 and 1 and different from 0, the sum of `|r| (1 - |r|)` over a
non-empty group of rows is positive. -/
theorem C38_denominator (rs : List (List K)) (hne : rs ≠ []) (t j : Nat) (hj : j < t)
    (hr : ∀ r ∈ rs, r.length = t ∧ ∀ x ∈ r, x ≠ 0 ∧ -1 < x ∧ x < 1) :
    0 < ((target rs j).map (fun x => |x| * (1 - |x|))).sum := by
  apply denom_pos hne
  intro r hmem
  obtain ⟨h1, h2⟩ := hr r hmem
  have : r.getD j 0 ∈ r := by
    have : j < r.length := by omega
    simp [this]
  obtain ⟨a, b, e⟩ := h2 _ this
  exact ⟨abs_pos.mpr a, abs_lt.mpr ⟨b, e⟩⟩

theorem d5_hot : ∀ l ∈ d5.labels, ∃ k < 3, l = oneHot 3 k := by decide +kernel

-- scores of a training row after two iterations
example : (do
    let m ← multiClassTrain d5 { useMultiThreading := true, numberOfClasses := 3, maxLevels := 1 } 1 (.fin (1 / 2))
    predictInstance [3, 1] m.trees m.initialGuess m.learningRate) = .ok [.fin (5 / 6), .fin (-1 / 6), .fin (1 / 3)] := by decide +kernel

/-! ### one class -/

section one
variable {d : DataSet (Ext K)} {c : Nat} {cfg : TreeConfig} {lr : Ext K}

theorem add_nan (x : Ext K) : x +. Ext.nan = Ext.nan := by cases x <;> rfl
theorem mul_nan (x : Ext K) : x *. Ext.nan = Ext.nan := by cases x <;> rfl

theorem multiOut_one {x : Ext K} (hx : x = .fin 0 ∨ x = .nan) {vs : List (List (Ext K))} (hne : vs ≠ []) (h : ∀ v ∈ vs, v = [x]) :
    multiOut 1 vs = [Ext.nan] := by
  have hz : ∀ (vs : List (List (Ext K))), (∀ v ∈ vs, v = [Ext.fin 0]) → vecSum 1 vs = [Ext.fin 0] := by
    intro vs
    induction vs using List.reverseRecOn with
    | nil => intro _; rfl
    | append_singleton l a ih =>
      intro h
      rw [vecSum, List.foldl_append, ← vecSum, ih (fun v hv => h v (by simp [hv])), h a (by simp)]
      simp
  have hn : ∀ (vs : List (List (Ext K))), vs ≠ [] → (∀ v ∈ vs, v = [Ext.nan]) → vecSum 1 vs = [Ext.nan] := by
    intro vs
    induction vs using List.reverseRecOn with
    | nil => intro h; exact absurd rfl h
    | append_singleton l a ih =>
      intro _ h
      have hl : (vecSum 1 l).length = 1 := vecSum_length (fun v hv => by rw [h v (by simp [hv])]; rfl)
      obtain ⟨y, hy⟩ := List.length_eq_one_iff.mp hl
      rw [vecSum, List.foldl_append, ← vecSum, h a (by simp), hy]
      simp [add_nan]
  rcases hx with rfl | rfl
  · have h2 : denomOf 1 vs = [Ext.fin 0] := by
      apply hz
      intro v hv
      obtain ⟨w, hw, rfl⟩ := List.mem_map.mp hv
      rw [h w hw]
      simp [denomTerm, Ext.one_def]
    rw [multiOut, hz vs h, h2]
    simp only [List.zipWith_cons_cons, List.zipWith_nil_left, multiplyByScalar, List.map_cons, List.map_nil]
    have : (Ext.fin (0 : K) /. Ext.fin 0) = Ext.nan := by
      show Ext.div _ _ = _
      simp [Ext.div, Ext.signInf]
    rw [this]
    rfl
  · have h2 : denomOf 1 vs = [Ext.nan] := by
      apply hn _ (by simpa using hne)
      intro v hv
      obtain ⟨w, hw, rfl⟩ := List.mem_map.mp hv
      rw [h w hw]
      rfl
    rw [multiOut, hn vs hne h, h2]
    rfl

theorem one_gradOut {x : Ext K} (hx : x = .fin 0 ∨ x = .nan) (m : Nat) (h : d.WF c 1) (hl : ∀ l ∈ d.labels, l = [x]) {row : List (Ext K)}
    (hrow : c ≤ row.length) : gradOut row (treeOf (gradLeaf .multiClassClassification 1) c 1 m d) = .ok [Ext.nan] := by
  obtain ⟨dd, hw, ho, he⟩ := gradOut_ok .multiClassClassification m h hrow
  rw [ho]
  simp only [leafOut]
  rw [multiOut_one hx hw.labels_ne]
  intro v hv
  rw [labels_of_examples hw, he] at hv
  obtain ⟨e, he2, rfl⟩ := List.mem_map.mp hv
  exact hl _ (List.of_mem_zip (show (e.1, e.2) ∈ _ from List.mem_of_mem_filter he2)).2

theorem one_rawScore {trees : List (TreeNode (Ext K) (GradBoostLeaf (Ext K)))} {row : List (Ext K)}
    (h : ∀ tree ∈ trees, gradOut row tree = .ok [Ext.nan]) :
    rawScore gradOut [Ext.fin 1] lr trees row = .ok [if trees = [] then Ext.fin 1 else Ext.nan] := by
  induction trees using List.reverseRecOn with
  | nil => rfl
  | append_singleton l a ih =>
    rw [rawScore_snoc (ih (fun tree ht => h tree (by simp [ht]))) (h a (by simp)) rfl]
    simp [mul_nan, add_nan]

theorem one_loop (h : d.WF c 1) (hl : ∀ l ∈ d.labels, l = [Ext.fin 1]) (hc : cfg.numberOfClasses = 1) (n : Nat) :
    ∃ s, boostLoop multiClassResiduals (fun d => gradBoostTreeNew d cfg .multiClassClassification)
        (fun t tree => updateDatasetLabels t tree lr) n (startState d [Ext.fin 1]) = .ok s ∧ Tracks gradOut d [Ext.fin 1] lr s ∧
      ∀ tree ∈ s.2, ∀ row : List (Ext K), c ≤ row.length → gradOut row tree = .ok [Ext.nan] := by
  induction n with
  | zero => exact ⟨_, rfl, tracks_start d _ _, by simp⟩
  | succ n ih =>
    obtain ⟨s, h1, h2, h3⟩ := ih
    obtain ⟨s', h4⟩ := multiClass_step h hc (by simp) s h2
    refine ⟨s', by rw [boostLoop_succ, h1]; exact h4, tracks_step (grad_updateAdds _ _) h2 h4, ?_⟩
    obtain ⟨r, tree, t1, h5, h6, h7, rfl⟩ := boostStep_inv h4
    intro tree' htree row hrow
    rcases List.mem_append.mp htree with htree | htree
    · exact h3 tree' htree row hrow
    · rw [List.mem_singleton] at htree
      subst htree
      have hlen : s.1.mutableLabels.length = d.featureRows.length := by rw [h2.len, h.label_count]
      have hlab : ∀ v ∈ s.1.mutableLabels, v = [if s.2 = [] then Ext.fin 1 else Ext.nan] := by
        intro v hv
        obtain ⟨i, hi, rfl⟩ := List.getElem_of_mem hv
        have hi2 : i < d.featureRows.length := by omega
        have h8 := h2.score i _ _ (List.getElem?_eq_getElem hi2) (List.getElem?_eq_getElem hi)
        rw [one_rawScore (fun tree ht => h3 tree ht _ (h.row_len _ (List.getElem_mem hi2)).ge)] at h8
        exact (Except.ok.inj h8).symm
      rw [multiClassResiduals_ok h (by simp) h2] at h5
      have := Except.ok.inj h5
      subst this
      have hw : ({ d with labels := List.zipWith (fun l v => List.zipWith F64.sub l (calculateProbabilities v)) d.labels s.1.mutableLabels } :
          DataSet (Ext K)).WF c 1 :=
        residuals_wf h h2.len (fun l v hl hv => by simp [h.label_len l hl, h2.width v hv, calculateProbabilities_length])
      rw [h2.data, gradBoostTreeNew_ok hw hc] at h6
      have := Except.ok.inj h6
      subst this
      have hres : ∀ r ∈ List.zipWith (fun l v => List.zipWith F64.sub l (calculateProbabilities v)) d.labels s.1.mutableLabels,
          r = [if s.2 = [] then Ext.fin 0 else Ext.nan] := by
        intro r hr
        obtain ⟨i, hi, rfl⟩ := List.getElem_of_mem hr
        simp only [List.getElem_zipWith]
        rw [hl _ (List.getElem_mem _), hlab _ (List.getElem_mem _)]
        split
        · have := calculateProbabilities_exact (v := [(1 : K)]) (by simp)
          simp only [liftV, List.map_cons, List.map_nil] at this
          rw [this]
          have hp : HasExp.exp (1 : K) ≠ 0 := (HasExp.exp_pos 1).ne'
          simp [softmax, hp]
        · rfl
      exact one_gradOut (x := if s.2 = [] then Ext.fin 0 else Ext.nan) (by split <;> simp) _ hw hres hrow

end one

/-- **C38**.  With a single class every leaf output is NaN (0/0) and, after at least one iteration, so are the scores; the predicted
class is the only one there is. -/
theorem C38_one_class (d : DataSet (Ext K)) (c : Nat) (h : d.WF c 1) (hot : ∀ l ∈ d.labels, l = oneHot 1 0) (cfg : TreeConfig)
    (hc : cfg.numberOfClasses = 1) (n : Nat) (lr : Ext K) :
    ∃ m : BoostModel (Ext K) (GradBoostLeaf (Ext K)), multiClassTrain d cfg n lr = .ok m ∧ m.trees.length = n ∧
      ∀ row : List (Ext K), c ≤ row.length →
        (∀ tree ∈ m.trees, ∃ leaf : GradBoostLeaf (Ext K), findLeafNodeForData row tree = .ok leaf ∧ leaf.leafOutput = some [Ext.nan]) ∧
        (0 < n → predictInstance row m.trees m.initialGuess m.learningRate = .ok [Ext.nan]) ∧
        multiClassPredict m row = .ok (oneHot 1 0) := by
  obtain ⟨s, h1, _, h3⟩ := one_loop (lr := lr) h hot hc n
  have hlen := boostLoop_length h1
  have hg : determineInitialGuess { data := d, mutableLabels := d.labels, size := d.labels.length } .multiClassBoost = .ok [Ext.fin (1 : K)] := by
    rw [guess_class h (by omega) (by norm_num) (by simp)]
    simp [liftV]
  have hfull := boostingLoop_mk (ex := { ensembleType := .multiClassBoost, loopExecutor := multiClassLoop }) hg (n := n) (cfg := cfg)
    (lr := lr) (final := s.1) (trees := s.2) h1
  refine ⟨_, train_of_full hfull, hlen, ?_⟩
  intro row hrow
  have hs := one_rawScore (lr := lr) (fun tree ht => h3 tree ht row hrow)
  refine ⟨?_, ?_, ?_⟩
  · intro tree ht
    have hgo := h3 tree ht row hrow
    simp only [gradOut, R.bind_eq_ok] at hgo
    obtain ⟨leaf, hl1, hl2⟩ := hgo
    refine ⟨leaf, hl1, ?_⟩
    revert hl2
    cases leaf.leafOutput with
    | none => intro hl2; cases hl2
    | some v => intro hl2; rw [Except.ok.inj hl2]
  · intro hn
    have hne : s.2 ≠ [] := by intro h0; rw [h0] at hlen; simp at hlen; omega
    rw [if_neg hne] at hs
    rw [predictInstance_eq]
    exact hs
  · rw [multiClassPredict, predictInstance_eq]
    simp only [hs, R.ok_bind]
    rw [getBinaryPrediction_ok (by simp)]
    have := findMax_lt (F := Ext K) [if s.2 = [] then Ext.fin 1 else Ext.nan] (by simp)
    simp only [List.length_cons, List.length_nil, zero_add] at this ⊢
    have h0 : (findMaxValueAndIndex [if s.2 = [] then Ext.fin (1 : K) else Ext.nan]).2 = 0 := by omega
    rw [h0]

example : (do
    let m ← multiClassTrain (F := E) { featureRows := [[3, 1], [1, 4]], labels := [[1], [1]], featureColumns := [[3, 1], [1, 4]] }
      { useMultiThreading := true, numberOfClasses := 1, maxLevels := 1 } 2 (.fin (1 / 2))
    predictInstance [3, 1] m.trees m.initialGuess m.learningRate) = .ok [.nan] := by decide +kernel

/-! ## C41 -/

/-- **C41**.  The output vector an AMG leaf stands for: its largest entry at the stored class, the others chosen so that the
entries add up to zero. -/
theorem C41_leaf_sums_to_zero (t : Nat) (h2 : 2 ≤ t) (leaf : AMGBoostLeaf (Ext K)) (mx : K) (k : Nat) (hk : k < t)
    (h1 : leaf.maxValue = some (.fin mx)) (h3 : leaf.cls = some k) :
    ∃ o : List K, constructApproximateLeafOutput leaf t = .ok (liftV o) ∧ o.length = t ∧ o.sum = 0 ∧
      o = (List.range t).map (fun j => if j = k then mx else -mx / ((t : K) - 1)) := by
  have ht : ((t : K) - 1) ≠ 0 := by
    have : (1 : K) < t := by exact_mod_cast (by omega : 1 < t)
    linarith
  refine ⟨amgField t mx k, ?_, amgField_length _ _ _, amgField_sum h2 mx hk, by
    apply List.ext_getElem (by simp [amgField])
    intro j h1 h2
    simp [amgField, List.getElem_set, eq_comm]⟩
  simp only [constructApproximateLeafOutput, h1, h3, unwrap, R.ok_bind]
  rw [setIdx_lt (by simpa using hk)]
  simp only [calculateApproximateValue, Ext.fin_neg, Ext.ofNat_def, Ext.one_def, Ext.fin_sub, Ext.fin_div _ _ ht, amgField,
    liftV, List.map_set, List.map_replicate]

section amg
variable {d : DataSet (Ext K)} {c t : Nat} {ls : List (List K)} {cfg : TreeConfig} {lr : K}

theorem amg_out (h2 : 2 ≤ t) (m : Nat) : OutFinite (amgOut t) (amgLeaf .multiClassClassification t) d c t m (fun o => o.sum = 0) := by
  intro rs hw hg row hrow
  obtain ⟨dd, hwd, _, ho, _, he⟩ := amgOut_ok (by omega) .multiClassClassification m hw hrow
  obtain ⟨h1, h3, h4⟩ := mates_ok (ls := rs) rfl hwd he
  have h5 : leafOut .multiClassClassification t dd.labels = liftV (classLeaf t (mates (treeOf (amgLeaf .multiClassClassification t) c t m
      { d with labels := lift rs }) (d.featureRows.zip rs) row)) := by
    rw [h1]
    simp only [leafOut]
    rw [multiOut_exact h4 h3 (fun r hr => hg r (mates_mem r hr))]
  rw [h5] at ho
  obtain ⟨k, hk, h6, _⟩ := amgVec_exact h2 (classLeaf_length t (mates (treeOf (amgLeaf .multiClassClassification t) c t m
      { d with labels := lift rs }) (d.featureRows.zip rs) row))
  rw [h6] at ho
  exact ⟨_, ho, amgField_length _ _ _, amgField_sum h2 _ (by rwa [classLeaf_length] at hk)⟩

theorem amg_loop (h : d.WF c t) (h2 : 2 ≤ t) (hls : d.labels = lift ls) (hh : ∀ l ∈ ls, ∃ k < t, l = hot t k)
    (hc : cfg.numberOfClasses = t) (n : Nat) :
    ∃ s ps, boostLoop multiClassResiduals (fun d => amgTreeNew d cfg .multiClassClassification)
        (fun t tree => amgUpdateDatasetLabels t tree (.fin lr)) n (startState d (liftV (List.replicate t (1 / (t : K))))) = .ok s ∧
      ClassState (amgOut t) (amgLeaf .multiClassClassification t) d c t cfg.maxLevels ls (liftV (List.replicate t (1 / (t : K)))) lr s ps := by
  have hg : (liftV (List.replicate t (1 / (t : K))) : List (Ext K)).length = t := by simp [liftV]
  induction n with
  | zero => exact ⟨_, _, rfl, class_start _ (by simp)⟩
  | succ n ih =>
    obtain ⟨s, ps, h1, h3⟩ := ih
    obtain ⟨s', h4⟩ := amg_step h (by omega) hc hg s h3.finite.tracks
    obtain ⟨ps', h5⟩ := class_step_exact h h2 hls hh hg (amg_out h2 _)
      (fun dd hd => amgTreeNew_ok hd hc _) (amg_updateAdds _ _) h3 h4
    exact ⟨s', ps', by rw [boostLoop_succ, h1]; exact h4, h5⟩

theorem amg_train (h : d.WF c t) (h2 : 2 ≤ t) (ht : t ≤ 2 ^ 53) {n : Nat}
    {s : TrainingData (Ext K) × List (TreeNode (Ext K) (AMGBoostLeaf (Ext K)))}
    (hl : boostLoop multiClassResiduals (fun d => amgTreeNew d cfg .multiClassClassification)
        (fun t tree => amgUpdateDatasetLabels t tree (.fin lr)) n (startState d (liftV (List.replicate t (1 / (t : K))))) = .ok s) :
    amgTrain d cfg n (.fin lr) =
      .ok { trees := s.2, initialGuess := liftV (List.replicate t (1 / (t : K))), learningRate := .fin lr } := by
  have hg := guess_class h (by omega) ht (s := d.labels.length) (ty := .amgBoost) (by simp)
  have hfull := boostingLoop_mk (ex := { ensembleType := .amgBoost, loopExecutor := amgLoop }) hg (n := n) (cfg := cfg)
    (lr := Ext.fin lr) (final := s.1) (trees := s.2) hl
  exact train_of_full hfull

end amg

/-- **C41**.  One-hot labels of two or more classes: the raw AMG scores of every row are finite and add up to 1, for every number of
iterations and every learning rate. -/
theorem C41_scores_sum_to_one (d : DataSet (Ext K)) (c t : Nat) (h : d.WF c t) (h2 : 2 ≤ t) (ht : t ≤ 2 ^ 53)
    (hot : ∀ l ∈ d.labels, ∃ k < t, l = oneHot t k) (cfg : TreeConfig) (hc : cfg.numberOfClasses = t) (n : Nat) (lr : K) :
    ∃ m : BoostModel (Ext K) (AMGBoostLeaf (Ext K)), amgTrain d cfg n (.fin lr) = .ok m ∧ m.trees.length = n ∧
      ∀ row : List (Ext K), c ≤ row.length → ∃ v : List K, v.length = t ∧ v.sum = 1 ∧
        amgPredictInstance row m.trees m.initialGuess m.learningRate m.initialGuess.length = .ok (liftV v) := by
  obtain ⟨ls, hls, hh⟩ := labels_hot hot
  obtain ⟨s, ps, h3, hs⟩ := amg_loop (lr := lr) h h2 hls hh hc n
  refine ⟨_, amg_train h h2 ht h3, boostLoop_length h3, ?_⟩
  intro row hrow
  obtain ⟨outs, _, hz, h4⟩ := class_score h h2 hls hh (amg_out h2 _) (by simp) hs row hrow
  have hgl : (liftV (List.replicate t (1 / (t : K))) : List (Ext K)).length = t := by simp [liftV]
  refine ⟨_, ?_, ?_, by rw [amgPredictInstance_eq]; simp only [hgl]; exact h4⟩
  · rw [List.length_map, List.length_range]
  have hsum : ∀ outs : List (List K), (∀ o ∈ outs, o.length = t ∧ o.sum = 0) →
      ((List.range t).map (fun j => (outs.map (fun o => o.getD j 0)).sum)).sum = 0 := by
    intro outs
    induction outs with
    | nil => simp
    | cons o outs ih =>
      intro hz
      obtain ⟨h5, h6⟩ := hz o (by simp)
      simp only [List.map_cons, List.sum_cons, List.sum_map_add, ih (fun x hx => hz x (by simp [hx])), add_zero]
      rw [← eq_range_getD h5 0, h6]
  have hg : ((List.range t).map (fun j => (List.replicate t (1 / (t : K))).getD j 0)).sum = 1 := by
    rw [← eq_range_getD (by simp) 0]
    have : (t : K) ≠ 0 := by exact_mod_cast (by omega : t ≠ 0)
    simp [this]
  rw [List.sum_map_add, hg, List.sum_map_mul_left, hsum outs hz, mul_zero, add_zero]

/-- **C41**.  The same for any model, however it was obtained: if the initial guess is finite and every tree routes the row to a leaf
with finite largest value and a valid class index, the total of the scores is the total of the initial guess. -/
theorem C41_any_model (m : BoostModel (Ext K) (AMGBoostLeaf (Ext K))) (t : Nat) (h2 : 2 ≤ t) (g : List K) (hg : m.initialGuess = liftV g)
    (hgt : g.length = t) (lr : K) (hlr : m.learningRate = .fin lr) (row : List (Ext K))
    (ht : ∀ tree ∈ m.trees, ∃ (leaf : AMGBoostLeaf (Ext K)) (mx : K) (k : Nat), findLeafNodeForData row tree = .ok leaf ∧
      leaf.maxValue = some (.fin mx) ∧ leaf.cls = some k ∧ k < t) :
    ∃ v : List K, v.length = t ∧ v.sum = g.sum ∧
      amgPredictInstance row m.trees m.initialGuess m.learningRate m.initialGuess.length = .ok (liftV v) := by
  have hgl : m.initialGuess.length = t := by rw [hg, liftV_length, hgt]
  have h5 : ∃ outs : List (List K), List.Forall₂ (fun tree o => amgOut t row tree = .ok (liftV o) ∧ o.length = t ∧ o.sum = 0) m.trees outs := by
    revert ht
    generalize m.trees = trees
    intro this
    induction trees with
    | nil => exact ⟨[], .nil⟩
    | cons x xs ih =>
      obtain ⟨outs, h6⟩ := ih (fun y hy => this y (by simp [hy]))
      obtain ⟨leaf, mx, k, h7, h8, h9, h10⟩ := this x (by simp)
      obtain ⟨o, h11, h12, h13, _⟩ := C41_leaf_sums_to_zero t h2 leaf mx k h10 h8 h9
      exact ⟨o :: outs, .cons ⟨by rw [amgOut, h7]; exact h11, h12, h13⟩ h6⟩
  obtain ⟨outs, h6⟩ := h5
  refine ⟨_, ?_, ?_, by
    rw [amgPredictInstance_eq, hgl, hg, hlr]
    exact rawScore_exact hgt (h6.imp (fun _ _ h => ⟨h.1, h.2.1⟩))⟩
  · rw [List.length_map, List.length_range]
  have hz : ∀ o ∈ outs, o.length = t ∧ o.sum = 0 := by
    intro o hmem
    obtain ⟨i, hi, rfl⟩ := List.getElem_of_mem hmem
    have hl := h6.length_eq
    rw [List.forall₂_iff_get] at h6
    exact (h6.2 i (by omega) hi).2
  have hsum : ∀ outs : List (List K), (∀ o ∈ outs, o.length = t ∧ o.sum = 0) →
      ((List.range t).map (fun j => (outs.map (fun o => o.getD j 0)).sum)).sum = 0 := by
    intro outs
    induction outs with
    | nil => simp
    | cons o outs ih =>
      intro hz
      obtain ⟨h5, h6⟩ := hz o (by simp)
      simp only [List.map_cons, List.sum_cons, List.sum_map_add, ih (fun x hx => hz x (by simp [hx])), add_zero]
      rw [← eq_range_getD h5 0, h6]
  rw [List.sum_map_add, ← eq_range_getD hgt 0, List.sum_map_mul_left, hsum outs hz, mul_zero, add_zero]

example : (do
    let m ← amgTrain d5 { useMultiThreading := true, numberOfClasses := 3, maxLevels := 1 } 1 (.fin (1 / 2))
    amgPredictInstance [3, 1] m.trees m.initialGuess m.learningRate m.initialGuess.length) =
    .ok [.fin (5 / 6), .fin (1 / 12), .fin (1 / 12)] := by decide +kernel

/-! ## C34: the scores behind the predicted class -/

/-- **C34** (multi-class).  The predicted class is the first largest entry of initial guess plus learning rate times the sum of the
outputs of the leaves the row reaches. -/
theorem C34_multiClass_additive (m : BoostModel (Ext K) (GradBoostLeaf (Ext K))) (t : Nat) (ht : 0 < t) (g : List K)
    (hg : m.initialGuess = liftV g) (hgt : g.length = t) (lr : K) (hlr : m.learningRate = .fin lr) (row : List (Ext K))
    (outs : List (List K)) (ho : List.Forall₂ (fun tree o => o.length = t ∧
      ∃ leaf : GradBoostLeaf (Ext K), findLeafNodeForData row tree = .ok leaf ∧ leaf.leafOutput = some (liftV o)) m.trees outs) :
    ∃ k < t, FirstMax (liftV ((List.range t).map (fun j => g.getD j 0 + lr * (outs.map (fun o => o.getD j 0)).sum))) k ∧
      multiClassPredict m row = .ok (oneHot t k) := by
  have h := C34_additive m t g hg hgt lr hlr row outs ho
  rw [regressionPredict] at h
  obtain ⟨k, h1, h2, h3⟩ := (C39_multiClass_one_hot m row _ h).1 (by
    intro h0
    have := congrArg List.length h0
    simp [liftV] at this
    omega)
  have hl : (liftV ((List.range t).map (fun j => g.getD j 0 + lr * (outs.map (fun o => o.getD j 0)).sum))).length = t := by
    simp [liftV]
  rw [hl] at h1 h3
  exact ⟨k, h1, h2, h3⟩

/-- **C34** (AMG).  The same with the vectors the AMG leaves stand for: the stored value `o.1` for the stored class `o.2`, and
`-o.1 / (t - 1)` for the other classes. -/
theorem C34_amg_additive (m : BoostModel (Ext K) (AMGBoostLeaf (Ext K))) (t : Nat) (h2 : 2 ≤ t) (g : List K)
    (hg : m.initialGuess = liftV g) (hgt : g.length = t) (lr : K) (hlr : m.learningRate = .fin lr) (row : List (Ext K))
    (outs : List (K × Nat)) (ho : List.Forall₂ (fun tree o => o.2 < t ∧ ∃ leaf : AMGBoostLeaf (Ext K),
      findLeafNodeForData row tree = .ok leaf ∧ leaf.maxValue = some (.fin o.1) ∧ leaf.cls = some o.2) m.trees outs) :
    ∃ k < t, FirstMax (liftV ((List.range t).map (fun j =>
        g.getD j 0 + lr * (outs.map (fun o => if j = o.2 then o.1 else -o.1 / ((t : K) - 1))).sum))) k ∧
      amgPredict m row = .ok (oneHot t k) := by
  have hgl : m.initialGuess.length = t := by rw [hg, liftV_length, hgt]
  have h5 : List.Forall₂ (fun tree o => amgOut t row tree = .ok (liftV o) ∧ o.length = t) m.trees
      (outs.map (fun o => (List.range t).map (fun j => if j = o.2 then o.1 else -o.1 / ((t : K) - 1)))) := by
    rw [List.forall₂_map_right_iff]
    refine ho.imp ?_
    rintro tree o ⟨h6, leaf, h7, h8, h9⟩
    obtain ⟨v, h10, h11, _, h12⟩ := C41_leaf_sums_to_zero t h2 leaf o.1 o.2 h6 h8 h9
    rw [← h12]
    exact ⟨by rw [amgOut, h7]; exact h10, h11⟩
  have h := rawScore_exact (lr := lr) hgt h5
  rw [← hlr, ← hg, ← amgPredictInstance_eq] at h
  have hs : (List.range t).map (fun j => g.getD j 0 + lr * ((outs.map (fun o => (List.range t).map (fun j =>
      if j = o.2 then o.1 else -o.1 / ((t : K) - 1)))).map (fun o => o.getD j 0)).sum) = (List.range t).map (fun j =>
        g.getD j 0 + lr * (outs.map (fun o => if j = o.2 then o.1 else -o.1 / ((t : K) - 1))).sum) := by
    apply List.map_congr_left
    intro j hj
    rw [List.mem_range] at hj
    rw [List.map_map]
    congr 1
    refine congrArg (fun l => lr * List.sum l) (List.map_congr_left (fun o _ => ?_))
    simp [hj]
  rw [hs] at h
  obtain ⟨k, h6, h7, h8⟩ := (C39_amg_one_hot m row _ (by rw [hgl]; exact h)).1 (by
    intro h0
    have := congrArg List.length h0
    simp [liftV] at this
    omega)
  have hl : ∀ f : Nat → K, (liftV ((List.range t).map f)).length = t := by
    intro f
    simp [liftV]
  rw [hl] at h6 h8
  exact ⟨k, h6, h7, h8⟩

-- the hypotheses hold of trained models
example : (do
    let m ← multiClassTrain d5 { useMultiThreading := true, numberOfClasses := 3, maxLevels := 1 } 1 (.fin (1 / 2))
    let leaves ← m.trees.mapM (findLeafNodeForData [3, 1])
    pure (m.initialGuess, leaves.map GradBoostLeaf.leafOutput, ← multiClassPredict m [3, 1])) =
    .ok (List.replicate 3 (.fin (1 / 3)), [some [1, .fin (-1), 0]], [1, 0, 0]) := by decide +kernel
example : (do
    let m ← amgTrain d5 { useMultiThreading := true, numberOfClasses := 3, maxLevels := 1 } 1 (.fin (1 / 2))
    let leaves ← m.trees.mapM (findLeafNodeForData [3, 1])
    pure (leaves.map (fun (l : AMGBoostLeaf E) => (l.maxValue, l.cls)), ← amgPredict m [3, 1])) = .ok ([(some 1, some 0)], [1, 0, 0]) := by
  decide +kernel

end Verif
