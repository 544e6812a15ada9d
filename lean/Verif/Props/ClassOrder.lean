import Verif.Props.Relabel
import Verif.Props.ExactClass
/-!
# C54: the order in which the classes are listed

In exact arithmetic the order of the classes does not influence the scores of the multi-class ensemble.  The AMG ensemble and ties
between classes do depend on it.
-/

set_option linter.unusedSectionVars false

namespace Verif

variable {K : Type} [Field K] [LinearOrder K] [IsStrictOrderedRing K] [FloorSemiring K] [HasExp K]

open Sample

section
variable {t : Nat} {σ : Nat → Nat}

theorem reorder_eq (v : List K) : relabel t σ 1 (fun _ => 0) v = reorder t σ v := by
  simp [relabel, reorder]

theorem reorder_fun : (reorder t σ : List K → List K) = relabel t σ 1 (fun _ => 0) := funext fun v => (reorder_eq v).symm

theorem reorder_length (v : List K) : (reorder t σ v).length = t := by simp [reorder]

theorem Reorders.surj (h : Reorders t σ) {k : Nat} (hk : k < t) : ∃ j < t, σ j = k := by
  have := h.perm.mem_iff.mpr (List.mem_range.mpr hk)
  obtain ⟨j, hj, rfl⟩ := List.mem_map.mp this
  exact ⟨j, List.mem_range.mp hj, rfl⟩

theorem reorder_hot (h : Reorders t σ) {k : Nat} (hk : k < t) : ∃ j < t, σ j = k ∧ reorder t σ (hot t k : List K) = hot t j := by
  obtain ⟨j, hj, rfl⟩ := h.surj hk
  refine ⟨j, hj, rfl, ?_⟩
  apply List.map_congr_left
  intro i hi
  rw [List.mem_range] at hi
  rw [hot, getD_range (h.1 i hi)]
  by_cases hij : i = j
  · simp [hij]
  · have : σ i ≠ σ j := fun he => hij (h.2 i hi j hj he)
    simp [hij, this]

theorem map_reorder (h : Reorders t σ) (f : K → K) {v : List K} (hv : v.length = t) : (reorder t σ v).map f = reorder t σ (v.map f) := by
  rw [reorder, reorder, List.map_map]
  apply List.map_congr_left
  intro j hj
  have : σ j < v.length := by rw [hv]; exact h.1 j (List.mem_range.mp hj)
  simp [this]

theorem sum_reorder (h : Reorders t σ) {v : List K} (hv : v.length = t) : (reorder t σ v).sum = v.sum := by
  have h1 : reorder t σ v = ((List.range t).map σ).map (fun j => v.getD j 0) := by rw [List.map_map]; rfl
  rw [h1, (h.perm.map _).sum_eq, ← eq_range_getD hv 0]

theorem softmax_reorder (h : Reorders t σ) {v : List K} (hv : v.length = t) : softmax (reorder t σ v) = reorder t σ (softmax v) := by
  have h1 : ((reorder t σ v).map HasExp.exp).sum = (v.map HasExp.exp).sum := by
    rw [map_reorder h _ hv, sum_reorder h (by simpa using hv)]
  rw [softmax, softmax, h1, map_reorder h _ hv]

theorem probResid_reorder (h : Reorders t σ) {ls ps : List (List K)} (hl : ∀ l ∈ ls, l.length = t) (hp : ∀ p ∈ ps, p.length = t) :
    probResid (ls.map (reorder t σ)) (ps.map (reorder t σ)) = (probResid ls ps).map (reorder t σ) := by
  apply List.ext_getElem (by simp [probResid])
  intro i h1 h2
  simp only [probResid, List.length_zipWith, List.length_map] at h1
  have b1 := hl _ (List.getElem_mem (by omega : i < ls.length))
  have b2 := hp _ (List.getElem_mem (by omega : i < ps.length))
  simp only [probResid, List.getElem_zipWith, List.getElem_map]
  rw [softmax_reorder h b2, zipWith_getD (reorder_length _) (reorder_length _) 0 0,
    zipWith_getD b1 (by rw [softmax_length, b2]) 0 0]
  apply List.map_congr_left
  intro j hj
  rw [List.mem_range] at hj
  simp only [reorder, getD_range hj, getD_range (h.1 j hj)]

theorem classLeaf_reorder (h : Reorders t σ) (rs : List (List K)) : classLeaf t (rs.map (reorder t σ)) = reorder t σ (classLeaf t rs) := by
  rw [classLeaf, reorder]
  apply List.map_congr_left
  intro j hj
  rw [List.mem_range] at hj
  rw [classLeaf, getD_range (h.1 j hj), reorder_fun, target_relabel rs hj]
  simp

end

section loop
variable {d : DataSet (Ext K)} {c t : Nat} {ls : List (List K)} {cfg : TreeConfig} {lr : K} {σ : Nat → Nat}

/-- the classification tree fitted to residuals -/
abbrev classTree (c t m : Nat) (d : DataSet (Ext K)) (rs : List (List K)) : TreeNode (Ext K) (GradBoostLeaf (Ext K)) :=
  treeOf (gradLeaf .multiClassClassification t) c t m (withLabels d rs)

/-- its outputs -/
abbrev classOut (c t m : Nat) (d : DataSet (Ext K)) (rs : List (List K)) (row : List (Ext K)) : List K :=
  classLeaf t (mates (classTree c t m d rs) (d.featureRows.zip rs) row)

theorem classTree_reorder (hσ : Reorders t σ) {rs : List (List K)} (hw : (withLabels d rs).WF c t) (m : Nat) :
    (∀ p, (classTree c t m d (rs.map (reorder t σ))).questionAt p = (classTree c t m d rs).questionAt p) ∧
      ∀ row, (classTree c t m d (rs.map (reorder t σ))).route row = (classTree c t m d rs).route row := by
  have := treeOf_relabel (a := (1 : K)) (b := fun _ => 0) (leafOf := gradLeaf .multiClassClassification t)
    (leafOf' := gradLeaf .multiClassClassification t) hσ one_ne_zero m (withLabels d rs) hw rs rfl
  rw [← reorder_fun] at this
  exact ⟨this.1, this.2.1⟩

theorem classOut_reorder (hσ : Reorders t σ) {rs : List (List K)} (hw : (withLabels d rs).WF c t) (m : Nat) (row : List (Ext K)) :
    classOut c t m d (rs.map (reorder t σ)) row = reorder t σ (classOut c t m d rs row) := by
  have hm := mates_relabel (classTree_reorder hσ hw m).2 d.featureRows rs (reorder t σ) row
  rw [classOut, hm, classLeaf_reorder hσ]

theorem class_step_explicit (h : d.WF c t) (h2 : 2 ≤ t) (hls : d.labels = lift ls) (hh : ∀ l ∈ ls, ∃ k < t, l = hot t k)
    (hc : cfg.numberOfClasses = t) {guess : List (Ext K)} (hg : guess.length = t)
    {s : TrainingData (Ext K) × List (TreeNode (Ext K) (GradBoostLeaf (Ext K)))} {ps : List (List K)}
    (hs : Finite gradOut d guess lr t s ps) :
    ∃ s', boostStep multiClassResiduals (fun d => gradBoostTreeNew d cfg .multiClassClassification)
        (fun t tree => updateDatasetLabels t tree (.fin lr)) s = .ok s' ∧
      Finite gradOut d guess lr t s' (updated lr (classOut c t cfg.maxLevels d (probResid ls ps)) ps d.featureRows) ∧
      s'.2 = s.2 ++ [classTree c t cfg.maxLevels d (probResid ls ps)] := by
  obtain ⟨s', hb⟩ := multiClass_step h hc hg s hs.tracks
  refine ⟨s', hb, ?_⟩
  have hwf := probResid_wf h hls hs.len hs.width
  have hps_rows : ps.length = d.featureRows.length := by rw [hs.len, h.label_count]
  have hu := grad_updateAdds (Ext.fin lr) guess.length
  have htr' := tracks_step hu hs.tracks hb
  obtain ⟨r, tree, t1, h1, h3, h4, rfl⟩ := boostStep_inv hb
  rw [multiClassResiduals_ok h hg hs.tracks, hs.labels, hls, probResid_lift (by omega) hs.width] at h1
  have := Except.ok.inj h1
  subst this
  rw [hs.tracks.data, gradBoostTreeNew_ok hwf hc] at h3
  have := Except.ok.inj h3
  subst this
  have hgood := probResid_good h2 hh hs.width
  refine ⟨⟨htr', ?_, ?_, ?_⟩, rfl⟩
  · rw [hg] at hu
    have := update_exact (o := classOut c t cfg.maxLevels d (probResid ls ps)) hu hs.labels (by rw [hs.len, hs.tracks.size]) hs.width
      (by rw [hs.tracks.data, hs.tracks.size, h.label_count])
      (fun row hrow => gradOut_class_exact cfg.maxLevels hwf (rs := probResid ls ps) rfl hgood (by
        rw [hs.tracks.data] at hrow
        exact (h.row_len row hrow).ge)) h4
    rw [hs.tracks.data] at this
    exact this
  · rw [updated_length hps_rows, hs.len]
  · exact updated_width hs.width (fun row _ => classLeaf_length _ _)

theorem hot_reorder (hσ : Reorders t σ) (hh : ∀ l ∈ ls, ∃ k < t, l = hot t k) : ∀ l ∈ ls.map (reorder t σ), ∃ k < t, l = hot t k := by
  intro l hl
  obtain ⟨l', hl', rfl⟩ := List.mem_map.mp hl
  obtain ⟨k, hk, rfl⟩ := hh l' hl'
  obtain ⟨j, hj, _, h⟩ := reorder_hot (K := K) hσ hk
  exact ⟨j, hj, h⟩

theorem withLabels_reorder_wf (h : d.WF c t) (hls : d.labels = lift ls) : (withLabels d (ls.map (reorder t σ))).WF c t := by
  rw [reorder_fun]
  exact withLabels_wf h hls

/-- two runs of the loop side by side -/
theorem loop_reorder (h : d.WF c t) (h2 : 2 ≤ t) (hls : d.labels = lift ls) (hh : ∀ l ∈ ls, ∃ k < t, l = hot t k)
    (hc : cfg.numberOfClasses = t) (hσ : Reorders t σ) (n : Nat) :
    ∃ s s' ps, boostLoop multiClassResiduals (fun d => gradBoostTreeNew d cfg .multiClassClassification)
        (fun t tree => updateDatasetLabels t tree (.fin lr)) n (startState d (liftV (List.replicate t (1 / (t : K))))) = .ok s ∧
      boostLoop multiClassResiduals (fun d => gradBoostTreeNew d cfg .multiClassClassification)
        (fun t tree => updateDatasetLabels t tree (.fin lr)) n
        (startState (withLabels d (ls.map (reorder t σ))) (liftV (List.replicate t (1 / (t : K))))) = .ok s' ∧
      Finite gradOut d (liftV (List.replicate t (1 / (t : K)))) lr t s ps ∧
      Finite gradOut (withLabels d (ls.map (reorder t σ))) (liftV (List.replicate t (1 / (t : K)))) lr t s' (ps.map (reorder t σ)) ∧
      List.Forall₂ (fun tree tree' => ∃ rs : List (List K), (withLabels d rs).WF c t ∧ (∀ r ∈ rs, Good r) ∧
        (∀ r ∈ rs.map (reorder t σ), Good r) ∧ tree = classTree c t cfg.maxLevels d rs ∧
        tree' = classTree c t cfg.maxLevels d (rs.map (reorder t σ))) s.2 s'.2 := by
  have hlw := lift_width hls h.label_len
  have hw' := withLabels_reorder_wf (σ := σ) h hls
  have hh' := hot_reorder hσ hh
  have hg : (liftV (List.replicate t (1 / (t : K))) : List (Ext K)).length = t := by simp [liftV]
  have hr : reorder t σ (List.replicate t (1 / (t : K))) = List.replicate t (1 / (t : K)) := by
    rw [List.eq_replicate_iff]
    refine ⟨reorder_length _, ?_⟩
    intro x hx
    obtain ⟨j, hj, rfl⟩ := List.mem_map.mp hx
    have := hσ.1 j (List.mem_range.mp hj)
    simp [List.getD_eq_getElem?_getD, this]
  induction n with
  | zero =>
    refine ⟨_, _, List.replicate d.labels.length (List.replicate t (1 / (t : K))), rfl, rfl,
      (class_start (t := t) (m := 0) (ls := ls) (leafOf := fun _ => ⟨none⟩) (c := c) (out := gradOut) _ (by simp)).finite, ?_, .nil⟩
    have := (class_start (t := t) (d := withLabels d (ls.map (reorder t σ))) (lr := lr) (m := 0) (ls := ls) (leafOf := fun _ => ⟨none⟩) (c := c) (out := gradOut)
      (List.replicate t (1 / (t : K))) (by simp)).finite
    rw [List.map_replicate, hr]
    have hl : (withLabels d (ls.map (reorder t σ))).labels.length = d.labels.length := by simp [hls, lift]
    rw [hl] at this
    exact this
  | succ n ih =>
    obtain ⟨s, s', ps, h1, h3, h4, h5, h6⟩ := ih
    obtain ⟨s1, e1, f1, g1⟩ := class_step_explicit h h2 hls hh hc hg h4
    obtain ⟨s1', e1', f1', g1'⟩ := class_step_explicit hw' h2 rfl hh' hc hg h5
    rw [probResid_reorder hσ hlw h4.width] at f1' g1'
    have hrw := probResid_wf h hls h4.len h4.width
    refine ⟨s1, s1', _, by rw [boostLoop_succ, h1]; exact e1, by rw [boostLoop_succ, h3]; exact e1', f1, ?_, ?_⟩
    · have hq : updated lr (classOut c t cfg.maxLevels (withLabels d (ls.map (reorder t σ))) ((probResid ls ps).map (reorder t σ)))
          (ps.map (reorder t σ)) d.featureRows =
          (updated lr (classOut c t cfg.maxLevels d (probResid ls ps)) ps d.featureRows).map (reorder t σ) := by
        rw [updated, updated, List.zipWith_map_left, List.map_zipWith]
        apply List.ext_getElem (by simp)
        intro i k1 k2
        simp only [List.getElem_zipWith]
        have := classOut_reorder hσ hrw cfg.maxLevels
        rw [this]
        simp only [reorder_fun]
        exact step_relabel hσ (h4.width _ (List.getElem_mem _)) (classLeaf_length _ _)
      rw [← hq]
      exact f1'
    · rw [g1, g1']
      refine List.rel_append h6 (.cons ⟨_, hrw, probResid_good h2 hh h4.width, ?_, rfl, rfl⟩ .nil)
      rw [← probResid_reorder hσ hlw h4.width]
      exact probResid_good h2 hh' h5.width

end loop

/-- the position of the only largest score -/
theorem predict_unique {m : BoostModel (Ext K) (GradBoostLeaf (Ext K))} {row : List (Ext K)} {v : List K} {t k : Nat} (hv : v.length = t)
    (hp : predictInstance row m.trees m.initialGuess m.learningRate = .ok (liftV v)) (hk : k < t)
    (hm : ∀ j < t, j ≠ k → v.getD j 0 < v.getD k 0) : multiClassPredict m row = .ok (oneHot t k) := by
  have hne : (liftV v : List (Ext K)) ≠ [] := by
    intro h0
    have := congrArg List.length h0
    rw [liftV_length, hv] at this
    simp at this
    omega
  obtain ⟨k', h1, h2, h3⟩ := (C39_multiClass_one_hot m row _ hp).1 hne
  rw [liftV_length, hv] at h1 h3
  have hk' : FirstMax (liftV v) k := by
    have hkv : k < v.length := by omega
    refine .inl ⟨.fin (v.getD k 0), by simp [liftV, hkv], rfl, ?_, ?_⟩
    · intro x hx
      obtain ⟨y, hy, rfl⟩ := List.mem_map.mp hx
      obtain ⟨j, hj, rfl⟩ := List.getElem_of_mem hy
      rw [Ext.fin_lt, decide_eq_false_iff_not, _root_.not_lt]
      by_cases hjk : j = k
      · subst hjk; simp [hj]
      · have := hm j (by omega) hjk
        simp only [List.getD_eq_getElem?_getD, List.getElem?_eq_getElem hj, Option.getD_some] at this
        exact this.le
    · intro j x hj hx
      have hj' : j < v.length := by omega
      simp only [liftV, List.getElem?_map, List.getElem?_eq_getElem hj', Option.map_some, Option.some.injEq] at hx
      subst hx
      have := hm j (by omega) (by omega)
      simp only [List.getD_eq_getElem?_getD, List.getElem?_eq_getElem hj', Option.getD_some] at this
      rw [Ext.fin_le, decide_eq_false_iff_not, _root_.not_le]
      simpa [List.getD_eq_getElem?_getD] using this
  rw [h3, C39_unique _ _ _ h2 hk']

/-- **C54** (multi-class ensemble).  List the classes in another order, in all labels.  All trees ask the same questions and the scores
of every row are listed in the new order; a class that alone has the largest score is predicted by both. -/
theorem C54_class_order (d : DataSet (Ext K)) (c t : Nat) (h : d.WF c t) (h2 : 2 ≤ t) (ht : t ≤ 2 ^ 53) (ls : List (List K))
    (hls : d.labels = lift ls) (hot : ∀ l ∈ d.labels, ∃ k < t, l = oneHot t k) (σ : Nat → Nat) (hσ : Reorders t σ) (cfg : TreeConfig)
    (hc : cfg.numberOfClasses = t) (n : Nat) (lr : K) :
    ∃ m m', multiClassTrain d cfg n (.fin lr) = .ok m ∧
      multiClassTrain { d with labels := lift (ls.map (reorder t σ)) } cfg n (.fin lr) = .ok m' ∧
      List.Forall₂ (fun tree tree' => ∀ p, TreeNode.questionAt tree' p = TreeNode.questionAt tree p) m.trees m'.trees ∧
      ∀ row : List (Ext K), c ≤ row.length → ∃ v : List K, v.length = t ∧
        predictInstance row m.trees m.initialGuess m.learningRate = .ok (liftV v) ∧
        predictInstance row m'.trees m'.initialGuess m'.learningRate = .ok (liftV (reorder t σ v)) ∧
        ∀ k < t, (∀ j < t, j ≠ σ k → v.getD j 0 < v.getD (σ k) 0) →
          multiClassPredict m row = .ok (oneHot t (σ k)) ∧ multiClassPredict m' row = .ok (oneHot t k) := by
  have hh : ∀ l ∈ ls, ∃ k < t, l = Verif.hot t k := by
    obtain ⟨ls', e, hh⟩ := labels_hot hot
    rw [hls] at e
    rw [lift_injective e]
    exact hh
  obtain ⟨s, s', ps, h1, h3, h4, h5, h6⟩ := loop_reorder (lr := lr) h h2 hls hh hc hσ n
  have hw' := withLabels_reorder_wf (σ := σ) h hls
  refine ⟨_, _, multi_train h h2 ht h1, multi_train hw' h2 ht h3, ?_, ?_⟩
  · refine h6.imp ?_
    rintro tree tree' ⟨rs, hr, _, _, rfl, rfl⟩
    exact (classTree_reorder hσ hr cfg.maxLevels).1
  · intro row hrow
    have : ∃ outs : List (List K),
        List.Forall₂ (fun tree o => gradOut row tree = .ok (liftV o) ∧ o.length = t) s.2 outs ∧
        List.Forall₂ (fun tree o => gradOut row tree = .ok (liftV o) ∧ o.length = t) s'.2 (outs.map (reorder t σ)) := by
      revert h6
      generalize s.2 = ts, s'.2 = ts'
      intro h6
      induction h6 with
      | nil => exact ⟨[], .nil, .nil⟩
      | @cons tree tree' ts ts' hx _ ih =>
        obtain ⟨outs, k2, k3⟩ := ih
        obtain ⟨rs, hr, hgd, hgd', rfl, rfl⟩ := hx
        refine ⟨classOut c t cfg.maxLevels d rs row :: outs, .cons ⟨?_, classLeaf_length _ _⟩ k2, ?_⟩
        · exact gradOut_class_exact cfg.maxLevels hr (rs := rs) rfl hgd hrow
        · refine .cons ⟨?_, reorder_length _⟩ k3
          rw [← classOut_reorder hσ hr]
          exact gradOut_class_exact cfg.maxLevels (withLabels_reorder_wf hr rfl) (rs := rs.map (reorder t σ)) rfl hgd' hrow
    obtain ⟨outs, k2, k3⟩ := this
    set v := (List.range t).map (fun j => (List.replicate t (1 / (t : K))).getD j 0 + lr * (outs.map (fun o => o.getD j 0)).sum) with hv
    have hvl : v.length = t := by simp [hv]
    have p1 : predictInstance row s.2 (liftV (List.replicate t (1 / (t : K)))) (.fin lr) = .ok (liftV v) := by
      rw [predictInstance_eq]
      exact rawScore_exact (by simp) k2
    have p2 : predictInstance row s'.2 (liftV (List.replicate t (1 / (t : K)))) (.fin lr) = .ok (liftV (reorder t σ v)) := by
      rw [predictInstance_eq]
      refine (rawScore_exact (by simp) k3).trans ?_
      congr 2
      rw [reorder]
      apply List.map_congr_left
      intro j hj
      rw [List.mem_range] at hj
      rw [hv, getD_range (hσ.1 j hj), List.map_map]
      have e1 : ∀ i < t, (List.replicate t (1 / (t : K))).getD i 0 = 1 / (t : K) := by
        intro i hi
        simp [List.getD_eq_getElem?_getD, hi]
      rw [e1 _ hj, e1 _ (hσ.1 j hj)]
      congr 3
      apply List.map_congr_left
      intro o _
      simp only [Function.comp_apply, reorder, getD_range hj]
    refine ⟨v, hvl, p1, p2, ?_⟩
    intro k hk hm
    refine ⟨predict_unique (m := ⟨s.2, _, _⟩) hvl p1 (hσ.1 k hk) hm, predict_unique (m := ⟨s'.2, _, _⟩) (reorder_length v) p2 hk ?_⟩
    intro j hj hjk
    rw [reorder, getD_range hj, getD_range hk]
    exact hm (σ j) (hσ.1 j hj) (fun he => hjk (hσ.2 j hj k hk he))

/-- exchange the first two classes -/
def swap01 (j : Nat) : Nat := if j = 0 then 1 else if j = 1 then 0 else j

theorem swap01_reorders : Reorders 3 swap01 := ⟨by decide, by decide⟩

-- scores and predicted class of a row, with the classes in the two orders
example : d5.labels = lift [[1, 0, 0], [0, 1, 0], [0, 1, 0], [0, 0, 1], [1, 0, 0]] ∧
    (do
      let m ← multiClassTrain d5 (exCfg 3) 1 (.fin (1 / 2))
      pure (← predictInstance [3, 1] m.trees m.initialGuess m.learningRate, ← multiClassPredict m [3, 1])) =
        .ok ([.fin (5 / 6), .fin (-1 / 6), .fin (1 / 3)], oneHot 3 0) ∧
    (do
      let m ← multiClassTrain
        { d5 with labels := lift ([[1, 0, 0], [0, 1, 0], [0, 1, 0], [0, 0, 1], [1, 0, 0]].map (reorder 3 swap01)) } (exCfg 3) 1 (.fin (1 / 2))
      pure (← predictInstance [3, 1] m.trees m.initialGuess m.learningRate, ← multiClassPredict m [3, 1])) =
        .ok ([.fin (-1 / 6), .fin (5 / 6), .fin (1 / 3)], oneHot 3 1) := by decide +kernel

/-- two indistinguishable rows of different classes -/
def evenPair : DataSet E := { featureRows := [[0], [0]], labels := lift [[1, 0, 0], [0, 1, 0]], featureColumns := [[0, 0]] }

theorem evenPair_wf : evenPair.WF 1 3 :=
  ⟨by decide +kernel, by decide +kernel, by decide +kernel, by decide +kernel, by decide +kernel, by decide +kernel,
    by decide +kernel⟩

/-- **C54** (defect of the AMG ensemble).  Its scores do depend on the order of the classes: a leaf keeps only the first of the largest
entries, so for two rows that share their features the class listed first gets the only largest score.  Exchange the two classes and the
scores do not change with them; the other class is predicted. -/
theorem C54_amg_violated : evenPair.WF 1 3 ∧ (∀ l ∈ evenPair.labels, ∃ k < 3, l = oneHot 3 k) ∧ Reorders 3 swap01 ∧
    (do
      let m ← amgTrain evenPair (exCfg 3) 1 (.fin (1 / 2))
      pure (← amgPredictInstance [0] m.trees m.initialGuess m.learningRate m.initialGuess.length, ← amgPredict m [0])) =
        .ok ([.fin (7 / 12), .fin (5 / 24), .fin (5 / 24)], oneHot 3 0) ∧
    (do
      let m ← amgTrain { evenPair with labels := lift ([[1, 0, 0], [0, 1, 0]].map (reorder 3 swap01)) } (exCfg 3) 1 (.fin (1 / 2))
      pure (← amgPredictInstance [0] m.trees m.initialGuess m.learningRate m.initialGuess.length, ← amgPredict m [0])) =
        .ok ([.fin (7 / 12), .fin (5 / 24), .fin (5 / 24)], oneHot 3 0) :=
  ⟨evenPair_wf, by decide +kernel, swap01_reorders, by decide +kernel, by decide +kernel⟩

end Verif
