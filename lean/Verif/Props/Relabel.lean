import Verif.Lemmas.Relabel
import Verif.Props.ExactBoost
/-!
# C53: other units and another order for the targets

In exact arithmetic: multiply all labels by one number that is not zero, add to each target its own constant, and list the targets in
another order.  The learners ask the same questions, and their outputs change as the labels did.
-/

set_option linter.unusedSectionVars false

namespace Verif

variable {K : Type} [Field K] [LinearOrder K] [IsStrictOrderedRing K] [FloorSemiring K] [HasExp K]

open Sample

section
variable {t : Nat} {σ : Nat → Nat} {a : K} {b : Nat → K}

theorem sqErr_relabel (hσ : Reorders t σ) {p v : List K} (hp : p.length = t) (hv : v.length = t) :
    sqErr (relabel t σ a b p) (relabel t σ a b v) = a ^ 2 * sqErr p v := by
  rw [sqErr_eq (relabel_length p) (relabel_length v), sqErr_eq hp hv, mul_div_assoc', ← List.sum_map_mul_left]
  congr 1
  have h1 : (List.range t).map (fun j => ((relabel t σ a b p).getD j 0 - (relabel t σ a b v).getD j 0) ^ 2) =
      ((List.range t).map σ).map (fun j => a ^ 2 * (p.getD j 0 - v.getD j 0) ^ 2) := by
    rw [List.map_map]
    apply List.map_congr_left
    intro j hj
    rw [List.mem_range] at hj
    simp only [relabel, getD_range hj, Function.comp_apply]
    ring
  rw [h1]
  exact (hσ.perm.map _).sum_eq

theorem mseOf_relabel (hσ : Reorders t σ) {ps as : List (List K)} (hp : ∀ p ∈ ps, p.length = t) (ha : ∀ v ∈ as, v.length = t) :
    mseOf (ps.map (relabel t σ a b)) (as.map (relabel t σ a b)) = a ^ 2 * mseOf ps as := by
  have hm : ∀ (r : K) (xs : List K), r * xs.sum = (xs.map (fun x => r * x)).sum := by
    intro r xs
    rw [List.sum_map_mul_left, List.map_id']
  rw [mseOf, mseOf, List.length_map, mul_div_assoc', hm, List.zipWith_map, List.map_zipWith]
  congr 2
  apply List.ext_getElem (by simp)
  intro i h1 h2
  simp only [List.getElem_zipWith]
  exact sqErr_relabel hσ (hp _ (List.getElem_mem _)) (ha _ (List.getElem_mem _))

theorem mates_ne {L : Type} {d : DataSet (Ext K)} {c : Nat} (h : d.WF c t) {ls : List (List K)} (hls : d.labels = lift ls) (m : Nat)
    (leafOf : DataSet (Ext K) → L) {row : List (Ext K)} (hrow : c ≤ row.length) :
    mates (treeOf leafOf c t m d) (d.featureRows.zip ls) row ≠ [] := by
  obtain ⟨dd, hw, hf, he⟩ := tree_lookup (leafOf := leafOf) m h hrow
  exact (mates_ok hls hw he).2.1

end

/-- **C53** (split search).  The same question is asked; the gain is multiplied by the square of the factor. -/
theorem C53_split (d : DataSet (Ext K)) (c t : Nat) (h : d.WF c t) (ls : List (List K)) (hls : d.labels = lift ls)
    (σ : Nat → Nat) (hσ : Reorders t σ) (a : K) (ha : a ≠ 0) (b : Nat → K) :
    ∃ s s' g, findBestSplit d t = .ok s ∧ findBestSplit { d with labels := lift (ls.map (relabel t σ a b)) } t = .ok s' ∧
      s'.question = s.question ∧ s.gain = .fin g ∧ s'.gain = .fin (a ^ 2 * g) := by
  obtain ⟨g, h1, h2⟩ := splitOf_relabel (b := b) hσ ha h hls
  exact ⟨_, _, g, findBestSplit_ok h, findBestSplit_ok (withLabels_wf h hls), by rw [h2], h1, by rw [h2]⟩

/-- **C53** (regression tree).  The same questions at every position, the same path for every row, and in every leaf the same rows with
the new labels. -/
theorem C53_regression_tree (d : DataSet (Ext K)) (c t : Nat) (h : d.WF c t) (ls : List (List K)) (hls : d.labels = lift ls)
    (σ : Nat → Nat) (hσ : Reorders t σ) (a : K) (ha : a ≠ 0) (b : Nat → K) (cfg : TreeConfig) (hc : cfg.numberOfClasses = t) :
    ∃ tree tree', regressionTreeNew d cfg = .ok tree ∧
      regressionTreeNew { d with labels := lift (ls.map (relabel t σ a b)) } cfg = .ok tree' ∧
      (∀ p, tree'.questionAt p = tree.questionAt p) ∧ (∀ row, tree'.route row = tree.route row) ∧
      ∀ p leaf, tree.leafAt p = some leaf → ∃ (dd : DataSet (Ext K)) (ms : List (List K)), leaf.data = some dd ∧ dd.labels = lift ms ∧
        tree'.leafAt p = some { data := some { dd with labels := lift (ms.map (relabel t σ a b)) } } := by
  obtain ⟨h1, h2, h3⟩ := treeOf_relabel (b := b) (leafOf := regLeaf) (leafOf' := regLeaf) hσ ha cfg.maxLevels d h ls hls
  refine ⟨_, _, regressionTreeNew_ok h hc, regressionTreeNew_ok (withLabels_wf h hls) hc, h1, h2, ?_⟩
  intro p leaf hp
  obtain ⟨dd, ms, _, hl, rfl, hy⟩ := h3 p leaf hp
  exact ⟨dd, ms, rfl, hl, hy⟩

/-- **C53** (score of a regression tree).  Trained and tested in the new units, a tree scores the old error times the square of the
factor. -/
theorem C53_tree_score (d : DataSet (Ext K)) (c t : Nat) (h : d.WF c t) (ht0 : 0 < t) (ls : List (List K)) (hls : d.labels = lift ls)
    (σ : Nat → Nat) (hσ : Reorders t σ) (a : K) (ha : a ≠ 0) (b : Nat → K) (cfg : TreeConfig) (hc : cfg.numberOfClasses = t)
    (test : DataSet (Ext K)) (hrows : ∀ row ∈ test.featureRows, c ≤ row.length) (as : List (List K)) (has : test.labels = lift as)
    (haw : ∀ v ∈ as, v.length = t) (hcount : as.length = test.featureRows.length) (hne : test.featureRows ≠ []) :
    ∃ tree tree' e, regressionTreeNew d cfg = .ok tree ∧
      regressionTreeNew { d with labels := lift (ls.map (relabel t σ a b)) } cfg = .ok tree' ∧
      calculateOverallMse test tree = .ok (.fin e) ∧
      calculateOverallMse { test with labels := lift (as.map (relabel t σ a b)) } tree' = .ok (.fin (a ^ 2 * e)) := by
  obtain ⟨h1, h2, h3⟩ := treeOf_relabel (b := b) (leafOf := regLeaf) (leafOf' := regLeaf) hσ ha cfg.maxLevels d h ls hls
  refine ⟨_, _, _, regressionTreeNew_ok h hc, regressionTreeNew_ok (withLabels_wf h hls) hc,
    overallMse_exact h ht0 hls cfg.maxLevels hrows has haw hcount hne, ?_⟩
  rw [overallMse_exact (test := { test with labels := lift (as.map (relabel t σ a b)) }) (withLabels_wf h hls) ht0 rfl cfg.maxLevels
    hrows rfl (by
      intro v hv
      obtain ⟨w, _, rfl⟩ := List.mem_map.mp hv
      exact relabel_length w) (by simpa using hcount) hne]
  rw [← mseOf_relabel (b := b) hσ (by
      intro p hp
      obtain ⟨row, _, rfl⟩ := List.mem_map.mp hp
      exact meanVec_length _ _) haw]
  congr 3
  rw [List.map_map]
  apply List.map_congr_left
  intro row hrow
  have hm := mates_relabel h2 d.featureRows ls (relabel t σ a b) row
  simp only [Function.comp_apply]
  rw [hm, meanVec_relabel hσ (.inl (mates_ne h hls cfg.maxLevels regLeaf (hrows row hrow)))]

/-- **C53** (gradient boosting tree).  The same questions and paths; every output vector is the old one in the new units. -/
theorem C53_gradBoost_tree (d : DataSet (Ext K)) (c t : Nat) (h : d.WF c t) (ls : List (List K)) (hls : d.labels = lift ls)
    (σ : Nat → Nat) (hσ : Reorders t σ) (a : K) (ha : a ≠ 0) (b : Nat → K) (cfg : TreeConfig) (hc : cfg.numberOfClasses = t) :
    ∃ tree tree', gradBoostTreeNew d cfg .regression = .ok tree ∧
      gradBoostTreeNew { d with labels := lift (ls.map (relabel t σ a b)) } cfg .regression = .ok tree' ∧
      (∀ p, tree'.questionAt p = tree.questionAt p) ∧ (∀ row, tree'.route row = tree.route row) ∧
      ∀ p leaf, tree.leafAt p = some leaf → ∃ (leaf' : GradBoostLeaf (Ext K)) (v : List K), leaf.leafOutput = some (liftV v) ∧
        tree'.leafAt p = some leaf' ∧ leaf'.leafOutput = some (liftV (relabel t σ a b v)) := by
  obtain ⟨h1, h2, h3⟩ := treeOf_relabel (b := b) (leafOf := gradLeaf .regression t) (leafOf' := gradLeaf .regression t) hσ ha
    cfg.maxLevels d h ls hls
  refine ⟨_, _, gradBoostTreeNew_ok h hc _, gradBoostTreeNew_ok (withLabels_wf h hls) hc _, h1, h2, ?_⟩
  intro p leaf hp
  obtain ⟨dd, ms, hw, hl, rfl, hy⟩ := h3 p leaf hp
  have hne : ms ≠ [] := by
    rintro rfl
    exact hw.labels_ne hl
  have hg : ∀ (vs : List (List K)), (∀ v ∈ vs, v.length = t) → vs ≠ [] → (withLabels dd vs).WF c t →
      (gradLeaf .regression t (withLabels dd vs)).leafOutput = some (liftV (meanVec t vs)) := by
    intro vs hv hne _
    simp only [gradLeaf, leafOut, avgVec_exact hv hne]
  have hw' : ∀ v ∈ ms.map (relabel t σ a b), v.length = t := by
    intro v hv
    obtain ⟨w, _, rfl⟩ := List.mem_map.mp hv
    exact relabel_length w
  have hdd : dd = withLabels dd ms := by rw [withLabels, ← hl]
  refine ⟨_, meanVec t ms, ?_, hy, ?_⟩
  · rw [hdd]
    exact hg ms (lift_width hl hw.label_len) hne (hdd ▸ hw)
  · rw [hg _ hw' (by simpa using hne) (withLabels_wf hw hl), meanVec_relabel hσ (.inl hne)]

section ensemble
variable {d : DataSet (Ext K)} {c t : Nat} {ls : List (List K)} {cfg : TreeConfig} {lr : K} {σ : Nat → Nat} {a : K} {b : Nat → K}

theorem resid_relabel {ps : List (List K)} (hl : ∀ l ∈ ls, l.length = t) (hp : ∀ p ∈ ps, p.length = t) :
    resid (ls.map (relabel t σ a b)) (ps.map (relabel t σ a b)) = (resid ls ps).map (relabel t σ a (fun _ => 0)) := by
  apply List.ext_getElem (by simp [resid])
  intro i h1 h2
  simp only [resid, List.length_zipWith, List.length_map] at h1
  have b1 := hl _ (List.getElem_mem (by omega : i < ls.length))
  have b2 := hp _ (List.getElem_mem (by omega : i < ps.length))
  simp only [resid, List.getElem_zipWith, List.getElem_map]
  rw [zipWith_getD (relabel_length _) (relabel_length _) 0 0, zipWith_getD b1 b2 0 0, relabel]
  apply List.map_congr_left
  intro j hj
  rw [List.mem_range] at hj
  simp only [relabel, getD_range hj]
  by_cases hs : σ j < t
  · rw [getD_range hs]; ring
  · have e1 : ls[i].getD (σ j) 0 = 0 := by simp [b1, hs]
    have e2 : ps[i].getD (σ j) 0 = 0 := by simp [b2, hs]
    have e3 : ((List.range t).map (fun i_1 => ls[i].getD i_1 0 - ps[i].getD i_1 0)).getD (σ j) 0 = 0 := by simp [hs]
    rw [e1, e2, e3]; ring

theorem step_relabel (hσ : Reorders t σ) {p o : List K} (hp : p.length = t) (ho : o.length = t) :
    List.zipWith (· + ·) (relabel t σ a b p) ((relabel t σ a (fun _ => 0) o).map (fun x => lr * x)) =
      relabel t σ a b (List.zipWith (· + ·) p (o.map (fun x => lr * x))) := by
  rw [zipWith_getD (relabel_length _) (by simp [relabel_length]) 0 0, zipWith_getD hp (by rw [List.length_map, ho]) 0 0]
  apply List.map_congr_left
  intro j hj
  rw [List.mem_range] at hj
  rw [getD_range (hσ.1 j hj), relabel, getD_range hj]
  have e1 : (o.map (fun x => lr * x)).getD (σ j) 0 = lr * o.getD (σ j) 0 := by
    have : σ j < o.length := by rw [ho]; exact hσ.1 j hj
    simp [this]
  have e2 : ((relabel t σ a (fun _ => 0) o).map (fun x => lr * x)).getD j 0 = lr * (a * o.getD (σ j) 0) := by
    simp [relabel, hj]
  rw [e1, e2]; ring

theorem residOut_relabel (hσ : Reorders t σ) (ha : a ≠ 0) {rs : List (List K)} (hw : (withLabels d rs).WF c t) (m : Nat)
    (row : List (Ext K)) :
    residOut c t m d (rs.map (relabel t σ a (fun _ => 0))) row = relabel t σ a (fun _ => 0) (residOut c t m d rs row) := by
  have h2 := (treeOf_relabel (b := fun _ => 0) (leafOf := gradLeaf .regression t) (leafOf' := gradLeaf .regression t) hσ ha m
    (withLabels d rs) hw rs rfl).2.1
  have hm := mates_relabel h2 d.featureRows rs (relabel t σ a (fun _ => 0)) row
  rw [residOut, hm, meanVec_relabel hσ (.inr rfl)]

/-- two runs of the loop side by side -/
theorem loop_relabel (h : d.WF c t) (hls : d.labels = lift ls) (hc : cfg.numberOfClasses = t) (hσ : Reorders t σ) (ha : a ≠ 0) (n : Nat) :
    ∃ s s' ps, regLoopAt d cfg lr (liftV (meanVec t ls)) n = .ok s ∧
      regLoopAt (withLabels d (ls.map (relabel t σ a b))) cfg lr (liftV (meanVec t (ls.map (relabel t σ a b)))) n = .ok s' ∧
      RegState d c t ls cfg lr s ps ∧
      RegState (withLabels d (ls.map (relabel t σ a b))) c t (ls.map (relabel t σ a b)) cfg lr s' (ps.map (relabel t σ a b)) ∧
      List.Forall₂ (fun tree tree' => ∃ rs : List (List K), (withLabels d rs).WF c t ∧ tree = residTree c t cfg.maxLevels d rs ∧
        tree' = residTree c t cfg.maxLevels d (rs.map (relabel t σ a (fun _ => 0)))) s.2 s'.2 := by
  have hlw := lift_width hls h.label_len
  have hw' := withLabels_wf (σ := σ) (a := a) (b := b) h hls
  have hne : ls ≠ [] := by
    rintro rfl
    exact h.labels_ne hls
  induction n with
  | zero =>
    refine ⟨_, _, List.replicate ls.length (meanVec t ls), rfl, rfl, regState_start h hls, ?_, .nil⟩
    have := regState_start (cfg := cfg) (lr := lr) hw' rfl
    rw [List.length_map, ← List.map_replicate (f := fun _ => meanVec t (ls.map (relabel t σ a b))) (a := ())] at this
    rw [List.map_replicate] at this ⊢
    rw [meanVec_relabel hσ (.inl hne)] at this ⊢
    exact this
  | succ n ih =>
    obtain ⟨s, s', ps, h1, h2, h3, h4, h5⟩ := ih
    have hg : ∀ vs : List (List K), (liftV (meanVec t vs) : List (Ext K)).length = t := fun vs => by rw [liftV_length, meanVec_length]
    obtain ⟨s1, q1, e1, r1, _⟩ := regState_step h hls hc h3
    obtain ⟨s1', q1', e1', r1', _⟩ := regState_step hw' rfl hc h4
    obtain ⟨f1, g1⟩ := regression_step_exact h hls hc (hg _) h3.finite e1
    obtain ⟨f1', g1'⟩ := regression_step_exact hw' rfl hc (hg _) h4.finite e1'
    rw [resid_relabel hlw h3.finite.width] at g1' f1'
    have hrw := resid_wf h hls h3.finite.len h3.finite.width
    have hq : q1 = updated lr (residOut c t cfg.maxLevels d (resid ls ps)) ps d.featureRows := by
      have := r1.finite.labels.symm.trans f1.labels
      exact lift_injective this
    have hq' : q1' = (updated lr (residOut c t cfg.maxLevels d (resid ls ps)) ps d.featureRows).map (relabel t σ a b) := by
      have := r1'.finite.labels.symm.trans f1'.labels
      rw [lift_injective this, updated, updated, List.zipWith_map_left, List.map_zipWith]
      apply List.ext_getElem (by simp)
      intro i k1 k2
      simp only [List.getElem_zipWith]
      have := residOut_relabel hσ ha hrw cfg.maxLevels
      rw [this, step_relabel hσ (h3.finite.width _ (List.getElem_mem _)) (meanVec_length _ _)]
    refine ⟨s1, s1', q1, ?_, ?_, r1, ?_, ?_⟩
    · rw [regLoopAt] at h1 ⊢; rw [boostLoop_succ, h1]; exact e1
    · rw [regLoopAt] at h2 ⊢; rw [boostLoop_succ, h2]; exact e1'
    · rw [hq, ← hq']; exact r1'
    · rw [g1, g1']
      exact List.rel_append h5 (.cons ⟨_, hrw, rfl, rfl⟩ .nil)

end ensemble

/-- **C53** (regression ensemble).  Trained in the new units, all trees ask the same questions, and every prediction is the old one in
the new units. -/
theorem C53_regression_ensemble (d : DataSet (Ext K)) (c t : Nat) (h : d.WF c t) (ls : List (List K)) (hls : d.labels = lift ls)
    (σ : Nat → Nat) (hσ : Reorders t σ) (a : K) (ha : a ≠ 0) (b : Nat → K) (cfg : TreeConfig) (hc : cfg.numberOfClasses = t)
    (n : Nat) (lr : K) :
    ∃ m m', regressionTrain d cfg n (.fin lr) = .ok m ∧
      regressionTrain { d with labels := lift (ls.map (relabel t σ a b)) } cfg n (.fin lr) = .ok m' ∧
      List.Forall₂ (fun tree tree' => ∀ p, TreeNode.questionAt tree' p = TreeNode.questionAt tree p) m.trees m'.trees ∧
      ∀ row : List (Ext K), c ≤ row.length → ∃ v : List K, v.length = t ∧ regressionPredict m row = .ok (liftV v) ∧
        regressionPredict m' row = .ok (liftV (relabel t σ a b v)) := by
  obtain ⟨s, s', ps, h1, h2, h3, h4, h5⟩ := loop_relabel (b := b) (lr := lr) h hls hc hσ ha n
  have hw' := withLabels_wf (σ := σ) (a := a) (b := b) h hls
  refine ⟨_, _, regressionTrain_of_loop h hls h1, regressionTrain_of_loop hw' rfl h2, ?_, ?_⟩
  · refine h5.imp ?_
    rintro tree tree' ⟨rs, hr, rfl, rfl⟩
    exact (treeOf_relabel (b := fun _ => 0) (leafOf := gradLeaf .regression t) (leafOf' := gradLeaf .regression t) hσ ha cfg.maxLevels
      (withLabels d rs) hr rs rfl).1
  · intro row hrow
    have : ∃ outs : List (List K), (∀ o ∈ outs, o.length = t) ∧
        List.Forall₂ (fun tree o => gradOut row tree = .ok (liftV o) ∧ o.length = t) s.2 outs ∧
        List.Forall₂ (fun tree o => gradOut row tree = .ok (liftV o) ∧ o.length = t) s'.2 (outs.map (relabel t σ a (fun _ => 0))) := by
      revert h5
      generalize s.2 = ts, s'.2 = ts'
      intro h5
      induction h5 with
      | nil => exact ⟨[], by simp, .nil, .nil⟩
      | @cons tree tree' ts ts' hx _ ih =>
        obtain ⟨outs, k1, k2, k3⟩ := ih
        obtain ⟨rs, hr, rfl, rfl⟩ := hx
        refine ⟨residOut c t cfg.maxLevels d rs row :: outs, ?_, .cons ⟨?_, meanVec_length _ _⟩ k2, ?_⟩
        · intro o ho
          rcases List.mem_cons.mp ho with rfl | ho
          · exact meanVec_length _ _
          · exact k1 o ho
        · exact gradOut_regression_exact cfg.maxLevels hr (ls := rs) rfl hrow
        · refine .cons ⟨?_, relabel_length _⟩ k3
          rw [← residOut_relabel hσ ha hr]
          exact gradOut_regression_exact cfg.maxLevels (withLabels_wf hr rfl) (ls := rs.map (relabel t σ a (fun _ => 0))) rfl hrow
    obtain ⟨outs, k1, k2, k3⟩ := this
    have hne : ls ≠ [] := by
      rintro rfl
      exact h.labels_ne hls
    refine ⟨(List.range t).map (fun j => (meanVec t ls).getD j 0 + lr * (outs.map (fun o => o.getD j 0)).sum), by simp, ?_, ?_⟩
    · rw [regressionPredict, predictInstance_eq]
      exact rawScore_exact (meanVec_length _ _) k2
    · rw [regressionPredict, predictInstance_eq]
      refine (rawScore_exact (meanVec_length _ _) k3).trans ?_
      rw [meanVec_relabel hσ (.inl hne)]
      congr 2
      rw [relabel]
      apply List.map_congr_left
      intro j hj
      rw [List.mem_range] at hj
      rw [getD_range (hσ.1 j hj)]
      have : (outs.map (relabel t σ a (fun _ => 0))).map (fun o => o.getD j 0) = outs.map (fun o => a * o.getD (σ j) 0) := by
        rw [List.map_map]
        apply List.map_congr_left
        intro o _
        simp only [Function.comp_apply, relabel, getD_range hj, add_zero]
      rw [this, List.sum_map_mul_left, getD_range hj]; ring

theorem mapM_pair {P P' : List (Ext K) → R (List (Ext K))} {f : List K → List K} {t : Nat} {rows : List (List (Ext K))}
    (h : ∀ row ∈ rows, ∃ v : List K, v.length = t ∧ P row = .ok (liftV v) ∧ P' row = .ok (liftV (f v))) :
    ∃ ps : List (List K), (∀ p ∈ ps, p.length = t) ∧ rows.mapM P = .ok (lift ps) ∧ rows.mapM P' = .ok (lift (ps.map f)) := by
  induction rows with
  | nil => exact ⟨[], by simp, rfl, rfl⟩
  | cons row rows ih =>
    obtain ⟨ps, h1, h2, h3⟩ := ih (fun r hr => h r (by simp [hr]))
    obtain ⟨v, k1, k2, k3⟩ := h row (by simp)
    refine ⟨v :: ps, ?_, ?_, ?_⟩
    · intro p hp
      rcases List.mem_cons.mp hp with rfl | hp
      · exact k1
      · exact h1 p hp
    · simp [List.mapM_cons, k2, h2, lift]
    · simp [List.mapM_cons, k3, h3, lift]

/-- **C53** (score of a regression ensemble).  Trained and tested in the new units, an ensemble scores the old error times the square of
the factor. -/
theorem C53_ensemble_score (d : DataSet (Ext K)) (c t : Nat) (h : d.WF c t) (ht0 : 0 < t) (ls : List (List K)) (hls : d.labels = lift ls)
    (σ : Nat → Nat) (hσ : Reorders t σ) (a : K) (ha : a ≠ 0) (b : Nat → K) (cfg : TreeConfig) (hc : cfg.numberOfClasses = t)
    (n : Nat) (lr : K) (test : DataSet (Ext K)) (hrows : ∀ row ∈ test.featureRows, c ≤ row.length) (as : List (List K))
    (has : test.labels = lift as) (haw : ∀ v ∈ as, v.length = t) (hcount : as.length = test.featureRows.length)
    (hne : test.featureRows ≠ []) :
    ∃ m m' e, regressionTrain d cfg n (.fin lr) = .ok m ∧
      regressionTrain { d with labels := lift (ls.map (relabel t σ a b)) } cfg n (.fin lr) = .ok m' ∧
      regressionScore m test = .ok (.fin e) ∧
      regressionScore m' { test with labels := lift (as.map (relabel t σ a b)) } = .ok (.fin (a ^ 2 * e)) := by
  obtain ⟨m, m', h1, h2, _, h3⟩ := C53_regression_ensemble d c t h ls hls σ hσ a ha b cfg hc n lr
  obtain ⟨ps, k1, k2, k3⟩ := mapM_pair (rows := test.featureRows) (fun row hr => h3 row (hrows row hr))
  have hf : ∀ vs : List (List K), ∀ v ∈ vs.map (relabel t σ a b), v.length = t := by
    intro vs v hv
    obtain ⟨w, _, rfl⟩ := List.mem_map.mp hv
    exact relabel_length w
  refine ⟨m, m', _, h1, h2, (C29_ensemble_exact m test t ht0 ps as k2 has k1 haw hcount hne).1, ?_⟩
  rw [← mseOf_relabel (b := b) hσ haw k1]
  exact (C29_ensemble_exact m' { test with labels := lift (as.map (relabel t σ a b)) } t ht0 _ _ k3 rfl (hf _) (hf _)
    (by simpa using hcount) hne).1

/-- two targets, listed in the other order, in other units -/
def swap2 (j : Nat) : Nat := 1 - j

theorem swap2_reorders : Reorders 2 swap2 :=
  ⟨by decide, by decide⟩

/-- two targets -/
def twoTargets : DataSet E :=
  { featureRows := d4.featureRows, featureColumns := d4.featureColumns,
    labels := lift [[0, 3], [1, 1], [4, 0], [6, 2]] }

theorem twoTargets_wf : twoTargets.WF 2 2 :=
  ⟨by decide +kernel, by decide +kernel, by decide +kernel, by decide +kernel, by decide +kernel, by decide +kernel,
    by decide +kernel⟩

-- the conditions are met, and the root question does not change although labels and gain do
example : twoTargets.labels = lift [[0, 3], [1, 1], [4, 0], [6, 2]] ∧
    ([[0, 3], [1, 1], [4, 0], [6, 2]] : List (List ℚ)).map (relabel 2 swap2 (-2) (fun j => (j : ℚ))) = [[-6, 1], [-2, -1], [0, -7], [-4, -11]] ∧
    (findBestSplit twoTargets 2).map (fun s => (s.question.column, s.question.value, s.gain)) = .ok (0, 1, .fin (85 / 16)) := by
  decide +kernel

-- the prediction for one row in both units
example : (do
      let m ← regressionTrain twoTargets (exCfg 2) 2 (.fin (1 / 2))
      regressionPredict m [2, 7]) = .ok [.fin (55 / 16), .fin (9 / 8)] ∧
    (do
      let m ← regressionTrain { twoTargets with labels := lift ([[0, 3], [1, 1], [4, 0], [6, 2]].map (relabel 2 swap2 (-2) (fun j => (j : ℚ)))) }
        (exCfg 2) 2 (.fin (1 / 2))
      regressionPredict m [2, 7]) = .ok [.fin (-9 / 4), .fin (-47 / 8)] := by
  decide +kernel

end Verif
