import Verif.Lemmas.Distance
import Verif.Props.Relabel
/-!
# C83: only the distances between label vectors matter

In exact arithmetic.  Labels with one more constant target, with all targets repeated, rotated or in other units have proportional
distances.
-/

set_option linter.unusedSectionVars false

namespace Verif

variable {K : Type} [Field K] [LinearOrder K] [IsStrictOrderedRing K] [FloorSemiring K] [HasExp K]

open Sample

section
variable {t t' : Nat} {μ : K} {ls ls' : List (List K)}

theorem ProportionalDistances.alike (h : ProportionalDistances μ ls ls') (hl : ∀ l ∈ ls, l.length = t) (hl' : ∀ l ∈ ls', l.length = t') :
    Alike t t' μ (ls.zip ls') ∧ (ls.zip ls').map Prod.fst = ls ∧ (ls.zip ls').map Prod.snd = ls' := by
  refine ⟨⟨fun z hz => hl _ (List.of_mem_zip hz).1, fun z hz => hl' _ (List.of_mem_zip hz).2, ?_⟩,
    List.map_fst_zip (by rw [h.1]), List.map_snd_zip (by rw [h.1])⟩
  intro z hz w hw
  obtain ⟨i, hi⟩ := List.getElem?_of_mem hz
  obtain ⟨j, hj⟩ := List.getElem?_of_mem hw
  rw [List.getElem?_zip_eq_some] at hi hj
  exact h.2 i j _ _ _ _ hi.1 hj.1 hi.2 hj.2

end

/-- **C83** (split search).  Labels with proportional distances give the same question; the gains are in the same ratio. -/
theorem C83_split (d : DataSet (Ext K)) (c t : Nat) (h : d.WF c t) (ls : List (List K)) (hls : d.labels = lift ls)
    (t' : Nat) (ls' : List (List K)) (hw' : ∀ l ∈ ls', l.length = t') (μ : K) (hμ : 0 < μ) (hd : ProportionalDistances μ ls ls') :
    ∃ s s' g, findBestSplit d t = .ok s ∧ findBestSplit { d with labels := lift ls' } t' = .ok s' ∧
      s'.question = s.question ∧ s.gain = .fin g ∧ s'.gain = .fin (μ * g) := by
  obtain ⟨h1, h2, h3⟩ := hd.alike (lift_width hls h.label_len) hw'
  obtain ⟨g, h4, h5⟩ := splitOf_alike hμ h h1 (by rw [h2, hls])
  rw [h3] at h5
  have hlen : ls'.length = d.featureRows.length := by rw [hd.1, ← h.label_count, hls, lift_length]
  exact ⟨_, _, g, findBestSplit_ok h, findBestSplit_ok (WF.withLabels h hlen hw'), by rw [h5], h4, by rw [h5]⟩

/-- **C83** (trees).  Labels with proportional distances give the same tree: the same question at every position and the same way for
every row.  A leaf of the regression tree holds the same rows. -/
theorem C83_trees (d : DataSet (Ext K)) (c t : Nat) (h : d.WF c t) (ls : List (List K)) (hls : d.labels = lift ls)
    (t' : Nat) (ls' : List (List K)) (hw' : ∀ l ∈ ls', l.length = t') (μ : K) (hμ : 0 < μ) (hd : ProportionalDistances μ ls ls')
    (cfg cfg' : TreeConfig) (hc : cfg.numberOfClasses = t) (hc' : cfg'.numberOfClasses = t') (hm : cfg'.maxLevels = cfg.maxLevels)
    (o o' : LeafOutputType) :
    (∃ tree tree', regressionTreeNew d cfg = .ok tree ∧ regressionTreeNew { d with labels := lift ls' } cfg' = .ok tree' ∧
      (∀ p, tree'.questionAt p = tree.questionAt p) ∧ (∀ row, tree'.route row = tree.route row) ∧
      ∀ p leaf, tree.leafAt p = some leaf → ∃ dd dd' : DataSet (Ext K), leaf.data = some dd ∧ tree'.leafAt p = some { data := some dd' } ∧
        dd'.featureRows = dd.featureRows) ∧
    (∃ tree tree', gradBoostTreeNew d cfg o = .ok tree ∧ gradBoostTreeNew { d with labels := lift ls' } cfg' o' = .ok tree' ∧
      (∀ p, tree'.questionAt p = tree.questionAt p) ∧ ∀ row, tree'.route row = tree.route row) ∧
    ∃ tree tree', amgTreeNew d cfg o = .ok tree ∧ amgTreeNew { d with labels := lift ls' } cfg' o' = .ok tree' ∧
      (∀ p, tree'.questionAt p = tree.questionAt p) ∧ ∀ row, tree'.route row = tree.route row := by
  obtain ⟨h1, h2, h3⟩ := hd.alike (lift_width hls h.label_len) hw'
  have hlen : ls'.length = d.featureRows.length := by rw [hd.1, ← h.label_count, hls, lift_length]
  have hwf := WF.withLabels h hlen hw'
  have key : ∀ {L L' : Type} (leafOf : DataSet (Ext K) → L) (leafOf' : DataSet (Ext K) → L'),
      SameShape c t t' μ leafOf leafOf' (treeOf leafOf c t cfg.maxLevels d) (treeOf leafOf' c t' cfg'.maxLevels (withLabels d ls')) := by
    intro L L' leafOf leafOf'
    have := treeOf_alike hμ (leafOf := leafOf) (leafOf' := leafOf') cfg.maxLevels d h _ h1 (by rw [h2, hls])
    rw [h3] at this
    rw [hm]
    exact this
  refine ⟨⟨_, _, regressionTreeNew_ok h hc, regressionTreeNew_ok hwf hc', (key _ _).1, (key _ _).2.1, ?_⟩,
    ⟨_, _, gradBoostTreeNew_ok h hc o, gradBoostTreeNew_ok hwf hc' o', (key _ _).1, (key _ _).2.1⟩,
    ⟨_, _, amgTreeNew_ok h hc o, amgTreeNew_ok hwf hc' o', (key _ _).1, (key _ _).2.1⟩⟩
  intro p leaf hp
  obtain ⟨dd, zs, _, _, hl, rfl, hy⟩ := (key regLeaf regLeaf).2.2 p leaf hp
  exact ⟨dd, _, rfl, hy, rfl⟩

section ensemble
variable {d : DataSet (Ext K)} {c t t' : Nat} {ls : List (List K)} {cfg cfg' : TreeConfig} {lr μ : K} {A : Nat → Nat → K} {b : Nat → K}

theorem resid_affine {ps : List (List K)} (hl : ∀ l ∈ ls, l.length = t) (hp : ∀ p ∈ ps, p.length = t) :
    resid (ls.map (affineMap t t' A b)) (ps.map (affineMap t t' A b)) = (resid ls ps).map (affineMap t t' A (fun _ => 0)) := by
  apply List.ext_getElem (by simp [resid])
  intro i h1 h2
  simp only [resid, List.length_zipWith, List.length_map] at h1
  have b1 := hl _ (List.getElem_mem (by omega : i < ls.length))
  have b2 := hp _ (List.getElem_mem (by omega : i < ps.length))
  simp only [resid, List.getElem_zipWith, List.getElem_map]
  exact affineMap_sub b1 b2

theorem affine_route {L L' : Type} {leafOf : DataSet (Ext K) → L} {leafOf' : DataSet (Ext K) → L'} (hs : IsSimilarity t μ (affineMap t t' A b))
    (hμ : 0 < μ) {rs : List (List K)} (hw : (withLabels d rs).WF c t) (m : Nat) :
    SameShape c t t' μ leafOf leafOf' (treeOf leafOf c t m (withLabels d rs)) (treeOf leafOf' c t' m (withLabels d (rs.map (affineMap t t' A b)))) := by
  have h1 := hs.alike (t' := t') (fun v => affineMap_length v) (lift_width (ls := rs) rfl hw.label_len)
  have := treeOf_alike hμ (leafOf := leafOf) (leafOf' := leafOf') m (withLabels d rs) hw _ h1 (by simp [Function.comp_def])
  simpa [Function.comp_def] using this

theorem residOut_affine (hs : IsSimilarity t μ (affineMap t t' A b)) (hμ : 0 < μ) {rs : List (List K)} (hw : (withLabels d rs).WF c t) (m : Nat)
    (row : List (Ext K)) :
    residOut c t' m d (rs.map (affineMap t t' A (fun _ => 0))) row = affineMap t t' A (fun _ => 0) (residOut c t m d rs row) := by
  have h2 := (affine_route (leafOf := gradLeaf .regression t) (leafOf' := gradLeaf .regression t') hs.linear hμ hw m).2.1
  have hm := mates_relabel h2 d.featureRows rs (affineMap t t' A (fun _ => 0)) row
  rw [residOut, hm, meanVec_affine (.inr rfl)]

theorem affine_wf (h : d.WF c t) (hls : d.labels = lift ls) : (withLabels d (ls.map (affineMap t t' A b))).WF c t' := by
  refine WF.withLabels h (by rw [List.length_map, ← h.label_count, hls, lift_length]) ?_
  intro l hl
  obtain ⟨v, _, rfl⟩ := List.mem_map.mp hl
  exact affineMap_length v

/-- two runs of the loop side by side -/
theorem loop_affine (h : d.WF c t) (hls : d.labels = lift ls) (hc : cfg.numberOfClasses = t) (hc' : cfg'.numberOfClasses = t')
    (hm : cfg'.maxLevels = cfg.maxLevels) (hsim : IsSimilarity t μ (affineMap t t' A b)) (hμ : 0 < μ) (n : Nat) :
    ∃ s s' ps, regLoopAt d cfg lr (liftV (meanVec t ls)) n = .ok s ∧
      regLoopAt (withLabels d (ls.map (affineMap t t' A b))) cfg' lr (liftV (meanVec t' (ls.map (affineMap t t' A b)))) n = .ok s' ∧
      RegState d c t ls cfg lr s ps ∧
      RegState (withLabels d (ls.map (affineMap t t' A b))) c t' (ls.map (affineMap t t' A b)) cfg' lr s' (ps.map (affineMap t t' A b)) ∧
      List.Forall₂ (fun tree tree' => ∃ rs : List (List K), (withLabels d rs).WF c t ∧ tree = residTree c t cfg.maxLevels d rs ∧
        tree' = residTree c t' cfg.maxLevels d (rs.map (affineMap t t' A (fun _ => 0)))) s.2 s'.2 := by
  have hlw := lift_width hls h.label_len
  have hw' := affine_wf (A := A) (b := b) (t' := t') h hls
  have hne : ls ≠ [] := by
    rintro rfl
    exact h.labels_ne hls
  induction n with
  | zero =>
    refine ⟨_, _, List.replicate ls.length (meanVec t ls), rfl, rfl, regState_start h hls, ?_, .nil⟩
    have := regState_start (cfg := cfg') (lr := lr) hw' rfl
    rw [List.length_map, ← List.map_replicate (f := fun _ => meanVec t' (ls.map (affineMap t t' A b))) (a := ())] at this
    rw [List.map_replicate] at this ⊢
    rw [meanVec_affine (.inl hne)] at this ⊢
    exact this
  | succ n ih =>
    obtain ⟨s, s', ps, h1, h2, h3, h4, h5⟩ := ih
    have hg : ∀ (u : Nat) (vs : List (List K)), (liftV (meanVec u vs) : List (Ext K)).length = u := fun u vs => by rw [liftV_length, meanVec_length]
    obtain ⟨s1, q1, e1, r1, _⟩ := regState_step h hls hc h3
    obtain ⟨s1', q1', e1', r1', _⟩ := regState_step hw' rfl hc' h4
    obtain ⟨f1, g1⟩ := regression_step_exact h hls hc (hg _ _) h3.finite e1
    obtain ⟨f1', g1'⟩ := regression_step_exact hw' rfl hc' (hg _ _) h4.finite e1'
    rw [resid_affine hlw h3.finite.width, hm] at g1' f1'
    have hrw := resid_wf h hls h3.finite.len h3.finite.width
    have hq : q1 = updated lr (residOut c t cfg.maxLevels d (resid ls ps)) ps d.featureRows := by
      have := r1.finite.labels.symm.trans f1.labels
      exact lift_injective this
    have hq' : q1' = (updated lr (residOut c t cfg.maxLevels d (resid ls ps)) ps d.featureRows).map (affineMap t t' A b) := by
      have := r1'.finite.labels.symm.trans f1'.labels
      rw [lift_injective this, updated, updated, List.zipWith_map_left, List.map_zipWith]
      apply List.ext_getElem (by simp)
      intro i k1 k2
      simp only [List.getElem_zipWith]
      have := residOut_affine hsim hμ hrw cfg.maxLevels
      rw [this, affineMap_step (h3.finite.width _ (List.getElem_mem _)) (meanVec_length _ _)]
    refine ⟨s1, s1', q1, ?_, ?_, r1, ?_, ?_⟩
    · rw [regLoopAt] at h1 ⊢; rw [boostLoop_succ, h1]; exact e1
    · rw [regLoopAt] at h2 ⊢; rw [boostLoop_succ, h2]; exact e1'
    · rw [hq, ← hq']; exact r1'
    · rw [g1, g1']
      exact List.rel_append h5 (.cons ⟨_, hrw, rfl, rfl⟩ .nil)

end ensemble

/-- **C83** (regression ensemble).  If the labels are changed by a similarity, possibly to another number of targets, all trees ask the same
questions and every prediction is changed by the same similarity. -/
theorem C83_regression_ensemble (d : DataSet (Ext K)) (c t : Nat) (h : d.WF c t) (ls : List (List K)) (hls : d.labels = lift ls)
    (t' : Nat) (A : Nat → Nat → K) (b : Nat → K) (μ : K) (hμ : 0 < μ) (hs : IsSimilarity t μ (affineMap t t' A b))
    (cfg cfg' : TreeConfig) (hc : cfg.numberOfClasses = t) (hc' : cfg'.numberOfClasses = t') (hm : cfg'.maxLevels = cfg.maxLevels)
    (n : Nat) (lr : K) :
    ∃ m m', regressionTrain d cfg n (.fin lr) = .ok m ∧
      regressionTrain { d with labels := lift (ls.map (affineMap t t' A b)) } cfg' n (.fin lr) = .ok m' ∧
      List.Forall₂ (fun tree tree' => ∀ p, TreeNode.questionAt tree' p = TreeNode.questionAt tree p) m.trees m'.trees ∧
      ∀ row : List (Ext K), c ≤ row.length → ∃ v : List K, v.length = t ∧ regressionPredict m row = .ok (liftV v) ∧
        regressionPredict m' row = .ok (liftV (affineMap t t' A b v)) := by
  obtain ⟨s, s', ps, h1, h2, h3, h4, h5⟩ := loop_affine (lr := lr) h hls hc hc' hm hs hμ n
  have hw' := affine_wf (A := A) (b := b) (t' := t') h hls
  refine ⟨_, _, regressionTrain_of_loop h hls h1, regressionTrain_of_loop hw' rfl h2, ?_, ?_⟩
  · refine h5.imp ?_
    rintro tree tree' ⟨rs, hr, rfl, rfl⟩
    exact (affine_route (leafOf := gradLeaf .regression t) (leafOf' := gradLeaf .regression t') hs.linear hμ hr cfg.maxLevels).1
  · intro row hrow
    have : ∃ outs : List (List K), (∀ o ∈ outs, o.length = t) ∧
        List.Forall₂ (fun tree o => gradOut row tree = .ok (liftV o) ∧ o.length = t) s.2 outs ∧
        List.Forall₂ (fun tree o => gradOut row tree = .ok (liftV o) ∧ o.length = t') s'.2 (outs.map (affineMap t t' A (fun _ => 0))) := by
      revert h5
      generalize s.2 = ts, s'.2 = ts'
      intro h5
      induction h5 with
      | nil => exact ⟨[], by simp, .nil, .nil⟩
      | @cons tree tree' ts ts' hx _ ih =>
        obtain ⟨outs, k1, k2, k3⟩ := ih
        obtain ⟨rs, hr, rfl, rfl⟩ := hx
        refine ⟨residOut c t cfg.maxLevels d rs row :: outs, ?_, .cons ⟨?_, meanVec_length _ _⟩ k2, ?_⟩
        · intro o ho
          rcases List.mem_cons.mp ho with rfl | ho
          · exact meanVec_length _ _
          · exact k1 o ho
        · exact gradOut_regression_exact cfg.maxLevels hr (ls := rs) rfl hrow
        · refine .cons ⟨?_, affineMap_length _⟩ k3
          rw [← residOut_affine hs hμ hr]
          exact gradOut_regression_exact cfg.maxLevels (affine_wf hr rfl) (ls := rs.map (affineMap t t' A (fun _ => 0))) rfl hrow
    obtain ⟨outs, k1, k2, k3⟩ := this
    have hne : ls ≠ [] := by
      rintro rfl
      exact h.labels_ne hls
    refine ⟨(List.range t).map (fun j => (meanVec t ls).getD j 0 + lr * (outs.map (fun o => o.getD j 0)).sum), by simp, ?_, ?_⟩
    · rw [regressionPredict, predictInstance_eq]
      exact rawScore_exact (meanVec_length _ _) k2
    · rw [regressionPredict, predictInstance_eq]
      refine (rawScore_exact (meanVec_length _ _) k3).trans ?_
      rw [meanVec_affine (.inl hne)]
      congr 2
      rw [affineMap]
      conv_rhs => rw [affineMap]
      apply List.map_congr_left
      intro i hi
      rw [List.mem_range] at hi
      rw [getD_range hi]
      have e1 : (outs.map (affineMap t t' A (fun _ => 0))).map (fun o => o.getD i 0) =
          outs.map (fun o => ((List.range t).map (fun j => A i j * o.getD j 0)).sum) := by
        rw [List.map_map]
        apply List.map_congr_left
        intro o _
        simp only [Function.comp_apply, affineMap, getD_range hi, add_zero]
      have e2 : (List.range t).map (fun j => A i j * ((List.range t).map (fun j => (meanVec t ls).getD j 0 + lr * (outs.map (fun o => o.getD j 0)).sum)).getD j 0) =
          (List.range t).map (fun j => A i j * (meanVec t ls).getD j 0 + lr * (outs.map (fun o => A i j * o.getD j 0)).sum) := by
        apply List.map_congr_left
        intro j hj
        rw [getD_range (List.mem_range.mp hj), List.sum_map_mul_left]; ring
      rw [e1, e2, sum_swap, List.sum_map_add, List.sum_map_mul_left]; ring

/-! ## one more constant target, and repeated targets -/

theorem sum_pick (t i : Nat) (x : Nat → K) : ((List.range t).map (fun j => (if i = j then 1 else 0) * x j)).sum = if i < t then x i else 0 := by
  induction t with
  | zero => simp
  | succ t ih =>
    rw [List.range_succ, List.map_append, List.sum_append, ih]
    by_cases h : i = t
    · subst h; simp
    · by_cases h1 : i < t
      · simp [h, h1, show i < t + 1 by omega]
      · simp [h, h1, show ¬ i < t + 1 by omega]

/-- the map that appends a constant -/
theorem affine_const {t : Nat} {v : List K} (hv : v.length = t) (x : K) :
    affineMap t (t + 1) (fun i j => if i = j then 1 else 0) (fun i => if i = t then x else 0) v = v ++ [x] := by
  apply List.ext_getElem (by simp [affineMap, hv])
  intro i h1 h2
  simp only [affineMap, List.length_map, List.length_range] at h1
  simp only [affineMap, List.getElem_map, List.getElem_range, sum_pick]
  by_cases h : i < t
  · rw [List.getElem_append_left (by omega)]
    simp [h, show i ≠ t by omega, show i < v.length by omega]
  · have : i = t := by omega
    subst this
    rw [List.getElem_append_right (by omega)]
    simp

/-- the map that repeats all entries -/
theorem affine_twice {t : Nat} {v : List K} (hv : v.length = t) :
    affineMap t (t + t) (fun i j => if (if i < t then i else i - t) = j then 1 else 0) (fun _ => 0) v = v ++ v := by
  apply List.ext_getElem (by simp [affineMap, hv])
  intro i h1 h2
  simp only [affineMap, List.length_map, List.length_range] at h1
  simp only [affineMap, List.getElem_map, List.getElem_range, sum_pick]
  by_cases h : i < t
  · rw [List.getElem_append_left (by omega)]
    simp [h, show i < v.length by omega]
  · rw [List.getElem_append_right (by omega)]
    have h3 : i - t < t := by omega
    simp [h, h3, hv]

theorem sqDist_append {t : Nat} {v w v' w' : List K} (hv : v.length = t) (hw : w.length = t) :
    sqDist (v ++ v') (w ++ w') = sqDist v w + sqDist v' w' := by
  rw [sqDist, List.zipWith_append (by rw [hv, hw]), List.sum_append, sqDist, sqDist]

/-- **C83** (constant target).  A further target with the same value `x` in all examples changes nothing: the trees ask the same questions,
and the predictions are the old ones, with `x` for the new target. -/
theorem C83_constant_target (d : DataSet (Ext K)) (c t : Nat) (h : d.WF c t) (ls : List (List K)) (hls : d.labels = lift ls) (x : K)
    (cfg : TreeConfig) (hc : cfg.numberOfClasses = t) (n : Nat) (lr : K) :
    ∃ m m', regressionTrain d cfg n (.fin lr) = .ok m ∧
      regressionTrain { d with labels := lift (ls.map (fun l => l ++ [x])) } { cfg with numberOfClasses := t + 1 } n (.fin lr) = .ok m' ∧
      List.Forall₂ (fun tree tree' => ∀ p, TreeNode.questionAt tree' p = TreeNode.questionAt tree p) m.trees m'.trees ∧
      ∀ row : List (Ext K), c ≤ row.length → ∃ v : List K, v.length = t ∧ regressionPredict m row = .ok (liftV v) ∧
        regressionPredict m' row = .ok (liftV (v ++ [x])) := by
  have hlw := lift_width hls h.label_len
  obtain ⟨m, m', h1, h2, h3, h4⟩ := C83_regression_ensemble d c t h ls hls (t + 1) (fun i j => if i = j then 1 else 0)
    (fun i => if i = t then x else 0) 1 one_pos (by
      intro v w hv hw
      rw [affine_const hv, affine_const hw, sqDist_append hv hw]
      simp [sqDist]) cfg { cfg with numberOfClasses := t + 1 } hc rfl rfl n lr
  rw [List.map_congr_left (fun l hl => affine_const (hlw l hl) x)] at h2
  refine ⟨m, m', h1, h2, h3, fun row hrow => ?_⟩
  obtain ⟨v, hv, k1, k2⟩ := h4 row hrow
  rw [affine_const hv] at k2
  exact ⟨v, hv, k1, k2⟩

/-- **C83** (repeated targets).  Listing all targets twice changes nothing: the trees ask the same questions, and the predictions are the old
ones, listed twice. -/
theorem C83_repeated_targets (d : DataSet (Ext K)) (c t : Nat) (h : d.WF c t) (ls : List (List K)) (hls : d.labels = lift ls)
    (cfg : TreeConfig) (hc : cfg.numberOfClasses = t) (n : Nat) (lr : K) :
    ∃ m m', regressionTrain d cfg n (.fin lr) = .ok m ∧
      regressionTrain { d with labels := lift (ls.map (fun l => l ++ l)) } { cfg with numberOfClasses := t + t } n (.fin lr) = .ok m' ∧
      List.Forall₂ (fun tree tree' => ∀ p, TreeNode.questionAt tree' p = TreeNode.questionAt tree p) m.trees m'.trees ∧
      ∀ row : List (Ext K), c ≤ row.length → ∃ v : List K, v.length = t ∧ regressionPredict m row = .ok (liftV v) ∧
        regressionPredict m' row = .ok (liftV (v ++ v)) := by
  have hlw := lift_width hls h.label_len
  obtain ⟨m, m', h1, h2, h3, h4⟩ := C83_regression_ensemble d c t h ls hls (t + t) (fun i j => if (if i < t then i else i - t) = j then 1 else 0)
    (fun _ => 0) 2 two_pos (by
      intro v w hv hw
      rw [affine_twice hv, affine_twice hw, sqDist_append hv hw]
      ring) cfg { cfg with numberOfClasses := t + t } hc rfl rfl n lr
  rw [List.map_congr_left (fun l hl => affine_twice (hlw l hl))] at h2
  refine ⟨m, m', h1, h2, h3, fun row hrow => ?_⟩
  obtain ⟨v, hv, k1, k2⟩ := h4 row hrow
  rw [affine_twice hv] at k2
  exact ⟨v, hv, k1, k2⟩

namespace Sample

/-- the matrix of a rotation and stretching by 5, followed by a third target that is zero -/
def turn (i j : Nat) : ℚ :=
  match i, j with
  | 0, 0 => 3 | 0, 1 => -4 | 1, 0 => 4 | 1, 1 => 3 | _, _ => 0

end Sample

-- the two targets of `twoTargets` turned, and a constant third target
example : IsSimilarity 2 25 (affineMap 2 3 turn (fun i => (i : ℚ))) := by
  intro v w hv hw
  match v, w, hv, hw with
  | [a, b], [x, y], _, _ =>
    simp [affineMap, turn, sqDist, List.range_succ]
    ring
example : ([[0, 3], [1, 1], [4, 0], [6, 2]] : List (List ℚ)).map (affineMap 2 3 turn (fun i => (i : ℚ))) =
    [[-12, 10, 2], [-1, 8, 2], [12, 17, 2], [10, 31, 2]] := by decide +kernel
-- the same questions with 25 times the gain, although no single target looks the same
example : (findBestSplit twoTargets 2).map (fun s => (s.question.column, s.question.value, s.gain)) = .ok (0, 1, .fin (85 / 16)) ∧
    (findBestSplit { twoTargets with labels := lift [[-12, 10, 2], [-1, 8, 2], [12, 17, 2], [10, 31, 2]] } 3).map
      (fun s => (s.question.column, s.question.value, s.gain)) = .ok (0, 1, .fin (25 * (85 / 16))) := by decide +kernel
-- predictions: (55/16, 9/8) turned, and 2
example : (do
      let m ← regressionTrain twoTargets (exCfg 2) 2 (.fin (1 / 2))
      regressionPredict m [2, 7]) = .ok [.fin (55 / 16), .fin (9 / 8)] ∧
    (do
      let m ← regressionTrain { twoTargets with labels := lift [[-12, 10, 2], [-1, 8, 2], [12, 17, 2], [10, 31, 2]] } (exCfg 3) 2 (.fin (1 / 2))
      regressionPredict m [2, 7]) = .ok [.fin (93 / 16), .fin (145 / 8), .fin 2] := by
  decide +kernel
-- other units for one of several targets do change the questions
example : (findBestSplit { twoTargets with labels := lift [[0, 0], [1, 0], [4, 0], [6, 1]] } 2).map (fun s => (s.question.column, s.question.value)) = .ok (0, 1) ∧
    (findBestSplit { twoTargets with labels := lift [[0, 0], [1, 0], [4, 0], [6, 100]] } 2).map (fun s => (s.question.column, s.question.value)) =
      .ok (0, 2) := by decide +kernel

end Verif
