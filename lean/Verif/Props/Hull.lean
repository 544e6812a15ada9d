import Verif.Spec.Hull
import Verif.Props.ExactBoost
import Verif.Props.Binary64
/-!
# C57: predictions respect linear constraints on the labels

A set of vectors that is described by linear inequalities and contains all training labels (a box, a simplex, a half-space) contains
all predictions of a tree; linear equations carry over to the predictions of regression ensembles.
-/

set_option linter.unusedSectionVars false

namespace Verif

variable {K : Type} [Field K] [LinearOrder K] [IsStrictOrderedRing K] [FloorSemiring K] [HasExp K]

open Sample

section
variable {t : Nat} {w : Nat → K}

theorem weighted_meanVec (vs : List (List K)) : weighted t w (meanVec t vs) = meanOf (vs.map (weighted t w)) := by
  have h1 : weighted t w (meanVec t vs) = ((List.range t).map (fun j => w j * meanOf (target vs j))).sum := by
    rw [weighted]
    congr 1
    apply List.map_congr_left
    intro j hj
    rw [meanVec, getD_range (List.mem_range.mp hj)]
  have h2 : (vs.map (weighted t w)).sum = ((List.range t).map (fun j => w j * (target vs j).sum)).sum := by
    have := sum_range_swap t (fun (v : List K) j => w j * v.getD j 0) vs
    simp only [List.sum_map_mul_left] at this
    exact this
  rw [h1, meanOf, h2, List.length_map, div_eq_mul_inv, ← List.sum_map_mul_right]
  congr 1
  apply List.map_congr_left
  intro j _
  rw [meanOf, target_length, div_eq_mul_inv, mul_assoc]

theorem meanOf_le {xs : List K} (hne : xs ≠ []) {b : K} (h : ∀ x ∈ xs, x ≤ b) : meanOf xs ≤ b := by
  have h0 : (0 : K) < xs.length := by exact_mod_cast List.length_pos_of_ne_nil hne
  rw [meanOf, div_le_iff₀ h0, mul_comm, ← nsmul_eq_mul]
  exact List.sum_le_card_nsmul xs b h

theorem meanOf_const {xs : List K} (hne : xs ≠ []) {b : K} (h : ∀ x ∈ xs, x = b) : meanOf xs = b := by
  have h0 := length_cast_ne (K := K) hne
  rw [List.eq_replicate_of_mem h] at h0 ⊢
  rw [meanOf, List.sum_replicate, nsmul_eq_mul]
  simp only [List.length_replicate] at h0 ⊢
  field_simp

theorem weighted_mean_le {vs : List (List K)} (hne : vs ≠ []) {b : K} (h : ∀ v ∈ vs, weighted t w v ≤ b) : weighted t w (meanVec t vs) ≤ b := by
  rw [weighted_meanVec]
  apply meanOf_le (by simpa using hne)
  intro x hx
  obtain ⟨v, hv, rfl⟩ := List.mem_map.mp hx
  exact h v hv

theorem weighted_mean_eq {vs : List (List K)} (hne : vs ≠ []) {b : K} (h : ∀ v ∈ vs, weighted t w v = b) : weighted t w (meanVec t vs) = b := by
  rw [weighted_meanVec]
  apply meanOf_const (by simpa using hne)
  intro x hx
  obtain ⟨v, hv, rfl⟩ := List.mem_map.mp hx
  exact h v hv

theorem weighted_sub {u v : List K} (hu : u.length = t) (hv : v.length = t) :
    weighted t w (List.zipWith (· - ·) u v) = weighted t w u - weighted t w v := by
  have h1 : ∀ l : List Nat, (∀ j ∈ l, j < t) → (l.map (fun j => w j * (List.zipWith (· - ·) u v).getD j 0)).sum =
      (l.map (fun j => w j * u.getD j 0)).sum - (l.map (fun j => w j * v.getD j 0)).sum := by
    intro l
    induction l with
    | nil => simp
    | cons a l ih =>
      intro hl
      simp only [List.map_cons, List.sum_cons, ih (fun j hj => hl j (List.mem_cons_of_mem _ hj))]
      rw [zipWith_getD hu hv 0 0, getD_range (hl a List.mem_cons_self)]
      ring
  exact h1 _ (fun j hj => List.mem_range.mp hj)

theorem weighted_step {u v : List K} (hu : u.length = t) (hv : v.length = t) (lr : K) :
    weighted t w (List.zipWith (· + ·) u (v.map (fun x => lr * x))) = weighted t w u + lr * weighted t w v := by
  have h1 : ∀ l : List Nat, (∀ j ∈ l, j < t) → (l.map (fun j => w j * (List.zipWith (· + ·) u (v.map (fun x => lr * x))).getD j 0)).sum =
      (l.map (fun j => w j * u.getD j 0)).sum + lr * (l.map (fun j => w j * v.getD j 0)).sum := by
    intro l
    induction l with
    | nil => simp
    | cons a l ih =>
      intro hl
      have ha := hl a List.mem_cons_self
      simp only [List.map_cons, List.sum_cons, ih (fun j hj => hl j (List.mem_cons_of_mem _ hj))]
      rw [zipWith_getD hu (by simpa using hv) 0 0, getD_range ha]
      have : (v.map (fun x => lr * x)).getD a 0 = lr * v.getD a 0 := by simp [hv, ha]
      rw [this]
      ring
  exact h1 _ (fun j hj => List.mem_range.mp hj)

end

/-- **C57** (trees).  A linear inequality that holds for all training labels holds for the average label of every leaf of a regression
tree and for every output of a gradient boosting tree with the regression leaf output. -/
theorem C57_tree (d : DataSet (Ext K)) (c t : Nat) (h : d.WF c t) (ls : List (List K)) (hls : d.labels = lift ls)
    (w : Nat → K) (b : K) (hb : ∀ l ∈ ls, weighted t w l ≤ b) (cfg : TreeConfig) (hc : cfg.numberOfClasses = t) :
    (∃ tree, regressionTreeNew d cfg = .ok tree ∧ ∀ p leaf, tree.leafAt p = some leaf →
      ∃ dd v, leaf.data = some dd ∧ calculateAverageVector dd.labels = .ok (liftV v) ∧ v.length = t ∧ weighted t w v ≤ b) ∧
    (∃ tree, gradBoostTreeNew d cfg .regression = .ok tree ∧ ∀ p leaf, tree.leafAt p = some leaf →
      ∃ v, leaf.leafOutput = some (liftV v) ∧ v.length = t ∧ weighted t w v ≤ b) := by
  have key : ∀ {L : Type} (leafOf : DataSet (Ext K) → L) p leaf, (treeOf leafOf c t cfg.maxLevels d).leafAt p = some leaf →
      ∃ dd : DataSet (Ext K), ∃ ms : List (List K), leaf = leafOf dd ∧ dd.WF c t ∧ dd.labels = lift ms ∧ ms ≠ [] ∧ ∀ v ∈ ms, v ∈ ls := by
    intro L leafOf p leaf hp
    obtain ⟨dd, rfl, hw, he⟩ := treeOf_leafAt cfg.maxLevels d h p leaf hp
    have hl : dd.labels = lift (((d.featureRows.zip ls).filter
        (fun e => decide ((treeOf leafOf c t cfg.maxLevels d).route e.1 = p))).map Prod.snd) := by
      rw [labels_of_examples hw, he, examples_lift hls, List.filter_map, List.map_map, lift, List.map_map]
      rfl
    refine ⟨dd, _, rfl, hw, hl, ?_, ?_⟩
    · intro h0
      exact hw.labels_ne (by rw [hl, h0]; rfl)
    · intro v hv
      simp only [List.mem_map, List.mem_filter] at hv
      obtain ⟨e, ⟨he, _⟩, rfl⟩ := hv
      exact (List.of_mem_zip (show (e.1, e.2) ∈ _ from he)).2
  refine ⟨⟨_, regressionTreeNew_ok h hc, ?_⟩, ⟨_, gradBoostTreeNew_ok h hc _, ?_⟩⟩
  · intro p leaf hp
    obtain ⟨dd, ms, rfl, hw, hl, hne, hsub⟩ := key regLeaf p leaf hp
    refine ⟨dd, meanVec t ms, rfl, ?_, meanVec_length _ _, weighted_mean_le hne (fun v hv => hb v (hsub v hv))⟩
    rw [calculateAverageVector_ok hw.labels_ne hw.label_len, hl, avgVec_exact (lift_width hl hw.label_len) hne]
  · intro p leaf hp
    obtain ⟨dd, ms, rfl, hw, hl, hne, hsub⟩ := key (gradLeaf .regression t) p leaf hp
    refine ⟨meanVec t ms, ?_, meanVec_length _ _, weighted_mean_le hne (fun v hv => hb v (hsub v hv))⟩
    simp only [gradLeaf, leafOut]
    rw [hl, avgVec_exact (lift_width hl hw.label_len) hne]

section loop
variable {d : DataSet (Ext K)} {c t : Nat} {ls : List (List K)} {cfg : TreeConfig} {lr : K}

/-- the outputs of the trees fitted to residuals satisfy the homogeneous equation -/
theorem loop_weighted (h : d.WF c t) (hls : d.labels = lift ls) (hc : cfg.numberOfClasses = t) {w : Nat → K} {b : K}
    (hb : ∀ l ∈ ls, weighted t w l = b) (n : Nat) :
    ∃ s ps, regLoopAt d cfg lr (liftV (meanVec t ls)) n = .ok s ∧ RegState d c t ls cfg lr s ps ∧ (∀ p ∈ ps, weighted t w p = b) ∧
      ∀ tree ∈ s.2, ∃ rs, ({ d with labels := lift rs } : DataSet (Ext K)).WF c t ∧ tree = residTree c t cfg.maxLevels d rs ∧
        ∀ r ∈ rs, weighted t w r = 0 := by
  have hne : ls ≠ [] := by
    intro h0
    exact h.labels_ne (by rw [hls, h0]; rfl)
  have hlw := lift_width hls h.label_len
  induction n with
  | zero =>
    refine ⟨_, _, rfl, regState_start h hls, ?_, by simp⟩
    intro p hp
    rw [List.eq_of_mem_replicate hp]
    exact weighted_mean_eq hne hb
  | succ n ih =>
    obtain ⟨s, ps, h1, hs, hp, ht⟩ := ih
    obtain ⟨s', ps', h3, hs', _⟩ := regState_step h hls hc hs
    have hg : (liftV (meanVec t ls) : List (Ext K)).length = t := by rw [liftV_length, meanVec_length]
    obtain ⟨h4, h5⟩ := regression_step_exact h hls hc hg hs.finite h3
    have hps := lift_injective (hs'.finite.labels.symm.trans h4.labels)
    have hwr := resid_wf h hls hs.finite.len hs.finite.width
    have hr0 : ∀ r ∈ resid ls ps, weighted t w r = 0 := by
      intro r hr
      obtain ⟨i, hi, rfl⟩ := List.getElem_of_mem hr
      simp only [resid, List.length_zipWith] at hi
      simp only [resid, List.getElem_zipWith]
      rw [weighted_sub (hlw _ (List.getElem_mem (by omega))) (hs.finite.width _ (List.getElem_mem (by omega))),
        hb _ (List.getElem_mem _), hp _ (List.getElem_mem _), sub_self]
    refine ⟨s', ps', by rw [regLoopAt] at h1 ⊢; rw [boostLoop_succ, h1]; exact h3, hs', ?_, ?_⟩
    · intro p hp'
      rw [hps] at hp'
      obtain ⟨i, hi, rfl⟩ := List.getElem_of_mem hp'
      simp only [updated, List.length_zipWith] at hi
      simp only [updated, List.getElem_zipWith]
      rw [weighted_step (hs.finite.width _ (List.getElem_mem _)) (meanVec_length _ _), hp _ (List.getElem_mem _)]
      obtain ⟨dd, hw2, _, he⟩ := tree_lookup (leafOf := gradLeaf .regression t) cfg.maxLevels hwr
        (row := d.featureRows[i]'(by omega)) (h.row_len _ (List.getElem_mem _)).ge
      obtain ⟨_, hmne, _⟩ := mates_ok (ls := resid ls ps) rfl hw2 he
      rw [weighted_mean_eq (b := 0) hmne, mul_zero, add_zero]
      intro v hv
      apply hr0
      simp only [mates, List.mem_map, List.mem_filter] at hv
      obtain ⟨e, ⟨he', _⟩, rfl⟩ := hv
      exact (List.of_mem_zip (show (e.1, e.2) ∈ _ from he')).2
    · intro tree htree
      rw [h5] at htree
      rcases List.mem_append.mp htree with htree | htree
      · exact ht tree htree
      · rw [List.mem_singleton] at htree
        exact ⟨_, hwr, htree, hr0⟩

theorem residOut_weighted {rs : List (List K)} (hwr : ({ d with labels := lift rs } : DataSet (Ext K)).WF c t)
    {row : List (Ext K)} (hrow : c ≤ row.length) :
    mates (residTree c t cfg.maxLevels d rs) (d.featureRows.zip rs) row ≠ [] ∧
      ∀ v ∈ mates (residTree c t cfg.maxLevels d rs) (d.featureRows.zip rs) row, v ∈ rs := by
  obtain ⟨dd, hw2, _, he⟩ := tree_lookup (leafOf := gradLeaf .regression t) cfg.maxLevels hwr hrow
  obtain ⟨_, hmne, _⟩ := mates_ok (ls := rs) rfl hw2 he
  refine ⟨hmne, ?_⟩
  intro v hv
  simp only [mates, List.mem_map, List.mem_filter] at hv
  obtain ⟨e, ⟨he', _⟩, rfl⟩ := hv
  exact (List.of_mem_zip (show (e.1, e.2) ∈ _ from he')).2

end loop

theorem weighted_sum_outs {t : Nat} {w : Nat → K} (g : List K) (lr : K) (outs : List (List K)) :
    weighted t w ((List.range t).map (fun j => g.getD j 0 + lr * (outs.map (fun o => o.getD j 0)).sum)) =
      weighted t w g + lr * (outs.map (weighted t w)).sum := by
  have h1 : weighted t w ((List.range t).map (fun j => g.getD j 0 + lr * (outs.map (fun o => o.getD j 0)).sum)) =
      ((List.range t).map (fun j => w j * g.getD j 0 + lr * (outs.map (fun o => w j * o.getD j 0)).sum)).sum := by
    rw [weighted]
    congr 1
    apply List.map_congr_left
    intro j hj
    rw [getD_range (List.mem_range.mp hj), List.sum_map_mul_left]
    ring
  have h2 := sum_range_swap t (fun (o : List K) j => w j * o.getD j 0) outs
  rw [h1, List.sum_map_add, List.sum_map_mul_left, ← h2]
  rfl

/-- **C57** (regression ensembles).  A linear equation that holds for all training labels holds for every prediction, for every number
of iterations, depth and learning rate. -/
theorem C57_ensemble (d : DataSet (Ext K)) (c t : Nat) (h : d.WF c t) (ls : List (List K)) (hls : d.labels = lift ls)
    (w : Nat → K) (b : K) (hb : ∀ l ∈ ls, weighted t w l = b) (cfg : TreeConfig) (hc : cfg.numberOfClasses = t) (n : Nat) (lr : K) :
    ∃ m, regressionTrain d cfg n (.fin lr) = .ok m ∧ ∀ row : List (Ext K), c ≤ row.length →
      ∃ v, v.length = t ∧ regressionPredict m row = .ok (liftV v) ∧ weighted t w v = b := by
  obtain ⟨s, ps, h1, hs, _, ht⟩ := loop_weighted (lr := lr) h hls hc hb n
  refine ⟨_, regressionTrain_of_loop h hls h1, ?_⟩
  intro row hrow
  have houts : ∃ outs : List (List K), List.Forall₂ (fun tree o => gradOut row tree = .ok (liftV o) ∧ o.length = t) s.2 outs ∧
      ∀ o ∈ outs, weighted t w o = 0 := by
    have : ∀ trees : List (TreeNode (Ext K) (GradBoostLeaf (Ext K))), (∀ tree ∈ trees, ∃ rs,
        ({ d with labels := lift rs } : DataSet (Ext K)).WF c t ∧ tree = residTree c t cfg.maxLevels d rs ∧ ∀ r ∈ rs, weighted t w r = 0) →
        ∃ outs : List (List K), List.Forall₂ (fun tree o => gradOut row tree = .ok (liftV o) ∧ o.length = t) trees outs ∧
          ∀ o ∈ outs, weighted t w o = 0 := by
      intro trees
      induction trees with
      | nil => exact fun _ => ⟨[], .nil, by simp⟩
      | cons tree trees ih =>
        intro hall
        obtain ⟨outs, ho, hz⟩ := ih (fun t' ht' => hall t' (List.mem_cons_of_mem _ ht'))
        obtain ⟨rs, hwr, rfl, hr0⟩ := hall tree List.mem_cons_self
        obtain ⟨hne, hsub⟩ := residOut_weighted (cfg := cfg) hwr hrow
        refine ⟨residOut c t cfg.maxLevels d rs row :: outs,
          .cons ⟨gradOut_regression_exact cfg.maxLevels hwr (ls := rs) rfl hrow, meanVec_length _ _⟩ ho, ?_⟩
        intro o hm
        rcases List.mem_cons.mp hm with rfl | hm
        · exact weighted_mean_eq hne (fun v hv => hr0 v (hsub v hv))
        · exact hz o hm
    exact this s.2 ht
  obtain ⟨outs, ho, hz⟩ := houts
  refine ⟨(List.range t).map (fun j => (meanVec t ls).getD j 0 + lr * (outs.map (fun o => o.getD j 0)).sum), by simp, ?_, ?_⟩
  · rw [regressionPredict, predictInstance_eq]
    exact rawScore_exact (meanVec_length _ _) ho
  · have hne : ls ≠ [] := by
      intro h0
      exact h.labels_ne (by rw [hls, h0]; rfl)
    rw [weighted_sum_outs, weighted_mean_eq hne hb, List.sum_eq_zero (by
      intro x hx
      obtain ⟨o, ho', rfl⟩ := List.mem_map.mp hx
      exact hz o ho'), mul_zero, add_zero]

/-- **C57** (one iteration).  With a single tree and a learning rate between 0 and 1, linear inequalities carry over as well. -/
theorem C57_one_iteration (d : DataSet (Ext K)) (c t : Nat) (h : d.WF c t) (ls : List (List K)) (hls : d.labels = lift ls)
    (w : Nat → K) (b : K) (hb : ∀ l ∈ ls, weighted t w l ≤ b) (cfg : TreeConfig) (hc : cfg.numberOfClasses = t)
    (n : Nat) (hn : n ≤ 1) (lr : K) (h0 : 0 ≤ lr) (h1 : lr ≤ 1) :
    ∃ m, regressionTrain d cfg n (.fin lr) = .ok m ∧ ∀ row : List (Ext K), c ≤ row.length →
      ∃ v, v.length = t ∧ regressionPredict m row = .ok (liftV v) ∧ weighted t w v ≤ b := by
  have hne : ls ≠ [] := by
    intro h0
    exact h.labels_ne (by rw [hls, h0]; rfl)
  have hlw := lift_width hls h.label_len
  have hs := regState_start (cfg := cfg) (lr := lr) h hls
  have hmb := weighted_mean_le hne hb
  rcases Nat.le_one_iff_eq_zero_or_eq_one.mp hn with rfl | rfl
  · refine ⟨_, regressionTrain_of_loop h hls (n := 0) rfl, ?_⟩
    intro row hrow
    refine ⟨meanVec t ls, meanVec_length _ _, ?_, hmb⟩
    rw [regressionPredict, predictInstance_eq, rawScore_nil]
  · obtain ⟨s', ps', h3, hs', _⟩ := regState_step h hls hc hs
    have hg : (liftV (meanVec t ls) : List (Ext K)).length = t := by rw [liftV_length, meanVec_length]
    obtain ⟨h4, h5⟩ := regression_step_exact h hls hc hg hs.finite h3
    have hwr := resid_wf h hls hs.finite.len hs.finite.width
    refine ⟨_, regressionTrain_of_loop h hls (n := 1) (by rw [regLoopAt, boostLoop_succ]; exact h3), ?_⟩
    intro row hrow
    obtain ⟨hmne, hsub⟩ := residOut_weighted (cfg := cfg) hwr hrow
    refine ⟨(List.range t).map (fun j => (meanVec t ls).getD j 0 + lr * ((
      [residOut c t cfg.maxLevels d (resid ls (List.replicate ls.length (meanVec t ls))) row]).map (fun o => o.getD j 0)).sum), by simp, ?_, ?_⟩
    · rw [regressionPredict, predictInstance_eq, h5, List.nil_append]
      exact rawScore_exact (meanVec_length _ _)
        (.cons ⟨gradOut_regression_exact cfg.maxLevels hwr (ls := resid ls (List.replicate ls.length (meanVec t ls))) rfl hrow, meanVec_length _ _⟩ .nil)
    · rw [weighted_sum_outs]
      simp only [List.map_cons, List.map_nil, List.sum_cons, List.sum_nil, add_zero]
      have hro : weighted t w (residOut c t cfg.maxLevels d (resid ls (List.replicate ls.length (meanVec t ls))) row) ≤
          b - weighted t w (meanVec t ls) := by
        apply weighted_mean_le hmne
        intro v hv
        obtain ⟨i, hi, hv⟩ := List.getElem_of_mem (hsub v hv)
        simp only [resid, List.length_zipWith, List.length_replicate] at hi
        rw [← hv]
        simp only [resid, List.getElem_zipWith, List.getElem_replicate]
        rw [weighted_sub (hlw _ (List.getElem_mem (by omega))) (meanVec_length _ _)]
        have := hb _ (List.getElem_mem (show i < ls.length by omega))
        linarith
      set a := weighted t w (meanVec t ls) with ha
      have h6 := mul_le_mul_of_nonneg_left hro h0
      have h7 : lr * (b - a) ≤ 1 * (b - a) := mul_le_mul_of_nonneg_right h1 (by linarith)
      linarith

/-- three rows with the labels 0, 1, 2 -/
def rise3 : DataSet E :=
  { featureRows := [[0, 2], [2, 0], [3, 2]], labels := [[0], [1], [2]], featureColumns := [[0, 2, 3], [2, 0, 2]] }

theorem rise3_wf : rise3.WF 2 1 := by
  constructor <;> decide +kernel

/-- **C57** fails for inequalities in longer ensembles: no training label is negative, yet after two iterations with learning rate 1
the first training row gets the prediction -1/4. -/
theorem C57_inequality_violated : rise3.WF 2 1 ∧ (∀ l ∈ rise3.labels, ∀ x ∈ l, (F64.zero <=. x) = true) ∧
    (do
      let m ← regressionTrain rise3 (exCfg 1) 2 (.fin 1)
      regressionPredict m [0, 2]) = .ok [.fin (-1 / 4)] := by
  refine ⟨rise3_wf, ?_, ?_⟩ <;> decide +kernel

/-- **C57** fails in binary64: three training labels 0.1, and the average in the leaf is larger than 0.1. -/
theorem C57_violated_in_binary64 : ∀ negZero : Bool, let _ := env negZero
    (calculateAverageVector [[b64 0.1], [b64 0.1], [b64 0.1]]).map (fun v => v.map (fun x => b64 0.1 <. x)) = .ok [true] := by
  decide +kernel

-- labels that are shares of a whole: the sum of the entries is 1, and so is the sum of all predicted entries
def shares3 : DataSet E :=
  { featureRows := [[0], [1], [2]], labels := [[.fin (1 / 2), .fin (1 / 2)], [.fin (1 / 4), .fin (3 / 4)], [0, 1]],
    featureColumns := [[0, 1, 2]] }
example : shares3.WF 1 2 ∧ shares3.labels = lift [[1 / 2, 1 / 2], [1 / 4, 3 / 4], [0, 1]] ∧
    (∀ l ∈ [[1 / 2, 1 / 2], [1 / 4, 3 / 4], [0, 1]], weighted 2 (fun _ => (1 : ℚ)) l = 1) ∧
    (do
      let m ← regressionTrain shares3 (exCfg 2) 2 (.fin (1 / 2))
      regressionPredict m [1]) = .ok [.fin (15 / 64), .fin (49 / 64)] := by
  refine ⟨?_, ?_, ?_, ?_⟩
  · constructor <;> decide +kernel
  all_goals decide +kernel

end Verif
