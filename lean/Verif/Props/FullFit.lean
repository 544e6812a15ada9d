import Verif.Spec.Fit
import Verif.Lemmas.FullFit
import Verif.Props.ExactBoost
/-!
# C56: deep trees fit the training data
-/

set_option linter.unusedSectionVars false

namespace Verif

open Sample

section depth
variable {F : Type} [F64 F] [LawfulOrder F]

/-- **C56** (depth).  In any arithmetic: `k` questions lead to a leaf with at most `n - k` of the `n` training examples.  In
particular no way through the tree has more than `n - 1` questions. -/
theorem C56_depth (d : DataSet F) (c t : Nat) (h : d.WF c t) (cfg : TreeConfig) (hc : cfg.numberOfClasses = t) (o : LeafOutputType) :
    (∃ tree, regressionTreeNew d cfg = .ok tree ∧ ∀ p leaf, tree.leafAt p = some leaf →
      p.length + (d.examples.filter (fun e => decide (tree.route e.1 = p))).length ≤ d.featureRows.length ∧ p.length < d.featureRows.length) ∧
    (∃ tree, gradBoostTreeNew d cfg o = .ok tree ∧ ∀ p leaf, tree.leafAt p = some leaf →
      p.length + (d.examples.filter (fun e => decide (tree.route e.1 = p))).length ≤ d.featureRows.length ∧ p.length < d.featureRows.length) ∧
    (∃ tree, amgTreeNew d cfg o = .ok tree ∧ ∀ p leaf, tree.leafAt p = some leaf →
      p.length + (d.examples.filter (fun e => decide (tree.route e.1 = p))).length ≤ d.featureRows.length ∧ p.length < d.featureRows.length) := by
  have key : ∀ {L : Type} (leafOf : DataSet F → L) p leaf, (treeOf leafOf c t cfg.maxLevels d).leafAt p = some leaf →
      p.length + (d.examples.filter (fun e => decide ((treeOf leafOf c t cfg.maxLevels d).route e.1 = p))).length ≤ d.featureRows.length ∧
        p.length < d.featureRows.length := by
    intro L leafOf p leaf hp
    have h1 := treeOf_depth cfg.maxLevels d h p leaf hp
    have hel : d.examples.length = d.featureRows.length := by simp [DataSet.examples, h.label_count]
    obtain ⟨dd, _, hw, he⟩ := treeOf_leafAt cfg.maxLevels d h p leaf hp
    have h2 := wf_examples_pos hw
    rw [he] at h2
    omega
  exact ⟨⟨_, regressionTreeNew_ok h hc, key _⟩, ⟨_, gradBoostTreeNew_ok h hc o, key _⟩, ⟨_, amgTreeNew_ok h hc o, key _⟩⟩

end depth

variable {K : Type} [Field K] [LinearOrder K] [IsStrictOrderedRing K] [FloorSemiring K] [HasExp K]

theorem TellsRowsApart.pairwise {d : DataSet (Ext K)} {c t j : Nat} (h : d.WF c t) (hj : j < c) (hd : TellsRowsApart d.featureRows j) :
    (column d.featureRows j).Pairwise (fun x y => (x ==. y) = false) := by
  rw [List.pairwise_iff_getElem]
  intro a b ha hb hab
  simp only [column, List.length_map] at ha hb
  simp only [column, List.getElem_map]
  cases hc : (d.featureRows[a].getD j F64.zero ==. d.featureRows[b].getD j F64.zero) with
  | false => rfl
  | true =>
    exfalso
    have l1 := h.row_len _ (List.getElem_mem ha)
    have l2 := h.row_len _ (List.getElem_mem hb)
    have := hd a b _ _ _ _ (List.getElem?_eq_getElem ha) (List.getElem?_eq_getElem hb) (List.getElem?_eq_getElem (by omega))
      (List.getElem?_eq_getElem (by omega)) (by simpa [List.getD, l1, l2, hj] using hc)
    omega

/-- **C56** (pure leaves).  If no two training examples contradict each other (rows with the same features have the same label), all
training examples in a leaf above the depth limit have the same label.  Repeated feature values do no harm. -/
theorem C56_pure_leaves (d : DataSet (Ext K)) (c t : Nat) (h : d.WF c t) (ls : List (List K)) (hls : d.labels = lift ls) (hd : NoContradictions d.featureRows d.labels) (cfg : TreeConfig) (hc : cfg.numberOfClasses = t) (o : LeafOutputType) :
    (∃ tree, regressionTreeNew d cfg = .ok tree ∧ ∀ e ∈ d.examples, ∀ e' ∈ d.examples, tree.route e.1 = tree.route e'.1 →
      (tree.route e.1).length < cfg.maxLevels → e.2 = e'.2) ∧
    (∃ tree, gradBoostTreeNew d cfg o = .ok tree ∧ ∀ e ∈ d.examples, ∀ e' ∈ d.examples, tree.route e.1 = tree.route e'.1 →
      (tree.route e.1).length < cfg.maxLevels → e.2 = e'.2) ∧
    (∃ tree, amgTreeNew d cfg o = .ok tree ∧ ∀ e ∈ d.examples, ∀ e' ∈ d.examples, tree.route e.1 = tree.route e'.1 →
      (tree.route e.1).length < cfg.maxLevels → e.2 = e'.2) := by
  have key : ∀ {L : Type} (leafOf : DataSet (Ext K) → L), ∀ e ∈ d.examples, ∀ e' ∈ d.examples,
      (treeOf leafOf c t cfg.maxLevels d).route e.1 = (treeOf leafOf c t cfg.maxLevels d).route e'.1 →
      ((treeOf leafOf c t cfg.maxLevels d).route e.1).length < cfg.maxLevels → e.2 = e'.2 := by
    intro L leafOf e he e' he' hr hm
    have hrow := examples_fst_mem he
    obtain ⟨leaf, _, hl⟩ := TreeNode.find_of_proper (treeOf_proper (leafOf := leafOf) (c := c) (t := t) cfg.maxLevels d) (row := e.1)
      (fun p q hq => by rw [h.row_len e.1 hrow]; exact (treeOf_questions cfg.maxLevels d h p q hq).1)
    exact treeOf_pure cfg.maxLevels d h hls hd _ leaf hl hm e he e' he' rfl hr.symm
  exact ⟨⟨_, regressionTreeNew_ok h hc, key _⟩, ⟨_, gradBoostTreeNew_ok h hc o, key _⟩, ⟨_, amgTreeNew_ok h hc o, key _⟩⟩

/-- **C56** (regression tree).  If no two of the `n` training examples contradict each other and `n - 1` levels are allowed, the training
error is zero. -/
theorem C56_tree_fits (d : DataSet (Ext K)) (c t : Nat) (h : d.WF c t) (ht0 : 0 < t) (ls : List (List K)) (hls : d.labels = lift ls)
    (hd : NoContradictions d.featureRows d.labels) (cfg : TreeConfig) (hc : cfg.numberOfClasses = t)
    (hm : d.featureRows.length ≤ cfg.maxLevels + 1) :
    ∃ tree, regressionTreeNew d cfg = .ok tree ∧ calculateOverallMse d tree = .ok (.fin 0) := by
  have hlw := lift_width hls h.label_len
  have hll : ls.length = d.featureRows.length := by rw [← h.label_count, hls, lift_length]
  refine ⟨_, regressionTreeNew_ok h hc, ?_⟩
  rw [overallMse_exact h ht0 hls cfg.maxLevels (fun row hr => (h.row_len row hr).ge) hls hlw hll h.rows_ne]
  congr 2
  rw [mseOf_eq_zero ht0 (by
    intro p hp
    obtain ⟨row, _, rfl⟩ := List.mem_map.mp hp
    exact meanVec_length _ _) hlw (by simp [hll]) (by simpa using h.rows_ne)]
  have hf := treeOf_fits (leafOf := regLeaf) h hls hd hm
  apply List.ext_getElem (by simp [hll])
  intro i h1 h2
  simp only [List.length_map] at h1
  rw [List.getElem_map]
  exact hf (d.featureRows[i], ls[i]) (by rw [List.mem_iff_getElem]; exact ⟨i, by simp [h1, h2], by simp⟩)

/-- if the trees reproduce all functions of the labels, the ensemble approaches the labels -/
theorem ensemble_fits_of {d : DataSet (Ext K)} {c t : Nat} (h : d.WF c t) (ht0 : 0 < t) {ls : List (List K)} (hls : d.labels = lift ls)
    {cfg : TreeConfig} (hc : cfg.numberOfClasses = t)
    (hfit : ∀ φ : List K → List K, ({ d with labels := lift (ls.map φ) } : DataSet (Ext K)).WF c t → ∀ e ∈ d.featureRows.zip (ls.map φ),
      meanVec t (mates (residTree c t cfg.maxLevels d (ls.map φ)) (d.featureRows.zip (ls.map φ)) e.1) = e.2) (k : Nat) (lr : K) :
    ∃ m, regressionTrain d cfg k (.fin lr) = .ok m ∧
      d.featureRows.mapM (regressionPredict m) = .ok (lift (ls.map (between t ((1 - lr) ^ k) (meanVec t ls)))) ∧
      regressionScore m d = .ok (.fin ((1 - lr) ^ (2 * k) * mseOf ls (ls.map (fun _ => meanVec t ls)))) := by
  have hlw := lift_width hls h.label_len
  have hll : ls.length = d.featureRows.length := by rw [← h.label_count, hls, lift_length]
  have hbl : ∀ (w : K) (u v : List K), (between t w u v).length = t := by intro w u v; simp [between]
  have key : ∃ s, regLoopAt d cfg lr (liftV (meanVec t ls)) k = .ok s ∧
      RegState d c t ls cfg lr s (ls.map (between t ((1 - lr) ^ k) (meanVec t ls))) := by
    induction k with
    | zero =>
      refine ⟨_, rfl, ?_⟩
      have h0 := regState_start (cfg := cfg) (lr := lr) h hls
      have he : ls.map (between t ((1 - lr) ^ 0) (meanVec t ls)) = List.replicate ls.length (meanVec t ls) := by
        rw [List.eq_replicate_iff]
        refine ⟨by simp, ?_⟩
        intro v hv
        obtain ⟨l, _, rfl⟩ := List.mem_map.mp hv
        rw [eq_range_getD (meanVec_length t ls) 0, between]
        apply List.map_congr_left
        intro i hi
        rw [List.mem_range] at hi
        rw [getD_range hi]
        ring
      rw [he]
      exact h0
    | succ k ih =>
      obtain ⟨s, h1, hs⟩ := ih
      obtain ⟨s', ps', h3, hs', _⟩ := regState_step h hls hc hs
      have hg : (liftV (meanVec t ls) : List (Ext K)).length = t := by rw [liftV_length, meanVec_length]
      obtain ⟨h4, _⟩ := regression_step_exact h hls hc hg hs.finite h3
      have hps := lift_injective (hs'.finite.labels.symm.trans h4.labels)
      refine ⟨s', by rw [regLoopAt] at h1 ⊢; rw [boostLoop_succ, h1]; exact h3, ?_⟩
      have hpl : (ls.map (between t ((1 - lr) ^ k) (meanVec t ls))).length = d.labels.length := by rw [List.length_map, hll, h.label_count]
      have hwr := resid_wf h hls hpl (by
        intro p hp
        obtain ⟨l, _, rfl⟩ := List.mem_map.mp hp
        exact hbl _ _ _)
      have hrm : resid ls (ls.map (between t ((1 - lr) ^ k) (meanVec t ls))) =
          ls.map (fun l => List.zipWith (· - ·) l (between t ((1 - lr) ^ k) (meanVec t ls) l)) := by
        rw [resid, List.zipWith_map_right, List.zipWith_self]
      have hf := hfit _ (hrm ▸ hwr)
      rw [← hrm] at hf
      have he : ls.map (between t ((1 - lr) ^ (k + 1)) (meanVec t ls)) = ps' := by
        rw [hps]
        apply List.ext_getElem (by simp [updated, hll])
        intro i i1 i2
        simp only [List.length_map] at i1
        have i3 : i < d.featureRows.length := by omega
        have hrl : (resid ls (ls.map (between t ((1 - lr) ^ k) (meanVec t ls)))).length = ls.length := by simp [resid]
        have := hf (d.featureRows[i], (resid ls (ls.map (between t ((1 - lr) ^ k) (meanVec t ls))))[i]'(by omega))
          (by rw [List.mem_iff_getElem]; exact ⟨i, by simp [i3, hrl, i1], by simp⟩)
        simp only at this
        simp only [updated, List.getElem_zipWith, List.getElem_map]
        rw [residOut, this]
        have b1 := hlw _ (List.getElem_mem i1)
        simp only [resid, List.getElem_zipWith, List.getElem_map]
        rw [zipWith_getD b1 (hbl _ _ _) 0 0, List.map_map, zipWith_getD (hbl _ _ _) (by simp) 0 0, between]
        apply List.map_congr_left
        intro q hq
        rw [List.mem_range] at hq
        rw [getD_range hq]
        simp only [Function.comp_apply, between]
        rw [getD_range hq]
        ring
      rw [he]
      exact hs'
  obtain ⟨s, h1, hs⟩ := key
  refine ⟨_, regressionTrain_of_loop h hls h1, predict_of_state h hs, ?_⟩
  rw [(C29_ensemble_exact _ d t ht0 _ ls (predict_of_state h hs) hls hs.finite.width hlw hll h.rows_ne).1]
  congr 2
  rw [mseOf, mseOf, mul_div_assoc', List.zipWith_map_right, List.zipWith_map_right, List.zipWith_self, List.zipWith_self, ← List.sum_map_mul_left]
  congr 2
  apply List.map_congr_left
  intro l hl
  have hlt := hlw l hl
  rw [sqErr_eq hlt (hbl _ _ _), sqErr_eq hlt (meanVec_length _ _), mul_div_assoc', ← List.sum_map_mul_left]
  congr 2
  apply List.map_congr_left
  intro q hq
  rw [List.mem_range] at hq
  rw [between, getD_range hq, mul_comm 2 k, pow_mul]
  ring

/-- **C56** (regression ensemble).  If no two of the `n` training examples contradict each other and `n - 1` levels are allowed, then after
`k` iterations the distance of each training prediction from its label is the distance of the mean label times `(1 - lr)^k`, and the
training error is that of the mean label times `(1 - lr)^(2 k)`. -/
theorem C56_ensemble_fits (d : DataSet (Ext K)) (c t : Nat) (h : d.WF c t) (ht0 : 0 < t) (ls : List (List K)) (hls : d.labels = lift ls)
    (hd : NoContradictions d.featureRows d.labels) (cfg : TreeConfig) (hc : cfg.numberOfClasses = t)
    (hm : d.featureRows.length ≤ cfg.maxLevels + 1) (k : Nat) (lr : K) :
    ∃ m, regressionTrain d cfg k (.fin lr) = .ok m ∧
      d.featureRows.mapM (regressionPredict m) = .ok (lift (ls.map (between t ((1 - lr) ^ k) (meanVec t ls)))) ∧
      regressionScore m d = .ok (.fin ((1 - lr) ^ (2 * k) * mseOf ls (ls.map (fun _ => meanVec t ls)))) := by
  refine ensemble_fits_of h ht0 hls hc ?_ k lr
  intro φ hw
  exact treeOf_fits hw rfl ((NoContradictions.unlift (hls ▸ hd)).map φ |>.map liftV) hm

/-- **C56** (one step).  With learning rate 1 a single deep tree already reproduces every training label. -/
theorem C56_rate_one (d : DataSet (Ext K)) (c t : Nat) (h : d.WF c t) (ht0 : 0 < t) (ls : List (List K)) (hls : d.labels = lift ls)
    (hd : NoContradictions d.featureRows d.labels) (cfg : TreeConfig) (hc : cfg.numberOfClasses = t)
    (hm : d.featureRows.length ≤ cfg.maxLevels + 1) (k : Nat) (hk : 0 < k) :
    ∃ m, regressionTrain d cfg k (.fin 1) = .ok m ∧ d.featureRows.mapM (regressionPredict m) = .ok d.labels ∧
      regressionScore m d = .ok (.fin 0) := by
  obtain ⟨m, h1, h2, h3⟩ := C56_ensemble_fits d c t h ht0 ls hls hd cfg hc hm k 1
  have hlw := lift_width hls h.label_len
  refine ⟨m, h1, ?_, ?_⟩
  · rw [h2, hls]
    congr 2
    conv_rhs => rw [← List.map_id ls]
    apply List.map_congr_left
    intro l hl
    have h0 : (1 - 1 : K) ^ k = 0 := by rw [sub_self]; exact zero_pow hk.ne'
    rw [between, h0]
    simp only [zero_mul, sub_zero, one_mul, zero_add, id]
    exact (eq_range_getD (hlw l hl) 0).symm
  · rw [h3]
    have h0 : (1 - 1 : K) ^ (2 * k) = 0 := by rw [sub_self]; exact zero_pow (by omega)
    rw [h0, zero_mul]

-- the hypotheses are met by four rows that both features tell apart; three levels suffice
example : TellsRowsApart distinct4.featureRows 1 := by
  have h : ∀ a < 4, ∀ b < 4, ((distinct4.featureRows.getD a []).getD 1 0 ==. (distinct4.featureRows.getD b []).getD 1 0) = true → a = b := by
    decide +kernel
  intro a b ra rb x y h1 h2 h3 h4 h5
  have ha : a < 4 := (List.getElem?_eq_some_iff.mp h1).1
  have hb : b < 4 := (List.getElem?_eq_some_iff.mp h2).1
  exact h a ha b hb (by simpa [List.getD, h1, h2, h3, h4] using h5)
example : (do
    let tree ← regressionTreeNew distinct4 { useMultiThreading := false, numberOfClasses := 1, maxLevels := 3 }
    calculateOverallMse distinct4 tree) = .ok (.fin 0) := by decide +kernel
-- with fewer levels, or without a feature that tells the rows apart, the error may stay positive
example : (do
    let tree ← regressionTreeNew distinct4 { useMultiThreading := false, numberOfClasses := 1, maxLevels := 1 }
    calculateOverallMse distinct4 tree) ≠ .ok (.fin 0) := by decide +kernel
-- two equal rows with different labels
def equalRows : DataSet E := { featureRows := [[1], [1]], labels := [[0], [1]], featureColumns := [[1, 1]] }
example : (do
    let tree ← regressionTreeNew equalRows { useMultiThreading := false, numberOfClasses := 1, maxLevels := 3 }
    calculateOverallMse equalRows tree) = .ok (.fin (1 / 4)) := by decide +kernel

end Verif
