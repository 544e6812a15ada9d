import Verif.Spec.Credit
import Verif.Lemmas.Greedy
import Verif.Props.Ties
import Verif.Props.Exhaust
/-!
# C104: how much every question contributes to the training error
-/

set_option linter.unusedSectionVars false

namespace Verif

variable {K : Type} [Field K] [LinearOrder K] [IsStrictOrderedRing K] [FloorSemiring K] [HasExp K] {L : Type}

open Sample

/-- the squared distances of the labels of `es` from the mean label of their leaf -/
def leafErrors (t : Nat) (tree : TreeNode (Ext K) L) (es : List (List (Ext K) × List K)) : K :=
  (es.map (fun e => ((List.range t).map (fun j => ((meanVec t (mates tree es e.1)).getD j 0 - e.2.getD j 0) ^ 2)).sum)).sum

theorem deviations (t : Nat) (es : List (List (Ext K) × List K)) :
    (es.map (fun e => ((List.range t).map (fun j => ((meanVec t (es.map Prod.snd)).getD j 0 - e.2.getD j 0) ^ 2)).sum)).sum =
      es.length * totalVar t (es.map Prod.snd) := by
  rw [sum_range_swap, totalVar, ← List.sum_map_mul_left]
  congr 1
  apply List.map_congr_left
  intro j hj
  rw [List.mem_range] at hj
  have h2 := length_mul_varOf (target (es.map Prod.snd) j)
  rw [target_length, List.length_map] at h2
  rw [h2, meanVec, getD_range hj, sqDev, target, List.map_map, List.map_map]
  congr 1
  apply List.map_congr_left
  intro e _
  simp only [Function.comp]
  ring

theorem sum_by_answer {α : Type} (p : α → Bool) (f : α → K) (l : List α) :
    (l.map f).sum = ((l.filter p).map f).sum + ((l.filter (fun a => !p a)).map f).sum := by
  induction l with
  | nil => simp
  | cons a l ih =>
    cases h : p a <;> simp [h, ih] <;> ring

theorem length_by_answer {α : Type} (p : α → Bool) (l : List α) : (l.filter (fun a => !p a)).length + (l.filter p).length = l.length := by
  induction l with
  | nil => rfl
  | cons a l ih => cases h : p a <;> simp [h] at ih ⊢ <;> omega

theorem leafErrors_credit (t : Nat) {tree : TreeNode (Ext K) L} (hp : tree.Proper) : ∀ es : List (List (Ext K) × List K),
    leafErrors t tree es = es.length * totalVar t (es.map Prod.snd) - creditSum t tree es := by
  induction hp with
  | leaf q l =>
    intro es
    rw [← deviations]
    simp [leafErrors, creditSum, TreeNode.preorder, credit, TreeNode.questionAt, mates, TreeNode.route, List.filter_true]
  | node q y n hy hn ihy ihn =>
    intro es
    set tree : TreeNode (Ext K) L := .mk q (some y) (some n) none with htree
    set ey := es.filter (fun e => satisfies q e.1) with hey
    set en := es.filter (fun e => !satisfies q e.1) with hen
    have hsum : leafErrors t tree es = leafErrors t y ey + leafErrors t n en := by
      rw [leafErrors, sum_by_answer (fun e => satisfies q e.1)]
      congr 1
      · rw [leafErrors]
        congr 1
        apply List.map_congr_left
        intro e he
        have hs : satisfies q e.1 = true := by simpa using (List.mem_filter.mp he).2
        have : mates tree es e.1 = mates y ey e.1 := by
          rw [mates, mates, hey, List.filter_filter]
          congr 1
          apply List.filter_congr
          intro b _
          cases hb : satisfies q b.1 <;> simp [htree, TreeNode.route, hs, hb]
        rw [this]
      · rw [leafErrors]
        congr 1
        apply List.map_congr_left
        intro e he
        have hs : satisfies q e.1 = false := by simpa using (List.mem_filter.mp he).2
        have : mates tree es e.1 = mates n en e.1 := by
          rw [mates, mates, hen, List.filter_filter]
          congr 1
          apply List.filter_congr
          intro b _
          cases hb : satisfies q b.1 <;> simp [htree, TreeNode.route, hs, hb]
        rw [this]
    have pnil : passing tree es [] = es := by simp [passing]
    have pyes : ∀ p, passing tree es (true :: p) = passing y ey p := by
      intro p
      rw [passing, passing, hey, List.filter_filter]
      apply List.filter_congr
      intro b _
      cases hb : satisfies q b.1 <;> simp [htree, TreeNode.route, hb, List.isPrefixOf]
    have pno : ∀ p, passing tree es (false :: p) = passing n en p := by
      intro p
      rw [passing, passing, hen, List.filter_filter]
      apply List.filter_congr
      intro b _
      cases hb : satisfies q b.1 <;> simp [htree, TreeNode.route, hb, List.isPrefixOf]
    have cyes : ∀ p, credit t tree es (true :: p) = credit t y ey p := by
      intro p
      simp only [credit, pyes]
      rfl
    have cno : ∀ p, credit t tree es (false :: p) = credit t n en p := by
      intro p
      simp only [credit, pno]
      rfl
    have croot : credit t tree es [] = es.length * totalVar t (es.map Prod.snd) -
        (en.length * totalVar t (en.map Prod.snd) + ey.length * totalVar t (ey.map Prod.snd)) := by
      have hz : (es.map Prod.fst).zip (es.map Prod.snd) = es := (List.zip_of_prod rfl rfl).symm
      have : credit t tree es [] = es.length * varianceReduction t (es.map Prod.fst) (es.map Prod.snd) q := by
        simp only [credit, pnil]
        rfl
      have hl := length_by_answer (fun e : List (Ext K) × List K => satisfies q e.1) es
      rw [this, varianceReduction, noLabels, yesLabels, hz, ← hey, ← hen, List.length_map, List.length_map, ← Nat.cast_add, hl, mul_sub]
      rcases eq_or_ne es [] with h0 | h0
      · simp [hey, hen, h0]
      · rw [mul_div_cancel₀ _ (length_cast_ne h0)]
    have hcs : creditSum t tree es = (tree.preorder.map (credit t tree es)).sum := rfl
    rw [hsum, ihy, ihn, hcs]
    have : tree.preorder = [] :: (y.preorder.map (true :: ·) ++ n.preorder.map (false :: ·)) := rfl
    rw [this, List.map_cons, List.map_append, List.map_map, List.map_map, List.sum_cons, List.sum_append, croot]
    have e1 : y.preorder.map (credit t tree es ∘ (true :: ·)) = y.preorder.map (credit t y ey) := List.map_congr_left (fun p _ => cyes p)
    have e2 : n.preorder.map (credit t tree es ∘ (false :: ·)) = n.preorder.map (credit t n en) := List.map_congr_left (fun p _ => cno p)
    rw [e1, e2, creditSum, creditSum]
    ring

/-- **C104**.  The score of a regression tree on its training data is the variance of the labels, minus what its questions contribute, per
target: every question contributes the reduction of the variance among the examples that are asked it, weighted with their share of the
data. -/
theorem C104_training_error (d : DataSet (Ext K)) (c t : Nat) (h : d.WF c t) (ht0 : 0 < t) (ls : List (List K)) (hls : d.labels = lift ls)
    (cfg : TreeConfig) (ht : cfg.numberOfClasses = t) :
    ∃ tree, regressionTreeNew d cfg = .ok tree ∧ calculateOverallMse d tree =
      .ok (.fin ((totalVar t ls - creditSum t tree (d.featureRows.zip ls) / d.featureRows.length) / t)) := by
  have hll : ls.length = d.featureRows.length := by rw [← h.label_count, hls, lift_length]
  have hlw := lift_width hls h.label_len
  refine ⟨_, regressionTreeNew_ok h ht, ?_⟩
  have hn := length_cast_ne (K := K) h.rows_ne
  rw [overallMse_exact h ht0 hls cfg.maxLevels (fun row hr => (h.row_len row hr).ge) hls hlw hll h.rows_ne,
    mse_mates h hls (fun row => meanVec t (mates _ _ row)) (fun _ => meanVec_length _ _)]
  have h1 := leafErrors_credit t (treeOf_proper (leafOf := regLeaf) (c := c) (t := t) cfg.maxLevels d) (d.featureRows.zip ls)
  rw [leafErrors, List.map_snd_zip (by omega), List.length_zip, hll, Nat.min_self] at h1
  rw [h1, div_div, mul_comm (t : K), ← div_div, sub_div, mul_div_cancel_left₀ _ hn]


/-! ## what the single questions contribute -/

theorem zip_unzip {α β : Type} (es : List (α × β)) : (es.map Prod.fst).zip (es.map Prod.snd) = es := (List.zip_of_prod rfl rfl).symm

theorem reduction_nonneg (t : Nat) (es : List (List (Ext K) × List K)) (q : Question (Ext K)) :
    0 ≤ (es.length : K) * varianceReduction t (es.map Prod.fst) (es.map Prod.snd) q := by
  have h1 := two_groups t (satisfies q) es
  have h2 := finer_le (t := t) (fun _ => ()) (fun row => satisfies q row) (fun _ _ _ => rfl) es
  rw [h1] at h2
  simp only [decide_true, List.filter_true] at h2
  rw [deviations] at h2
  have hl := length_by_answer (fun e : List (Ext K) × List K => satisfies q e.1) es
  rw [varianceReduction, noLabels, yesLabels, zip_unzip, mul_sub]
  rcases eq_or_ne es [] with h0 | h0
  · simp [h0]
  · rw [← Nat.cast_add, List.length_map, List.length_map, hl, mul_div_cancel₀ _ (length_cast_ne h0)]
    rw [List.length_map, List.length_map] at h2
    linarith

/-- no contribution is negative -/
theorem credit_nonneg (t : Nat) (tree : TreeNode (Ext K) L) (es : List (List (Ext K) × List K)) (p : List Bool) : 0 ≤ credit t tree es p := by
  rw [credit]
  cases tree.questionAt p with
  | none => exact le_rfl
  | some q => exact reduction_nonneg t _ q

/-- the examples that pass a position, with their exact labels -/
theorem passing_labels {d : DataSet (Ext K)} {ls : List (List K)} (hls : d.labels = lift ls) {tree : TreeNode (Ext K) L} {p : List Bool}
    {dd : DataSet (Ext K)} {c t : Nat} (hw : dd.WF c t) (hex : dd.examples = reaching d tree p) :
    dd.featureRows = (passing tree (d.featureRows.zip ls) p).map Prod.fst ∧
      dd.labels = lift ((passing tree (d.featureRows.zip ls) p).map Prod.snd) := by
  have h1 : dd.examples = (passing tree (d.featureRows.zip ls) p).map (fun e => (e.1, liftV e.2)) := by
    rw [hex, reaching, examples_lift hls, List.filter_map, passing]
    rfl
  have hr : dd.featureRows = dd.examples.map Prod.fst := by
    rw [DataSet.examples, List.map_fst_zip (by rw [hw.label_count])]
  constructor
  · rw [hr, h1, List.map_map]
    rfl
  · rw [labels_of_examples hw, h1, List.map_map, lift, List.map_map]
    rfl

theorem DataSet.TiesAgree.sub {d dd : DataSet (Ext K)} {c t : Nat} (h : d.TiesAgree c) (hdd : dd.WF c t)
    (hsub : ∀ e ∈ dd.examples, e ∈ d.examples) : dd.TiesAgree c := by
  intro j hj e he e' he' heq ⟨row, hrow, hlt⟩
  refine h j hj e (hsub e he) e' (hsub e' he') heq ⟨row, ?_, hlt⟩
  have hr : dd.featureRows = dd.examples.map Prod.fst := by
    rw [DataSet.examples, List.map_fst_zip (by rw [hdd.label_count])]
  rw [hr] at hrow
  obtain ⟨b, hb, rfl⟩ := List.mem_map.mp hrow
  exact (List.of_mem_zip (show (b.1, b.2) ∈ _ from hsub b hb)).1

/-- **C104**.  Every question of a tree was reported by the split search on the examples that are asked it.  Its contribution is not
negative and at most what the reported gain promises, the gain times the number of these examples.  If examples that share a value of a
feature (other than its smallest) have the same label, it keeps this promise exactly, and every question contributes something. -/
theorem C104_reported_gains (d : DataSet (Ext K)) (c t : Nat) (h : d.WF c t) (ls : List (List K)) (hls : d.labels = lift ls)
    (cfg : TreeConfig) (ht : cfg.numberOfClasses = t) (tree : TreeNode (Ext K) (RegressionLeaf (Ext K)))
    (hb : regressionTreeNew d cfg = .ok tree) (p : List Bool) (q : Question (Ext K)) (hq : tree.questionAt p = some q) :
    ∃ dd g, dd.WF c t ∧ dd.examples = reaching d tree p ∧ findBestSplit dd t = .ok { gain := .fin g, question := q } ∧
      0 ≤ credit t tree (d.featureRows.zip ls) p ∧ credit t tree (d.featureRows.zip ls) p ≤ dd.featureRows.length * g ∧
      (d.TiesAgree c → credit t tree (d.featureRows.zip ls) p = dd.featureRows.length * g ∧ 0 < g) := by
  have hgr := (C48_grown_greedily d c t h cfg ht .regression).1 tree hb
  obtain ⟨dd, s, hw, hex, hfs, hqa⟩ := hgr p (TreeNode.subtreeAt_of_questionAt hq)
  rw [hq] at hqa
  split_ifs at hqa with hif
  obtain ⟨h1, h2⟩ := passing_labels hls hw hex
  set es := passing tree (d.featureRows.zip ls) p with hes
  obtain ⟨s', g, hs', hg, hg0, _, hmax⟩ := C11_gain_bounds_reductions dd c t hw _ h2
  rw [hfs] at hs'
  cases hs'
  have hq' : s.question = q := (Option.some.inj hqa).symm
  have hcol : q.column < c := by
    rw [← hq']
    have := findBestSplit_ok hw
    rw [hfs] at this
    have := Except.ok.inj this
    rw [this]
    refine splitOf_column_lt hw ?_
    rw [← this]
    exact hif.2
  have hlen : dd.featureRows.length = es.length := by rw [h1, List.length_map]
  have hcr : credit t tree (d.featureRows.zip ls) p = es.length * varianceReduction t (es.map Prod.fst) (es.map Prod.snd) q := by
    rw [credit, hq]
  have hgpos : 0 < g := by
    rcases hg0.lt_or_eq with h0 | h0
    · exact h0
    · exfalso
      have := hif.2
      rw [hg, ← h0] at this
      simp at this
  refine ⟨dd, g, hw, hex, ?_, credit_nonneg _ _ _ _, ?_, ?_⟩
  · rw [hfs, ← hq', ← hg]
  · rw [hcr, hlen]
    refine mul_le_mul_of_nonneg_left ?_ (Nat.cast_nonneg _)
    have := hmax q hcol
    rwa [h1] at this
  · intro hties
    refine ⟨?_, hgpos⟩
    have hsubset : ∀ e ∈ dd.examples, e ∈ d.examples := by
      intro e he
      rw [hex] at he
      exact List.mem_of_mem_filter he
    obtain ⟨h3, _⟩ := C12_optimal_if_ties_agree dd c t hw _ h2 (hties.sub hw hsubset) s hfs hif.2
    rw [hg, h1, hq'] at h3
    rw [hcr, hlen, ← Ext.fin.inj h3]

/-! ## by features -/

theorem sum_unit {n k : Nat} (hk : k < n) (x : K) : ((List.range n).map (fun j => if j = k then x else 0)).sum = x := by
  induction n with
  | zero => omega
  | succ n ih =>
    rw [List.range_succ, List.map_append, List.sum_append]
    rcases Nat.lt_succ_iff_lt_or_eq.mp hk with h | h
    · rw [ih h]
      have : n ≠ k := by omega
      simp [this]
    · subst h
      have : (List.range k).map (fun j => if j = k then x else 0) = (List.range k).map (fun _ => 0) := by
        apply List.map_congr_left
        intro j hj
        rw [List.mem_range] at hj
        rw [if_neg (by omega)]
      rw [this]
      simp

theorem sum_by_key {α : Type} (f : α → K) (key : α → Option Nat) (hz : ∀ a, key a = none → f a = 0) (n : Nat) (l : List α)
    (hlt : ∀ a ∈ l, ∀ k, key a = some k → k < n) :
    (l.map f).sum = ((List.range n).map (fun j => ((l.filter (fun a => (key a).any (fun k => k == j))).map f).sum)).sum := by
  induction l with
  | nil => simp
  | cons a l ih =>
    have ih := ih (fun b hb => hlt b (by simp [hb]))
    rw [List.map_cons, List.sum_cons, ih]
    cases hk : key a with
    | none => simp [hk, hz a hk]
    | some k =>
      have hkn := hlt a (by simp) k hk
      have : ∀ j, (((a :: l).filter (fun a => (key a).any (fun k => k == j))).map f).sum =
          (if k = j then f a else 0) + ((l.filter (fun a => (key a).any (fun k => k == j))).map f).sum := by
        intro j
        by_cases hj : k = j
        · simp [hk, hj]
        · simp [hk, hj]
      simp only [this]
      rw [List.sum_map_add]
      congr 1
      have h1 := sum_unit hkn (f a)
      simpa [eq_comm] using h1.symm

/-- **C104**.  The contributions add up feature by feature; those of a feature that the tree does not ask about are zero, none is
negative. -/
theorem C104_features (d : DataSet (Ext K)) (c t : Nat) (h : d.WF c t) (ls : List (List K)) (cfg : TreeConfig)
    (ht : cfg.numberOfClasses = t) (tree : TreeNode (Ext K) (RegressionLeaf (Ext K))) (hb : regressionTreeNew d cfg = .ok tree) :
    creditSum t tree (d.featureRows.zip ls) = ((List.range c).map (creditOf t tree (d.featureRows.zip ls))).sum ∧
      ∀ j, 0 ≤ creditOf t tree (d.featureRows.zip ls) j ∧
        ((∀ p q, tree.questionAt p = some q → q.column ≠ j) → creditOf t tree (d.featureRows.zip ls) j = 0) := by
  constructor
  · have := sum_by_key (credit t tree (d.featureRows.zip ls)) (fun p => (tree.questionAt p).map (fun q => q.column)) (by
      intro p hp
      rw [Option.map_eq_none_iff] at hp
      rw [credit, hp]) c tree.preorder (by
      intro p _ k hk
      obtain ⟨q, hq, rfl⟩ := Option.map_eq_some_iff.mp hk
      rw [regressionTreeNew_ok h ht] at hb
      cases hb
      exact (treeOf_questions cfg.maxLevels d h p q hq).1)
    rw [creditSum, this]
    congr 1
    apply List.map_congr_left
    intro j _
    rw [creditOf]
    simp only [Option.any_map]
  · intro j
    constructor
    · apply List.sum_nonneg
      intro x hx
      obtain ⟨p, _, rfl⟩ := List.mem_map.mp hx
      exact credit_nonneg _ _ _ _
    · intro hno
      rw [creditOf, List.filter_eq_nil_iff.mpr]
      · rfl
      · intro p _
        cases hq : tree.questionAt p with
        | none => simp
        | some q => simpa using hno p q hq


/-! ## boosting -/

theorem sse_centred {t : Nat} {rs : List (List K)} (h0 : ∀ j < t, (target rs j).sum = 0) : sse t rs = rs.length * totalVar t rs := by
  rw [sse, sum_range_swap, totalVar, ← List.sum_map_mul_left]
  congr 1
  apply List.map_congr_left
  intro j hj
  have h1 := length_mul_varOf (target rs j)
  rw [target_length] at h1
  have h2 := sqDev_shift 0 (target rs j)
  have h3 := colSq_eq rs j
  rw [colSq] at h3
  rw [h1, ← h3, h2, meanOf, h0 j (List.mem_range.mp hj)]
  simp

/-- **C104**.  One more iteration of regression boosting lowers the training error by `lr (2 - lr)` times what the questions of the new tree
contribute to the explanation of the residuals. -/
theorem C104_boosting (d : DataSet (Ext K)) (c t : Nat) (h : d.WF c t) (ht0 : 0 < t) (ls : List (List K)) (hls : d.labels = lift ls)
    (cfg : TreeConfig) (hc : cfg.numberOfClasses = t) (n : Nat) (lr : K) :
    ∃ m m' new e e' ps, regressionTrain d cfg n (.fin lr) = .ok m ∧ regressionTrain d cfg (n + 1) (.fin lr) = .ok m' ∧
      m'.trees = m.trees ++ [new] ∧ d.featureRows.mapM (regressionPredict m) = .ok (lift ps) ∧
      regressionScore m d = .ok (.fin e) ∧ regressionScore m' d = .ok (.fin e') ∧
      e' = e - lr * (2 - lr) * (creditSum t new (d.featureRows.zip (List.zipWith (List.zipWith (· - ·)) ls ps)) / (d.featureRows.length * t)) := by
  obtain ⟨s, ps, h1, hs⟩ := regState_loop (lr := lr) h hls hc n
  obtain ⟨s', h3, hs', htr, hsse⟩ := progress_step h hls hc hs
  have hl' : regLoopAt d cfg lr (liftV (meanVec t ls)) (n + 1) = .ok s' := by rw [regLoopAt] at h1 ⊢; rw [boostLoop_succ, h1]; exact h3
  have hll : ls.length = d.featureRows.length := by rw [← h.label_count, hls, lift_length]
  have hpl : ps.length = ls.length := by rw [hs.finite.len, hls, lift_length]
  refine ⟨_, _, _, _, _, ps, regressionTrain_of_loop h hls h1, regressionTrain_of_loop h hls hl', htr, predict_of_state h hs,
    score_of_state h ht0 hls hs, score_of_state h ht0 hls hs', ?_⟩
  have hrl : d.featureRows.length = (resid ls ps).length := by rw [resid_length hpl, hll]
  have hw := resid_wf h hls hs.finite.len hs.finite.width
  have hmates : d.featureRows.map (residOut c t cfg.maxLevels d (resid ls ps)) =
      d.featureRows.map (fun row => meanVec t (mates (residTree c t cfg.maxLevels d (resid ls ps)) (d.featureRows.zip (resid ls ps)) row)) := rfl
  have hprop : (residTree c t cfg.maxLevels d (resid ls ps)).Proper := treeOf_proper _ _
  have h5 := leafErrors_credit t hprop (d.featureRows.zip (resid ls ps))
  rw [List.map_snd_zip (by omega), List.length_zip, ← hrl, Nat.min_self] at h5
  have h6 := sse_outs (t := t) (residTree c t cfg.maxLevels d (resid ls ps)) hrl
  have h7 : sse t (d.featureRows.map (residOut c t cfg.maxLevels d (resid ls ps))) =
      sse t (resid ls ps) - leafErrors t (residTree c t cfg.maxLevels d (resid ls ps)) (d.featureRows.zip (resid ls ps)) := h6
  rw [h5, sse_centred hs.unbiased, ← hrl] at h7
  have h8 : List.zipWith (List.zipWith (· - ·)) ls ps = resid ls ps := rfl
  have htp : (t : K) ≠ 0 := by exact_mod_cast ht0.ne'
  have hnp : (d.featureRows.length : K) ≠ 0 := length_cast_ne h.rows_ne
  rw [hsse, h7, h8, hll]
  field_simp
  ring

-- four rows and two features, one question, about the first feature: 5/8 = 91/16 - 81/4/4
example : distinct4.WF 2 1 ∧ distinct4.labels = lift [[0], [1], [4], [6]] ∧ distinct4.TiesAgree 2 ∧ (do
    let tree ← regressionTreeNew distinct4 { useMultiThreading := false, numberOfClasses := 1, maxLevels := 1 }
    let es := distinct4.featureRows.zip [[0], [1], [4], [6]]
    pure (creditSum 1 tree es, creditOf 1 tree es 0, creditOf 1 tree es 1, totalVar 1 [[0], [1], [4], [(6 : ℚ)]],
      ← calculateOverallMse distinct4 tree)) = (.ok (81 / 4, 81 / 4, 0, 91 / 16, .fin (5 / 8)) : R (ℚ × ℚ × ℚ × ℚ × E)) := by
  refine ⟨distinct4_wf, by decide +kernel, ?_, by decide +kernel⟩
  exact (tiesAgree_of_unique distinct4_wf (by decide +kernel)).agree

/-- **C104**, finding.  Without the assumption on ties a question can promise a gain and contribute nothing. -/
theorem C104_broken_promise : ties3'.WF 1 1 ∧ ties3'.labels = lift [[1], [0], [2]] ∧
    findBestSplit ties3' 1 = .ok { gain := .fin (1 / 2), question := { column := 0, value := 1 } } ∧ (do
      let tree ← regressionTreeNew ties3' { useMultiThreading := false, numberOfClasses := 1, maxLevels := 1 }
      pure (tree.questionAt [], creditSum 1 tree (ties3'.featureRows.zip [[1], [0], [2]]), ← calculateOverallMse ties3' tree)) =
      (.ok (some { column := 0, value := 1 }, 0, .fin (2 / 3)) : R (Option (Question E) × ℚ × E)) :=
  ⟨ties3'_wf, by decide +kernel⟩

end Verif
