import Verif.Spec.Share
import Verif.Props.Credit
import Verif.Props.LeastSquares
/-!
# C115: what a tree shared by all targets costs

A tree is at least as good as any single question, so with one question per tree a tree for every target fits the training data at least as
well as one tree for all targets.
-/

set_option linter.unusedSectionVars false

namespace Verif

variable {K : Type} [Field K] [LinearOrder K] [IsStrictOrderedRing K] [FloorSemiring K] [HasExp K]

open Sample

/-! ## a tree is at least as good as any single question -/

/-- the squared deviations from the means of the two groups of a question -/
theorem answers_deviations (t : Nat) {rows : List (List (Ext K))} {ls : List (List K)} (hl : ls.length = rows.length) (hne : rows ≠ [])
    (q : Question (Ext K)) :
    ((rows.zip ls).map (fun e => ((List.range t).map (fun j =>
      ((meanVec t (((rows.zip ls).filter (fun b => decide (satisfies q b.1 = satisfies q e.1))).map Prod.snd)).getD j 0 - e.2.getD j 0) ^ 2)).sum)).sum =
    rows.length * (totalVar t ls - varianceReduction t rows ls q) := by
  have h1 := two_groups t (satisfies q) (rows.zip ls)
  rw [h1]
  have hlen := length_by_answer (fun e : List (Ext K) × List K => satisfies q e.1) (rows.zip ls)
  rw [List.length_zip, hl, Nat.min_self] at hlen
  rw [varianceReduction, sub_sub_cancel, noLabels, yesLabels, ← Nat.cast_add, List.length_map, List.length_map, hlen,
    mul_div_cancel₀ _ (length_cast_ne hne)]

/-- predictions that depend on the answer to one question only -/
theorem answers_error {d : DataSet (Ext K)} {c t : Nat} (h : d.WF c t) (ht0 : 0 < t) {ls : List (List K)} (hls : d.labels = lift ls)
    (q : Question (Ext K)) (g : List (Ext K) → List K) (hg : ∀ row ∈ d.featureRows, (g row).length = t)
    (hconst : ∀ row ∈ d.featureRows, ∀ row' ∈ d.featureRows, satisfies q row = satisfies q row' → g row = g row') :
    (totalVar t ls - varianceReduction t d.featureRows ls q) / t ≤ mseOf (d.featureRows.map g) ls := by
  have hll : ls.length = d.featureRows.length := by rw [← h.label_count, hls, lift_length]
  set g' : List (Ext K) → List K := fun row => (List.range t).map (fun j => (g row).getD j 0) with hg'
  have hgg : ∀ row ∈ d.featureRows, g row = g' row := by
    intro row hrow
    apply List.ext_getElem
    · simp [hg', hg row hrow]
    · intro i h1 h2
      simp [hg', List.getElem?_eq_getElem h1]
  have hlen' : ∀ row, (g' row).length = t := fun row => by simp [hg']
  rw [List.map_congr_left hgg, mse_mates h hls g' hlen']
  have hn : (0 : K) < d.featureRows.length := by exact_mod_cast List.length_pos_of_ne_nil h.rows_ne
  have htp : (0 : K) < t := by exact_mod_cast ht0
  rw [div_div, mul_comm (t : K), ← div_div, div_le_div_iff_of_pos_right htp, le_div_iff₀ hn, mul_comm]
  rw [← answers_deviations t hll h.rows_ne q, group_split t (fun row => satisfies q row) g' (d.featureRows.zip ls)]
  · have : 0 ≤ ((d.featureRows.zip ls).map (fun e => ((List.range t).map (fun j => ((g' e.1).getD j 0 -
        (meanVec t (((d.featureRows.zip ls).filter (fun b => decide (satisfies q b.1 = satisfies q e.1))).map Prod.snd)).getD j 0) ^ 2)).sum)).sum := by
      apply List.sum_nonneg
      intro x hx
      obtain ⟨e, _, rfl⟩ := List.mem_map.mp hx
      apply List.sum_nonneg
      intro y hy
      obtain ⟨j, _, rfl⟩ := List.mem_map.mp hy
      exact sq_nonneg _
    linarith
  · intro a ha b hb hab
    have ha := (List.of_mem_zip (show (a.1, a.2) ∈ _ from ha)).1
    have hb := (List.of_mem_zip (show (b.1, b.2) ∈ _ from hb)).1
    rw [← hgg _ ha, ← hgg _ hb]
    exact hconst _ ha _ hb hab

/-- the first question of a tree contributes at least as much as any other single question would -/
theorem creditSum_ge {d : DataSet (Ext K)} {c t : Nat} (h : d.WF c t) {ls : List (List K)} (hls : d.labels = lift ls) (hties : d.TiesAgree c)
    {m : Nat} (hm : 1 ≤ m) (q : Question (Ext K)) (hq : q.column < c) :
    d.featureRows.length * varianceReduction t d.featureRows ls q ≤ creditSum t (treeOf regLeaf c t m d) (d.featureRows.zip ls) := by
  have hll : ls.length = d.featureRows.length := by rw [← h.label_count, hls, lift_length]
  obtain ⟨gn, h1, h2, _, h4, _⟩ := splitOf_exact h hls
  have hsum : ∀ p ∈ (treeOf regLeaf c t m d).preorder, credit t (treeOf regLeaf c t m d) (d.featureRows.zip ls) p ≤
      creditSum t (treeOf regLeaf c t m d) (d.featureRows.zip ls) := by
    intro p hp
    refine List.single_le_sum ?_ _ (List.mem_map_of_mem hp)
    intro x hx
    obtain ⟨p', _, rfl⟩ := List.mem_map.mp hx
    exact credit_nonneg _ _ _ _
  obtain ⟨m, rfl⟩ : ∃ k, m = k + 1 := ⟨m - 1, by omega⟩
  cases hg : ((splitOf d t).gain ==. F64.zero) with
  | true =>
    have h0 : gn = 0 := by rw [h1] at hg; simpa using hg
    have h5 := h4 q hq
    rw [h0] at h5
    have h6 : 0 ≤ creditSum t (treeOf regLeaf c t (m + 1) d) (d.featureRows.zip ls) := by
      apply List.sum_nonneg
      intro x hx
      obtain ⟨p', _, rfl⟩ := List.mem_map.mp hx
      exact credit_nonneg _ _ _ _
    have hn : (0 : K) ≤ d.featureRows.length := Nat.cast_nonneg _
    exact (mul_nonpos_of_nonneg_of_nonpos hn h5).trans h6
  | false =>
    have htr := splitOf_truthful h hls hties hg
    have hbest : varianceReduction t d.featureRows ls q ≤ varianceReduction t d.featureRows ls (splitOf d t).question := by
      have h5 := h4 q hq
      rw [h1] at htr
      rwa [Ext.fin.inj htr] at h5
    have hroot : credit t (treeOf regLeaf c t (m + 1) d) (d.featureRows.zip ls) [] =
        d.featureRows.length * varianceReduction t d.featureRows ls (splitOf d t).question := by
      have hp : passing (treeOf regLeaf c t (m + 1) d) (d.featureRows.zip ls) [] = d.featureRows.zip ls := by simp [passing]
      have hqa : (treeOf regLeaf c t (m + 1) d).questionAt [] = some (splitOf d t).question := by
        rw [treeOf_node hg]; rfl
      rw [credit, hqa, hp]
      simp only [List.map_fst_zip (l₁ := d.featureRows) (l₂ := ls) (by omega), List.map_snd_zip (l₁ := d.featureRows) (l₂ := ls) (by omega),
        List.length_zip, hll, Nat.min_self]
    refine le_trans ?_ (hsum [] ?_)
    · rw [hroot]
      exact mul_le_mul_of_nonneg_left hbest (Nat.cast_nonneg _)
    · rw [treeOf_node hg]
      simp [TreeNode.new, TreeNode.preorder]

/-- **C115** (single questions).  Let `g` predict something for every training row that depends only on the answer to one question about
one of the features.  A tree with at least one level fits the training data at least as well, provided that examples that share a value of
a feature (other than its smallest) have the same label. -/
theorem C115_single_questions (d : DataSet (Ext K)) (c t : Nat) (h : d.WF c t) (ht0 : 0 < t) (ls : List (List K)) (hls : d.labels = lift ls)
    (hties : d.TiesAgree c) (cfg : TreeConfig) (ht : cfg.numberOfClasses = t) (hm : 1 ≤ cfg.maxLevels) (q : Question (Ext K)) (hq : q.column < c)
    (g : List (Ext K) → List K) (hg : ∀ row ∈ d.featureRows, (g row).length = t)
    (hconst : ∀ row ∈ d.featureRows, ∀ row' ∈ d.featureRows, satisfies q row = satisfies q row' → g row = g row') :
    ∃ tree e, regressionTreeNew d cfg = .ok tree ∧ calculateOverallMse d tree = .ok (.fin e) ∧ e ≤ mseOf (d.featureRows.map g) ls := by
  obtain ⟨tree, h1, h2⟩ := C104_training_error d c t h ht0 ls hls cfg ht
  refine ⟨tree, _, h1, h2, le_trans ?_ (answers_error h ht0 hls q g hg hconst)⟩
  rw [regressionTreeNew_ok h ht] at h1
  have h1 := Except.ok.inj h1
  have h3 := creditSum_ge h hls hties hm q hq
  have htp : (0 : K) < t := by exact_mod_cast ht0
  have hn : (0 : K) < d.featureRows.length := by exact_mod_cast List.length_pos_of_ne_nil h.rows_ne
  rw [div_le_div_iff_of_pos_right htp, ← h1]
  have : varianceReduction t d.featureRows ls q ≤ creditSum t (treeOf regLeaf c t cfg.maxLevels d) (d.featureRows.zip ls) / d.featureRows.length := by
    rw [le_div_iff₀ hn, mul_comm]
    exact h3
  linarith

/-! ## one target -/

theorem only_wf {d : DataSet (Ext K)} {c t : Nat} (h : d.WF c t) (j : Nat) : (d.only j).WF c 1 :=
  ⟨h.rows_ne, h.row_len, by simp [DataSet.only, h.label_count], by simp [DataSet.only], h.cols, h.no_nan, h.cols_u32⟩

theorem only_labels {d : DataSet (Ext K)} {ls : List (List K)} (hls : d.labels = lift ls) (j : Nat) :
    (d.only j).labels = lift (ls.map (fun l => [l.getD j 0])) := by
  simp only [DataSet.only, hls, lift, List.map_map]
  apply List.map_congr_left
  intro l _
  simp only [Function.comp, liftV, List.map_cons, List.map_nil, List.getD_eq_getElem?_getD, List.getElem?_map]
  cases l[j]? <;> rfl

theorem only_ties {d : DataSet (Ext K)} {c : Nat} (h : d.TiesAgree c) (j : Nat) : (d.only j).TiesAgree c := by
  intro i hi e he e' he' heq hlt
  have hex : (d.only j).examples = d.examples.map (fun e => (e.1, [e.2.getD j F64.zero])) := by
    simp only [DataSet.examples, DataSet.only, List.zip_map_right]
    rfl
  rw [hex] at he he'
  obtain ⟨a, ha, rfl⟩ := List.mem_map.mp he
  obtain ⟨b, hb, rfl⟩ := List.mem_map.mp he'
  simp only at heq hlt ⊢
  rw [h i hi a ha b hb heq hlt]

theorem target_single (ls : List (List K)) (j : Nat) : target (ls.map (fun l => [l.getD j 0])) 0 = target ls j := by
  simp [target, List.map_map, Function.comp_def]

theorem totalVar_single (ls : List (List K)) (j : Nat) : totalVar 1 (ls.map (fun l => [l.getD j 0])) = varOf (target ls j) := by
  rw [totalVar, List.range_one, List.map_singleton, List.sum_singleton, target_single]

/-- the variance reductions of the targets add up -/
theorem reduction_targets (t : Nat) (rows : List (List (Ext K))) (ls : List (List K)) (q : Question (Ext K)) :
    varianceReduction t rows ls q = ((List.range t).map (fun j => varianceReduction 1 rows (ls.map (fun l => [l.getD j 0])) q)).sum := by
  have hz : ∀ j, rows.zip (ls.map (fun l => [l.getD j 0])) = (rows.zip ls).map (fun e => (e.1, [e.2.getD j 0])) := by
    intro j
    rw [List.zip_map_right]
    rfl
  have hy : ∀ j, yesLabels rows (ls.map (fun l => [l.getD j 0])) q = (yesLabels rows ls q).map (fun l => [l.getD j 0]) := by
    intro j
    rw [yesLabels, yesLabels, hz, List.filter_map, List.map_map, List.map_map]
    rfl
  have hno : ∀ j, noLabels rows (ls.map (fun l => [l.getD j 0])) q = (noLabels rows ls q).map (fun l => [l.getD j 0]) := by
    intro j
    rw [noLabels, noLabels, hz, List.filter_map, List.map_map, List.map_map]
    rfl
  simp only [varianceReduction, hy, hno, totalVar_single, List.length_map]
  have key : ∀ (l : List Nat) (a b n : K) (f g k : Nat → K), (l.map f).sum - (a * (l.map g).sum + b * (l.map k).sum) / n =
      (l.map (fun j => f j - (a * g j + b * k j) / n)).sum := by
    intro l a b n f g k
    induction l with
    | nil => simp
    | cons x l ih =>
      simp only [List.map_cons, List.sum_cons]
      rw [← ih]
      ring
  exact key _ _ _ _ _ _ _

theorem le_sum_range {t j : Nat} {f : Nat → K} (h : ∀ i, 0 ≤ f i) (hj : j < t) : f j ≤ ((List.range t).map f).sum := by
  refine List.single_le_sum (fun x hx => ?_) _ (List.mem_map_of_mem (List.mem_range.mpr hj))
  obtain ⟨i, _, rfl⟩ := List.mem_map.mp hx
  exact h i

theorem reduction_le {t j : Nat} {rows : List (List (Ext K))} {ls : List (List K)} (hll : ls.length = rows.length) (hne : rows ≠ []) (hj : j < t)
    (q : Question (Ext K)) : varianceReduction 1 rows (ls.map (fun l => [l.getD j 0])) q ≤ varianceReduction t rows ls q := by
  have hpart : ∀ j, 0 ≤ varianceReduction 1 rows (ls.map (fun l => [l.getD j 0])) q := by
    intro j
    have h5 := reduction_nonneg 1 (rows.zip (ls.map (fun l => [l.getD j 0]))) q
    rw [List.map_fst_zip (by simp [hll]), List.map_snd_zip (by simp [hll]), List.length_zip, List.length_map, hll, Nat.min_self] at h5
    have hn : (0 : K) < rows.length := by exact_mod_cast List.length_pos_of_ne_nil hne
    exact (mul_nonneg_iff_of_pos_left hn).mp h5
  have hsum : ∀ f : Nat → K, (∀ j, f j = varianceReduction 1 rows (ls.map (fun l => [l.getD j 0])) q) →
      varianceReduction 1 rows (ls.map (fun l => [l.getD j 0])) q ≤ ((List.range t).map f).sum := by
    intro f hf
    rw [← hf]
    exact le_sum_range (fun i => by rw [hf]; exact hpart i) hj
  rw [reduction_targets t]
  exact hsum _ (fun _ => rfl)

/-- **C115** (gains).  The gain of the best question for all targets together is at least the gain of the best question for any one of
them, and at most the sum of the gains of the best questions for every one. -/
theorem C115_gains (d : DataSet (Ext K)) (c t : Nat) (h : d.WF c t) (ls : List (List K)) (hls : d.labels = lift ls) (hties : d.TiesAgree c) :
    ∃ s g, findBestSplit d t = .ok s ∧ s.gain = .fin g ∧
      ∃ gs : Nat → K, (∀ j < t, ∃ sj, findBestSplit (d.only j) 1 = .ok sj ∧ sj.gain = .fin (gs j) ∧ gs j ≤ g) ∧
        g ≤ ((List.range t).map gs).sum := by
  have hll : ls.length = d.featureRows.length := by rw [← h.label_count, hls, lift_length]
  obtain ⟨g, h1, h2, _, h4, _⟩ := splitOf_exact h hls
  have hone : ∀ j, ∃ g : K, (splitOf (d.only j) 1).gain = .fin g ∧ 0 ≤ g ∧
      ∀ q : Question (Ext K), q.column < c → varianceReduction 1 d.featureRows (ls.map (fun l => [l.getD j 0])) q ≤ g := by
    intro j
    obtain ⟨g, a, b, _, e, _⟩ := splitOf_exact (only_wf h j) (only_labels hls j)
    exact ⟨g, a, b, e⟩
  choose gs hs1 hs2 hs4 using hone
  refine ⟨_, g, findBestSplit_ok h, h1, gs, fun j hj => ⟨_, findBestSplit_ok (only_wf h j), hs1 j, ?_⟩, ?_⟩
  · cases hg : ((splitOf (d.only j) 1).gain ==. F64.zero) with
    | true =>
      have h0 : gs j = 0 := by rw [hs1 j] at hg; simpa using hg
      rw [h0]
      exact h2
    | false =>
      have htr := splitOf_truthful (only_wf h j) (only_labels hls j) (only_ties hties j) hg
      rw [hs1 j] at htr
      rw [Ext.fin.inj htr]
      exact (reduction_le hll h.rows_ne hj _).trans (h4 _ (splitOf_column_lt (only_wf h j) hg))
  · cases hg : ((splitOf d t).gain ==. F64.zero) with
    | true =>
      have h0 : g = 0 := by rw [h1] at hg; simpa using hg
      rw [h0]
      apply List.sum_nonneg
      intro x hx
      obtain ⟨j, _, rfl⟩ := List.mem_map.mp hx
      exact hs2 j
    | false =>
      have htr := splitOf_truthful h hls hties hg
      rw [h1] at htr
      rw [Ext.fin.inj htr, reduction_targets]
      apply List.sum_le_sum
      intro j _
      exact hs4 j _ (splitOf_column_lt h hg)

/-! ## trees with one question -/

/-- in a tree with at most one level the way of a row is settled by its answer to one question -/
theorem stump_route {d : DataSet (Ext K)} {c t m : Nat} (h : d.WF c t) (hc : 0 < c) (hm : m ≤ 1) :
    ∃ q : Question (Ext K), q.column < c ∧ ∀ row row', satisfies q row = satisfies q row' →
      (treeOf regLeaf c t m d).route row = (treeOf regLeaf c t m d).route row' := by
  match m, hm with
  | 0, _ => exact ⟨{ column := 0, value := F64.zero }, hc, fun _ _ _ => rfl⟩
  | 1, _ =>
    cases hg : ((splitOf d t).gain ==. F64.zero) with
    | true =>
      refine ⟨{ column := 0, value := F64.zero }, hc, fun _ _ _ => ?_⟩
      rw [treeOf_leaf hg]
      rfl
    | false =>
      refine ⟨(splitOf d t).question, splitOf_column_lt h hg, fun row row' hs => ?_⟩
      rw [treeOf_node hg]
      simp only [TreeNode.new, TreeNode.route, hs]
      rfl

/-- **C115** (sharing).  Train one tree with at most one question for all targets, and for every target a tree of its own with at least
one level.  Each of them fits its target on the training data at least as well as the shared tree does; `ps` are the predictions of the
shared tree. -/
theorem C115_sharing (d : DataSet (Ext K)) (c t : Nat) (h : d.WF c t) (hc0 : 0 < c) (ht0 : 0 < t) (ls : List (List K)) (hls : d.labels = lift ls)
    (hties : d.TiesAgree c) (cfg cfg' : TreeConfig) (ht : cfg.numberOfClasses = t) (hm : cfg.maxLevels ≤ 1) (ht' : cfg'.numberOfClasses = 1)
    (hm' : 1 ≤ cfg'.maxLevels) :
    ∃ tree e ps, regressionTreeNew d cfg = .ok tree ∧ calculateOverallMse d tree = .ok (.fin e) ∧ e = mseOf ps ls ∧
      List.Forall₂ (fun row p => ∃ leaf dd, findLeafNodeForData row tree = .ok leaf ∧ leaf.data = some dd ∧
        calculateAverageVector dd.labels = .ok (liftV p)) d.featureRows ps ∧
      ∃ es : Nat → K, (∀ j < t, ∃ own, regressionTreeNew (d.only j) cfg' = .ok own ∧ calculateOverallMse (d.only j) own = .ok (.fin (es j)) ∧
          es j ≤ mseOf (ps.map (fun p => [p.getD j 0])) (ls.map (fun l => [l.getD j 0]))) ∧
        ((List.range t).map es).sum / t ≤ e := by
  have hll : ls.length = d.featureRows.length := by rw [← h.label_count, hls, lift_length]
  have hlw := lift_width hls h.label_len
  have hb := regressionTreeNew_ok h ht
  set tree := treeOf regLeaf c t cfg.maxLevels d with htree
  set pred : List (Ext K) → List K := fun row => meanVec t (mates tree (d.featureRows.zip ls) row) with hpred
  obtain ⟨q, hq, hroute⟩ := stump_route h hc0 hm
  rw [← htree] at hroute
  have hone : ∀ j, ∃ own e, regressionTreeNew (d.only j) cfg' = .ok own ∧ calculateOverallMse (d.only j) own = .ok (.fin e) ∧
      e ≤ mseOf ((d.featureRows.map pred).map (fun p => [p.getD j 0])) (ls.map (fun l => [l.getD j 0])) := by
    intro j
    have := C115_single_questions (d.only j) c 1 (only_wf h j) (by omega) _ (only_labels hls j) (only_ties hties j) cfg' ht' hm' q hq
      (fun row => [(pred row).getD j 0]) (fun _ _ => rfl) (fun row _ row' _ hs => by
        have := hroute row row' hs
        simp only [hpred, mates, this])
    rw [List.map_map]
    exact this
  choose own es ho1 ho2 ho3 using hone
  refine ⟨tree, _, d.featureRows.map pred, hb,
    overallMse_exact h ht0 hls cfg.maxLevels (fun row hr => (h.row_len row hr).ge) hls hlw hll h.rows_ne, rfl, ?_, es,
    fun j _ => ⟨own j, ho1 j, ho2 j, ho3 j⟩, ?_⟩
  · rw [List.forall₂_map_right_iff, List.forall₂_same]
    intro row hrow
    obtain ⟨leaf, hf, hat⟩ := C21_lookup_total d c t h cfg ht tree hb row (h.row_len row hrow).ge
    obtain ⟨dd, hdd, hw, hex⟩ := C19_leaf_contents d c t h cfg ht tree hb _ leaf hat
    obtain ⟨h1, h2, h3⟩ := mates_ok hls hw hex
    refine ⟨leaf, dd, hf, hdd, ?_⟩
    rw [calculateAverageVector_ok hw.labels_ne hw.label_len, h1, avgVec_exact h3 h2]
  · have htp : (0 : K) < t := by exact_mod_cast ht0
    have hn : (0 : K) < d.featureRows.length := by exact_mod_cast List.length_pos_of_ne_nil h.rows_ne
    have hsplit : mseOf (d.featureRows.map pred) ls = ((List.range t).map (fun j =>
        mseOf ((d.featureRows.map pred).map (fun p => [p.getD j 0])) (ls.map (fun l => [l.getD j 0])))).sum / t := by
      rw [mse_mates h hls pred (fun _ => meanVec_length _ _), sum_range_swap, div_div, mul_comm (t : K), ← div_div]
      congr 1
      rw [div_eq_mul_inv, ← List.sum_map_mul_right]
      congr 1
      apply List.map_congr_left
      intro j _
      have hj := mse_mates (only_wf h j) (only_labels hls j) (fun row => [(pred row).getD j 0]) (fun _ => rfl)
      rw [List.map_map]
      have e1 : (d.only j).featureRows = d.featureRows := rfl
      rw [e1] at hj
      refine Eq.trans ?_ hj.symm
      rw [← div_eq_mul_inv, Nat.cast_one, div_one, List.zip_map_right, List.map_map]
      simp [Function.comp_def]
    show _ ≤ mseOf (d.featureRows.map pred) ls
    rw [hsplit, div_le_div_iff_of_pos_right htp]
    apply List.sum_le_sum
    intro j _
    exact ho3 j

/-! ## examples -/

/-- four rows, one feature, two targets -/
def help4 : DataSet E :=
  { featureRows := [[1], [2], [3], [4]]
    labels := [[10, 0], [0, 0], [1, 100], [0, 100]]
    featureColumns := [[1, 2, 3, 4]] }

theorem help4_wf : help4.WF 1 2 :=
  ⟨by decide +kernel, by decide +kernel, by decide +kernel, by decide +kernel, by decide +kernel, by decide +kernel, by decide +kernel⟩

theorem help4_ties : help4.TiesAgree 1 := by
  intro j hj e he e' he' heq _
  have hj : j = 0 := by omega
  subst hj
  have : ∀ e ∈ help4.examples, ∀ e' ∈ help4.examples, e.1.getD 0 F64.zero = e'.1.getD 0 F64.zero → e.2 = e'.2 := by decide +kernel
  exact this e he e' he' heq

/-- the hypotheses of the theorems are met -/
example : help4.WF 1 2 ∧ help4.TiesAgree 1 ∧ help4.labels = lift [[10, 0], [0, 0], [1, 100], [0, 100]] := ⟨help4_wf, help4_ties, by decide +kernel⟩

/-- with one question each, the shared tree has error `101/16` (on average per target), the trees of the two targets have `1/6` and `0` -/
example : (do
    let tree ← regressionTreeNew help4 { useMultiThreading := false, numberOfClasses := 2, maxLevels := 1 }
    let one ← regressionTreeNew (help4.only 0) { useMultiThreading := false, numberOfClasses := 1, maxLevels := 1 }
    let two ← regressionTreeNew (help4.only 1) { useMultiThreading := false, numberOfClasses := 1, maxLevels := 1 }
    pure (← calculateOverallMse help4 tree, ← calculateOverallMse (help4.only 0) one, ← calculateOverallMse (help4.only 1) two)) =
    (.ok (.fin (101 / 16), .fin (1 / 6), 0) : R (E × E × E)) := by decide +kernel

/-- **C115**, limit.  With two levels a shared tree can fit the training data better than the trees of the targets: the second target leads
the shared tree to a question that the first target alone does not choose, and that pays off later. -/
theorem C115_sharing_can_help : help4.WF 1 2 ∧ help4.TiesAgree 1 ∧ (do
    let tree ← regressionTreeNew help4 { useMultiThreading := false, numberOfClasses := 2, maxLevels := 2 }
    let one ← regressionTreeNew (help4.only 0) { useMultiThreading := false, numberOfClasses := 1, maxLevels := 2 }
    let two ← regressionTreeNew (help4.only 1) { useMultiThreading := false, numberOfClasses := 1, maxLevels := 2 }
    pure (← calculateOverallMse help4 tree, ← calculateOverallMse (help4.only 0) one, ← calculateOverallMse (help4.only 1) two)) =
    (.ok (0, .fin (1 / 8), 0) : R (E × E × E)) :=
  ⟨help4_wf, help4_ties, by decide +kernel⟩

end Verif
