import Verif.Lemmas.ExactSplit
import Verif.Lemmas.TreeFacts
import Verif.Props.Sample
/-!
# C09, C11, C12, C13, C15: the split search in exact arithmetic

`K` is any ordered field with a floor (for example the rationals or the reals); `Ext K` adds NaN and the two infinities.  Labels
are finite (`lift ls`), feature values may also be infinite.
-/

set_option linter.unusedSectionVars false
set_option linter.unusedSimpArgs false

namespace Verif

variable {K : Type} [Field K] [LinearOrder K] [IsStrictOrderedRing K] [FloorSemiring K] [HasExp K]

open Sample

/-! ## C09: the variance formula -/

/-- **C09**.  The variance vector computed from sums, sums of squares and means holds for each target the mean squared deviation
from the mean. -/
theorem C09_variance_is_variance (t : Nat) (ls : List (List K)) (hne : ls ≠ []) (hl : ∀ v ∈ ls, v.length = t) :
    ∃ m, getLabelMetrics (lift ls) t = .ok m ∧
      calculateVarianceVector m (F64.ofNat (lift ls).length) t = .ok (liftV ((List.range t).map (fun j => varOf (target ls j)))) ∧
      getTotalVarianceSum m (F64.ofNat (lift ls).length) t = .ok (.fin (totalVar t ls)) := by
  have hll : ∀ l ∈ lift ls, l.length = t := by
    intro l h
    obtain ⟨v, hv, rfl⟩ := mem_lift.mp h
    rw [liftV_length, hl v hv]
  refine ⟨_, (getLabelMetrics_ok hll).1, ?_, ?_⟩
  · rw [calculateVarianceVector_ok (getLabelMetrics_ok hll).2, metricsOf_exact hl hne, lift_length, Ext.ofNat_def,
      varVec_exact hne]
    rfl
  · rw [getTotalVarianceSum_ok hll, totalVariance_exact hl hne]

/-- **C09**.  Each of these variances is non-negative, and zero exactly when all labels of that target are equal. -/
theorem C09_variance_sign (ls : List (List K)) (j : Nat) :
    0 ≤ varOf (target ls j) ∧ (varOf (target ls j) = 0 ↔ ∀ v ∈ ls, ∀ w ∈ ls, v.getD j 0 = w.getD j 0) := by
  refine ⟨varOf_nonneg _, ?_⟩
  rw [varOf_eq_zero_iff]
  simp [target]

/-- **C09**.  The running sums: moving a label from the right tracker to the left tracker keeps both trackers equal to the sums,
sums of squares and means of their labels, and the loss of the two trackers is the weighted mean of the two total variances. -/
theorem C09_running_sums (t : Nat) (a b : List (List K)) (v : List K) (ha : ∀ x ∈ a, x.length = t) (hv : v.length = t)
    (hb : ∀ x ∈ b, x.length = t) (hne : b ≠ []) (left right : Tracker (Ext K))
    (hl : left.numberOfLabels = F64.ofNat a.length ∧ (a ≠ [] → getLabelMetrics (lift a) t = .ok left.metrics) ∧
      (a = [] → left.metrics = ⟨List.replicate t F64.zero, List.replicate t F64.zero, List.replicate t F64.zero⟩))
    (hr : right.numberOfLabels = F64.ofNat (v :: b).length ∧ getLabelMetrics (lift (v :: b)) t = .ok right.metrics) :
    ∃ left' right' lv rv loss, updateLeftTracker left (liftV v) t = .ok left' ∧ updateRightTracker right (liftV v) t = .ok right' ∧
      left'.numberOfLabels = F64.ofNat (a ++ [v]).length ∧ getLabelMetrics (lift (a ++ [v])) t = .ok left'.metrics ∧
      right'.numberOfLabels = F64.ofNat b.length ∧ getLabelMetrics (lift b) t = .ok right'.metrics ∧
      calculateVarianceVector left'.metrics left'.numberOfLabels t = .ok lv ∧
      calculateVarianceVector right'.metrics right'.numberOfLabels t = .ok rv ∧
      calculateLossVector lv rv left'.numberOfLabels right'.numberOfLabels = .ok loss ∧
      fsum loss = .fin (((a.length + 1 : K) * totalVar t (a ++ [v]) + b.length * totalVar t b) / ((a.length + 1 : K) + b.length)) := by
  have hlen : ∀ {xs : List (List K)}, (∀ x ∈ xs, x.length = t) → ∀ l ∈ lift xs, l.length = t := by
    intro xs h l hl
    obtain ⟨w, hw, rfl⟩ := mem_lift.mp hl
    rw [liftV_length, h w hw]
  have hav : ∀ x ∈ a ++ [v], x.length = t := by
    intro x hx
    rcases List.mem_append.mp hx with h | h
    · exact ha x h
    · simp only [List.mem_singleton] at h; rw [h, hv]
  have hvb : ∀ x ∈ v :: b, x.length = t := by
    intro x hx
    rcases List.mem_cons.mp hx with rfl | h
    · exact hv
    · exact hb x h
  have hleft : left = trk t a := by
    cases left with
    | mk n m =>
      obtain ⟨h1, h2, h3⟩ := hl
      simp only at h1 h2 h3
      by_cases ha0 : a = []
      · have := leftStart_exact (K := K) t
        rw [ha0, ← this, h1, h3 ha0, ha0]
        simp [leftStart]
      · have := h2 ha0
        rw [(getLabelMetrics_ok (hlen ha)).1, metricsOf_exact ha ha0] at this
        rw [h1, ← Except.ok.inj this]
        rfl
  have hright : right = trk t (v :: b) := by
    cases right with
    | mk n m =>
      obtain ⟨h1, h2⟩ := hr
      simp only at h1 h2
      rw [(getLabelMetrics_ok (hlen hvb)).1, metricsOf_exact hvb (by simp)] at h2
      rw [h1, ← Except.ok.inj h2]
      rfl
  have hshape : ∀ xs : List (List K), (trk t xs).metrics.Shape t := by
    intro xs
    exact ⟨by simp [trk, liftV, sumsOf], by simp [trk, liftV, sqsOf], by simp [trk, liftV, sumsOf]⟩
  have hvl : (liftV v).length = t := by rw [liftV_length, hv]
  subst hleft hright
  have hloss : ∃ loss, calculateLossVector (varVec (trk t (a ++ [v])).metrics (trk t (a ++ [v])).numberOfLabels)
      (varVec (trk t b).metrics (trk t b).numberOfLabels) (trk t (a ++ [v])).numberOfLabels (trk t b).numberOfLabels = .ok loss ∧
      fsum loss = .fin (((a.length + 1 : K) * totalVar t (a ++ [v]) + b.length * totalVar t b) / ((a.length + 1 : K) + b.length)) := by
    rw [calculateLossVector, assertEq_of_eq (by simp [varVec, (hshape _).means, (hshape _).squares])]
    refine ⟨_, rfl, ?_⟩
    have := splitLoss_exact (t := t) (a := a ++ [v]) (b := b) (by simp) hne
    rw [splitVar] at this
    simpa [splitLoss] using this
  obtain ⟨loss, hloss1, hloss2⟩ := hloss
  refine ⟨trk t (a ++ [v]), trk t b, _, _, loss, ?_, ?_, rfl, ?_, rfl, ?_, calculateVarianceVector_ok (hshape _) _,
    calculateVarianceVector_ok (hshape _) _, hloss1, hloss2⟩
  · rw [updateLeftTracker_ok (hshape a) hvl, updLeft_exact hv]
  · rw [updateRightTracker_ok (hshape _) hvl, updRight_exact hv hne]
  · rw [(getLabelMetrics_ok (hlen hav)).1, metricsOf_exact hav (by simp)]
  · rw [(getLabelMetrics_ok (hlen hb)).1, metricsOf_exact hb hne]

example : (Sample.d4.labels : List (List E)) = lift [[0], [1], [4], [6]] ∧ totalVar 1 ([[0], [1], [4], [6]] : List (List ℚ)) = 91 / 16 := by
  decide +kernel

/-! ## C11: the gain bounds every achievable reduction -/

/-- **C11**.  `find_best_split` returns a finite gain, between zero and the total variance, and at least the variance reduction
of every threshold question. -/
theorem C11_gain_bounds_reductions (d : DataSet (Ext K)) (c t : Nat) (h : d.WF c t) (ls : List (List K)) (hls : d.labels = lift ls) :
    ∃ s g, findBestSplit d t = .ok s ∧ s.gain = .fin g ∧ 0 ≤ g ∧ g ≤ totalVar t ls ∧
      ∀ q : Question (Ext K), q.column < c → varianceReduction t d.featureRows ls q ≤ g := by
  obtain ⟨g, h1, h2, h3, h4, _⟩ := splitOf_exact h hls
  exact ⟨_, g, findBestSplit_ok h, h1, h2, h3, h4⟩

/-- **C11**.  In particular, gain zero means that no question reduces the variance. -/
theorem C11_zero_gain (d : DataSet (Ext K)) (c t : Nat) (h : d.WF c t) (ls : List (List K)) (hls : d.labels = lift ls)
    (s : BestSplitResult (Ext K)) (hs : findBestSplit d t = .ok s) (h0 : (s.gain ==. F64.zero) = true) (q : Question (Ext K))
    (hq : q.column < c) : varianceReduction t d.featureRows ls q ≤ 0 := by
  obtain ⟨s', g, h1, h2, _, _, h3⟩ := C11_gain_bounds_reductions d c t h ls hls
  rw [h1] at hs
  rw [← Except.ok.inj hs, h2] at h0
  simp at h0
  rw [← h0]
  exact h3 q hq

example : Sample.d4.WF 2 1 ∧ Sample.d4.labels = lift [[0], [1], [4], [6]] ∧
    varianceReduction 1 Sample.d4.featureRows [[0], [1], [4], [6]] { column := 1, value := 7 } = 81 / 16 := by
  exact ⟨d4_wf, by decide +kernel⟩

/-! ## C12: when the reported split is optimal -/

/-- **C12**.  If the threshold occurs only once in its column, the reported gain is exactly the variance reduction of the
reported question, and no question achieves more. -/
theorem C12_optimal_if_threshold_unique (d : DataSet (Ext K)) (c t : Nat) (h : d.WF c t) (ls : List (List K)) (hls : d.labels = lift ls)
    (s : BestSplitResult (Ext K)) (hs : findBestSplit d t = .ok s) (hg : (s.gain ==. F64.zero) = false)
    (hu : ((column d.featureRows s.question.column).filter (fun x => x ==. s.question.value)).length = 1) :
    s.gain = .fin (varianceReduction t d.featureRows ls s.question) ∧
      ∀ q : Question (Ext K), q.column < c → varianceReduction t d.featureRows ls q ≤ varianceReduction t d.featureRows ls s.question := by
  rw [findBestSplit_ok h] at hs
  have hs := Except.ok.inj hs
  subst hs
  obtain ⟨g, h1, h2, _, h4, h5⟩ := splitOf_exact h hls
  have hlen : ls.length = d.featureRows.length := by rw [← h.label_count, hls, lift_length]
  rcases h5 with h5 | ⟨i, hi, hc, _, hg'⟩
  · rw [h1, h5] at hg
    simp at hg
  · have hcol := sides_column (ls := ls) h.row_len hc
    rw [candAt_unique (by rw [column_length, hlen]) (h.col_nan hc) hi hu, ← hcol.1, ← hcol.2, ← reduction_eq] at hg'
    rw [h1, hg']
    exact ⟨rfl, fun q hq => by rw [← hg']; exact h4 q hq⟩

/-- **C12**.  In particular this holds for every data set in which, within each column, only the smallest value is repeated (for
example when all values of a column are different). -/
theorem C12_optimal_without_ties (d : DataSet (Ext K)) (c t : Nat) (h : d.WF c t) (ls : List (List K)) (hls : d.labels = lift ls)
    (hties : ∀ j < c, TiesOnlyAtMinimum (column d.featureRows j))
    (s : BestSplitResult (Ext K)) (hs : findBestSplit d t = .ok s) (hg : (s.gain ==. F64.zero) = false) :
    s.gain = .fin (varianceReduction t d.featureRows ls s.question) ∧
      ∀ q : Question (Ext K), q.column < c → varianceReduction t d.featureRows ls q ≤ varianceReduction t d.featureRows ls s.question := by
  refine C12_optimal_if_threshold_unique d c t h ls hls s hs hg ?_
  rw [findBestSplit_ok h] at hs
  have hs := Except.ok.inj hs
  subst hs
  obtain ⟨_, hc, ⟨row, hrow, hv⟩, _, ⟨row2, hrow2, hlo⟩⟩ := splitOf_separates h hg
  have hget : ∀ r ∈ d.featureRows, ∃ x ∈ column d.featureRows (splitOf d t).question.column, r[(splitOf d t).question.column]? = some x := by
    intro r hr
    refine ⟨_, List.mem_map_of_mem (f := fun r : List (Ext K) => r.getD (splitOf d t).question.column F64.zero) hr, ?_⟩
    have := h.row_len r hr
    simp [show (splitOf d t).question.column < r.length by omega]
  obtain ⟨x, hx, hxv⟩ := hget row hrow
  obtain ⟨y, hy, hyv⟩ := hget row2 hrow2
  rw [hv] at hxv
  have hxv := Option.some.inj hxv
  rw [← hxv] at hx
  refine hties _ hc _ hx ⟨y, hy, ?_⟩
  simp only [satisfies, hyv] at hlo
  exact (not_le (nn_of_isNaN_false (h.col_nan hc _ hx)) (nn_of_isNaN_false (h.col_nan hc _ hy))).mp hlo

/-- three rows, the value 1 repeated in column 0 -/
def ties3 : DataSet E :=
  { featureRows := [[0, 0], [1, 0], [1, 1]]
    labels := [[0], [0], [1]]
    featureColumns := [[0, 1, 1], [0, 0, 1]] }

theorem ties3_wf : ties3.WF 2 1 :=
  ⟨by decide +kernel, by decide +kernel, by decide +kernel, by decide +kernel, by decide +kernel, by decide +kernel,
    by decide +kernel⟩

/-- **C12**, finding.  Without that hypothesis the claim is false: here the chosen question (feature 0 at least 1) reduces the
variance by 1/18, the reported gain is 2/9, and the question (feature 1 at least 1), which was not chosen, does reduce it by
2/9. -/
theorem C12_violated : ties3.WF 2 1 ∧ ties3.labels = lift [[0], [0], [1]] ∧
    findBestSplit ties3 1 = .ok { gain := .fin (2 / 9), question := { column := 0, value := 1 } } ∧
    varianceReduction 1 ties3.featureRows [[0], [0], [1]] { column := 0, value := 1 } = 1 / 18 ∧
    varianceReduction 1 ties3.featureRows [[0], [0], [1]] { column := 1, value := 1 } = 2 / 9 :=
  ⟨ties3_wf, by decide +kernel⟩

/-- three rows for which the chosen question does not reduce the variance at all -/
def ties3' : DataSet E :=
  { featureRows := [[0], [1], [1]]
    labels := [[1], [0], [2]]
    featureColumns := [[0, 1, 1]] }

theorem ties3'_wf : ties3'.WF 1 1 :=
  ⟨by decide +kernel, by decide +kernel, by decide +kernel, by decide +kernel, by decide +kernel, by decide +kernel,
    by decide +kernel⟩

/-- **C12**, finding.  The reported gain can be positive although no question reduces the variance. -/
theorem C12_violated_no_reduction : ties3'.WF 1 1 ∧ ties3'.labels = lift [[1], [0], [2]] ∧
    findBestSplit ties3' 1 = .ok { gain := .fin (1 / 2), question := { column := 0, value := 1 } } ∧
    (∀ q : Question E, q.column < 1 → varianceReduction 1 ties3'.featureRows [[1], [0], [2]] q ≤ 0) := by
  refine ⟨ties3'_wf, by decide +kernel, by decide +kernel, ?_⟩
  rintro ⟨j, v⟩ hj
  have hj : j = 0 := by simpa using hj
  subst hj
  have h01 : (v <=. (0 : E)) = true → (v <=. (1 : E)) = true := by
    intro h
    exact LawfulOrder.le_trans h (by decide +kernel)
  have e0 : satisfies { column := 0, value := v } [(0 : E)] = (v <=. (0 : E)) := rfl
  have e1 : satisfies { column := 0, value := v } [(1 : E)] = (v <=. (1 : E)) := rfl
  simp only [varianceReduction, yesLabels, noLabels, ties3', List.zip_cons_cons, List.zip_nil_right, List.filter_cons, List.filter_nil, e0, e1]
  cases h0 : (v <=. (0 : E)) <;> cases h1 : (v <=. (1 : E))
  · simp [totalVar, target, varOf, meanOf, sqDev]
  · simp [totalVar, target, varOf, meanOf, sqDev]; norm_num
  · rw [h01 h0] at h1; simp at h1
  · simp [totalVar, target, varOf, meanOf, sqDev]

/-- four rows with different values -/
def distinct4 : DataSet E :=
  { featureRows := [[0, 5], [1, 4], [3, 7], [2, 6]]
    labels := [[0], [1], [4], [6]]
    featureColumns := [[0, 1, 3, 2], [5, 4, 7, 6]] }

theorem distinct4_wf : distinct4.WF 2 1 :=
  ⟨by decide +kernel, by decide +kernel, by decide +kernel, by decide +kernel, by decide +kernel, by decide +kernel,
    by decide +kernel⟩

instance (col : List (Ext ℚ)) : Decidable (TiesOnlyAtMinimum col) := by unfold TiesOnlyAtMinimum; infer_instance

example : distinct4.WF 2 1 ∧ distinct4.labels = lift [[0], [1], [4], [6]] ∧ (∀ j < 2, TiesOnlyAtMinimum (column distinct4.featureRows j)) ∧
    findBestSplit distinct4 1 = .ok { gain := .fin (81 / 16), question := { column := 0, value := 2 } } :=
  ⟨distinct4_wf, by decide +kernel⟩

/-! ## C13: the order of the rows -/

theorem TiesOnlyAtMinimum.sublist {col col' : List (Ext K)} (h : TiesOnlyAtMinimum col) (hs : col'.Sublist col)
    (hn : ∀ x ∈ col, isNaN x = false) : TiesOnlyAtMinimum col' := by
  intro v hv ⟨w, hw, hlt⟩
  have h1 := h v (hs.subset hv) ⟨w, hs.subset hw, hlt⟩
  have h2 := (hs.filter (fun x => x ==. v)).length_le
  have h3 : 0 < (col'.filter (fun x => x ==. v)).length := by
    apply List.length_pos_of_mem (a := v)
    rw [List.mem_filter]
    exact ⟨hv, nn_of_isNaN_false (hn v (hs.subset hv))⟩
  omega

theorem splitOf_perm {d d' : DataSet (Ext K)} {c t : Nat} (h : d.WF c t) (h' : d'.WF c t) {ls : List (List K)} (hls : d.labels = lift ls)
    (hties : ∀ j < c, TiesOnlyAtMinimum (column d.featureRows j)) (hp : d.examples.Perm d'.examples) :
    splitOf d t = splitOf d' t := by
  have hpl : d.labels.Perm d'.labels := by
    have := hp.map Prod.snd
    simp only [DataSet.examples] at this
    rwa [List.map_snd_zip (by rw [h.label_count]), List.map_snd_zip (by rw [h'.label_count])] at this
  obtain ⟨ls', hls'⟩ : ∃ ls', d'.labels = lift ls' := by
    apply exists_lift
    intro l hl
    exact lift_finite l (by rw [← hls]; exact hpl.mem_iff.mpr hl)
  have hlen : ls.length = d.featureRows.length := by rw [← h.label_count, hls, lift_length]
  have hlen' : ls'.length = d'.featureRows.length := by rw [← h'.label_count, hls', lift_length]
  have hne : ls ≠ [] := by
    rintro rfl
    exact h.rows_ne (List.eq_nil_of_length_eq_zero hlen.symm)
  have ht : ∀ {x : DataSet (Ext K)} {xs : List (List K)}, x.WF c t → x.labels = lift xs → ∀ v ∈ xs, v.length = t := by
    intro x xs hx hxs v hv
    have := hx.label_len (liftV v) (by rw [hxs]; exact mem_lift.mpr ⟨v, hv, rfl⟩)
    rwa [liftV_length] at this
  have hplain : ls.Perm ls' := by
    rw [hls, hls'] at hpl
    have := hpl.map (fun v => v.map val)
    change (vals (lift ls)).Perm (vals (lift ls')) at this
    rwa [vals_lift, vals_lift] at this
  have hne' : ls' ≠ [] := by
    rintro rfl
    exact hne hplain.eq_nil
  have hzip : ∀ {x : DataSet (Ext K)} {xs : List (List K)}, x.labels = lift xs → x.featureRows.zip xs =
      x.examples.map (fun e => (e.1, e.2.map val)) := by
    intro x xs hxs
    rw [DataSet.examples, hxs, lift, List.zip_map_right, List.map_map]
    conv_lhs => rw [← List.map_id (x.featureRows.zip xs)]
    apply List.map_congr_left
    intro e _
    simp [liftV, Function.comp_def]
  have hpz : (d.featureRows.zip ls).Perm (d'.featureRows.zip ls') := by
    rw [hzip hls, hzip hls']
    exact hp.map _
  have htv : totalVariance d.labels t = totalVariance d'.labels t := by
    rw [hls, hls', totalVariance_exact (ht h hls) hne, totalVariance_exact (ht h' hls') hne', totalVar_perm hplain]
  unfold splitOf
  rw [htv, h.cols, h'.cols, columnsOf, columnsOf, List.map_map, List.map_map]
  congr 1
  apply List.map_congr_left
  intro j hj
  rw [List.mem_range] at hj
  simp only [Function.comp]
  rw [hls, hls']
  refine colResult_perm (by rw [column_length, hlen]) (by rw [column_length, hlen']) (ht h hls) hne (h.col_nan hj) ?_ (hties j hj)
  rw [column_zip, column_zip]
  exact hpz.map _

/-- **C13**.  If within each column only the smallest value is repeated, permuting the training rows changes neither the question
nor the gain. -/
theorem C13_order_irrelevant (d d' : DataSet (Ext K)) (c t : Nat) (h : d.WF c t) (h' : d'.WF c t) (ls : List (List K))
    (hls : d.labels = lift ls) (hties : ∀ j < c, TiesOnlyAtMinimum (column d.featureRows j))
    (hp : d.examples.Perm d'.examples) : findBestSplit d t = findBestSplit d' t := by
  rw [findBestSplit_ok h, findBestSplit_ok h', splitOf_perm h h' hls hties hp]

theorem restrict_sublist {d : DataSet (Ext K)} {c t : Nat} (h : d.WF c t) (p : List (Ext K) → Bool) (j : Nat) :
    (column (d.restrict c p).featureRows j).Sublist (column d.featureRows j) := by
  have h1 : (d.restrict c p).featureRows.Sublist d.featureRows := by
    have h2 : d.examples.map Prod.fst = d.featureRows := by
      rw [DataSet.examples, List.map_fst_zip (by rw [h.label_count])]
    have h3 : (d.restrict c p).featureRows.Sublist (d.examples.map Prod.fst) :=
      (List.filter_sublist (l := d.examples) (p := fun e : List (Ext K) × List (Ext K) => p e.1)).map Prod.fst
    rwa [h2] at h3
  exact h1.map _

theorem restrict_finite {d : DataSet (Ext K)} {c : Nat} {ls : List (List K)} (hls : d.labels = lift ls) (p : List (Ext K) → Bool) :
    ∃ ls', (d.restrict c p).labels = lift ls' := by
  apply exists_lift
  intro l hl
  simp only [DataSet.restrict, List.mem_map, List.mem_filter] at hl
  obtain ⟨e, ⟨he, _⟩, rfl⟩ := hl
  exact lift_finite e.2 (by rw [← hls]; exact examples_snd_mem he)

/-- the trees of permuted data: the same questions everywhere, leaves with permuted examples -/
theorem treeOf_perm {c t : Nat} (m : Nat) : ∀ {d d' : DataSet (Ext K)} (_ : d.WF c t) (_ : d'.WF c t) {ls : List (List K)}
    (_ : d.labels = lift ls) (_ : ∀ j < c, TiesOnlyAtMinimum (column d.featureRows j)) (_ : d.examples.Perm d'.examples) (p : List Bool),
    (treeOf regLeaf c t m d).questionAt p = (treeOf regLeaf c t m d').questionAt p ∧
    ∀ l, (treeOf regLeaf c t m d).leafAt p = some l → ∃ dd dd', l.data = some dd ∧
      (treeOf regLeaf c t m d').leafAt p = some { data := some dd' } ∧ dd.examples.Perm dd'.examples := by
  induction m with
  | zero =>
    intro d d' h h' ls hls hties hp p
    refine ⟨by cases p <;> rfl, ?_⟩
    intro l hl
    obtain ⟨rfl, rfl⟩ := TreeNode.leafAt_leafNode hl
    exact ⟨d, d', rfl, rfl, hp⟩
  | succ m ih =>
    intro d d' h h' ls hls hties hp p
    have hsplit := splitOf_perm h h' hls hties hp
    cases hg : ((splitOf d t).gain ==. F64.zero) with
    | true =>
      rw [treeOf_leaf hg, treeOf_leaf (by rw [← hsplit]; exact hg)]
      refine ⟨by cases p <;> rfl, ?_⟩
      intro l hl
      obtain ⟨rfl, rfl⟩ := TreeNode.leafAt_leafNode hl
      exact ⟨d, d', rfl, rfl, hp⟩
    | false =>
      have hg' : ((splitOf d' t).gain ==. F64.zero) = false := by rw [← hsplit]; exact hg
      rw [treeOf_node hg, treeOf_node hg', ← hsplit]
      have hsub : ∀ pr : List (Ext K) → Bool, (d.restrict c pr).WF c t → (d'.restrict c pr).WF c t → ∀ p,
          (treeOf regLeaf c t m (d.restrict c pr)).questionAt p = (treeOf regLeaf c t m (d'.restrict c pr)).questionAt p ∧
          ∀ l, (treeOf regLeaf c t m (d.restrict c pr)).leafAt p = some l → ∃ dd dd', l.data = some dd ∧
            (treeOf regLeaf c t m (d'.restrict c pr)).leafAt p = some { data := some dd' } ∧ dd.examples.Perm dd'.examples := by
        intro pr hw hw' p
        obtain ⟨ls1, hls1⟩ := restrict_finite (c := c) hls pr
        refine ih hw hw' hls1 (fun j hj => (hties j hj).sublist (restrict_sublist h pr j) (h.col_nan hj)) ?_ p
        rw [restrict_examples, restrict_examples]
        exact hp.filter _
      have hw1 := split_true_wf h hg
      have hw2 := split_false_wf h hg
      have hw1' := split_true_wf h' hg'
      have hw2' := split_false_wf h' hg'
      rw [← hsplit] at hw1' hw2'
      match p with
      | [] => exact ⟨rfl, fun l hl => by simp [TreeNode.new, TreeNode.leafAt] at hl⟩
      | true :: p => exact hsub _ hw1 hw1' p
      | false :: p => exact hsub _ hw2 hw2' p

/-- **C13**, extended to whole trees.  Under the same hypothesis the trees learned from permuted rows ask the same questions at
the same positions, and the leaf at each position stores the same examples up to order. -/
theorem C13_order_irrelevant_tree (d d' : DataSet (Ext K)) (c t : Nat) (h : d.WF c t) (h' : d'.WF c t) (ls : List (List K))
    (hls : d.labels = lift ls) (hties : ∀ j < c, TiesOnlyAtMinimum (column d.featureRows j))
    (hp : d.examples.Perm d'.examples) (cfg : TreeConfig) (ht : cfg.numberOfClasses = t) :
    ∃ tree tree', regressionTreeNew d cfg = .ok tree ∧ regressionTreeNew d' cfg = .ok tree' ∧
      ∀ p : List Bool, tree.questionAt p = tree'.questionAt p ∧
        ∀ l, tree.leafAt p = some l → ∃ dd dd', l.data = some dd ∧ tree'.leafAt p = some { data := some dd' } ∧
          dd.examples.Perm dd'.examples :=
  ⟨_, _, regressionTreeNew_ok h ht, regressionTreeNew_ok h' ht, treeOf_perm cfg.maxLevels h h' hls hties hp⟩

/-- the same rows in another order -/
def distinct4' : DataSet E :=
  { featureRows := [[3, 7], [0, 5], [2, 6], [1, 4]]
    labels := [[4], [0], [6], [1]]
    featureColumns := [[3, 0, 2, 1], [7, 5, 6, 4]] }

theorem distinct4'_wf : distinct4'.WF 2 1 :=
  ⟨by decide +kernel, by decide +kernel, by decide +kernel, by decide +kernel, by decide +kernel, by decide +kernel,
    by decide +kernel⟩

example : distinct4.WF 2 1 ∧ distinct4'.WF 2 1 ∧ distinct4.labels = lift [[0], [1], [4], [6]] ∧
    (∀ j < 2, TiesOnlyAtMinimum (column distinct4.featureRows j)) ∧ distinct4.examples.Perm distinct4'.examples ∧
    distinct4.examples ≠ distinct4'.examples :=
  ⟨distinct4_wf, distinct4'_wf, by decide +kernel⟩

/-- the rows of `ties3` with the last two exchanged -/
def ties3swap : DataSet E :=
  { featureRows := [[0, 0], [1, 1], [1, 0]]
    labels := [[0], [1], [0]]
    featureColumns := [[0, 1, 1], [0, 1, 0]] }

theorem ties3swap_wf : ties3swap.WF 2 1 :=
  ⟨by decide +kernel, by decide +kernel, by decide +kernel, by decide +kernel, by decide +kernel, by decide +kernel,
    by decide +kernel⟩

/-- **C13**, finding.  With other repeated values the learned question depends on the order of the rows: exchanging two rows moves
the split from column 0 to column 1. -/
theorem C13_violated : ties3.WF 2 1 ∧ ties3swap.WF 2 1 ∧ ties3.examples.Perm ties3swap.examples ∧
    findBestSplit ties3 1 = .ok { gain := .fin (2 / 9), question := { column := 0, value := 1 } } ∧
    findBestSplit ties3swap 1 = .ok { gain := .fin (2 / 9), question := { column := 1, value := 1 } } :=
  ⟨ties3_wf, ties3swap_wf, by decide +kernel⟩

/-! ## C15: constant labels -/

/-- **C15**.  If all label vectors are equal, the gain is zero and the tree is a single leaf with the whole data set. -/
theorem C15_constant_labels (d : DataSet (Ext K)) (c t : Nat) (h : d.WF c t) (ls : List (List K)) (hls : d.labels = lift ls)
    (hconst : ∀ a ∈ ls, ∀ b ∈ ls, a = b) (cfg : TreeConfig) (ht : cfg.numberOfClasses = t) :
    (∃ s, findBestSplit d t = .ok s ∧ s.gain = F64.zero) ∧
    ∃ tree, regressionTreeNew d cfg = .ok tree ∧ tree.depth = 0 ∧ tree.leaves = [{ data := some d }] := by
  obtain ⟨g, h1, h2, h3, _, _⟩ := splitOf_exact h hls
  have h0 : g = 0 := le_antisymm (by rw [totalVar_const hconst] at h3; exact h3) h2
  have hz : (splitOf d t).gain = F64.zero := by rw [h1, h0]; rfl
  refine ⟨⟨_, findBestSplit_ok h, hz⟩, _, regressionTreeNew_ok h ht, ?_⟩
  cases cfg.maxLevels with
  | zero => exact ⟨rfl, rfl⟩
  | succ m =>
    rw [treeOf_leaf (by rw [hz]; exact LawfulOrder.zero_eq)]
    exact ⟨rfl, rfl⟩

/-- constant labels, different features -/
def const3 : DataSet E :=
  { featureRows := [[0], [1], [2]]
    labels := [[.fin (1 / 10)], [.fin (1 / 10)], [.fin (1 / 10)]]
    featureColumns := [[0, 1, 2]] }

example : const3.WF 1 1 ∧ const3.labels = lift [[1 / 10], [1 / 10], [1 / 10]] :=
  ⟨⟨by decide +kernel, by decide +kernel, by decide +kernel, by decide +kernel, by decide +kernel, by decide +kernel,
    by decide +kernel⟩, by decide +kernel⟩

end Verif
