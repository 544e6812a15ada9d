import Verif.Lemmas.NearTree
/-!
# Equal labels with small integer entries: nothing is rounded
-/

set_option linter.unusedSectionVars false

namespace Verif

open B64 LawfulOrder

variable [B64Env]

theorem roundE_int {m : ℤ} (h : |m| ≤ 2 ^ 53) : roundE (.fin (m : ℚ)) = .fin (m : ℚ) := by
  obtain ⟨k, rfl | rfl⟩ := m.eq_nat_or_neg
  · have : k ≤ 2 ^ 53 := by simpa using h
    simpa using roundE_nat this
  · have : k ≤ 2 ^ 53 := by simpa using h
    have h1 := roundE_neg (.fin (k : ℚ))
    rw [roundE_nat this] at h1
    simpa [Ext.neg] using h1

namespace SmallInt
variable {n : ℕ} {x : ℤ} (h : SmallInt n x)
include h

theorem sq {k : ℕ} (hk : k ≤ n) : |(k : ℤ) * x ^ 2| ≤ 2 ^ 53 := by
  rw [abs_of_nonneg (by positivity)]
  refine le_trans ?_ h.square
  have : (k : ℤ) ≤ n := by exact_mod_cast hk
  exact mul_le_mul_of_nonneg_right this (by positivity)

theorem lin {k : ℕ} (hk : k ≤ n) : |(k : ℤ) * x| ≤ 2 ^ 53 := by
  refine le_trans ?_ (h.sq hk)
  rw [abs_mul, abs_mul]
  refine mul_le_mul_of_nonneg_left ?_ (abs_nonneg _)
  rw [abs_pow]
  rcases eq_or_ne x 0 with rfl | hx
  · simp
  · have : 1 ≤ |x| := Int.one_le_abs hx
    nlinarith

end SmallInt

/-- the tracker after `k` labels `v` -/
structure TrkSame (t k : ℕ) (v : List ℤ) (tr : Tracker B64) : Prop where
  count : tr.numberOfLabels.val = .fin k
  shape : tr.metrics.Shape t
  sums : ∀ j < t, (tr.metrics.sumOfLabels.getD j F64.zero).val = .fin ((k * v.getD j 0 : ℤ) : ℚ)
  squares : ∀ j < t, (tr.metrics.sumOfSquaredLabels.getD j F64.zero).val = .fin ((k * v.getD j 0 ^ 2 : ℤ) : ℚ)
  means : k ≠ 0 → tr.metrics.meanOfLabels = tr.metrics.sumOfLabels.map (fun s => s /. tr.numberOfLabels)

theorem ofInts_getD {l : List B64} {v : List ℤ} (h : l.map B64.val = ofInts v) (j : ℕ) :
    (l.getD j F64.zero).val = .fin ((v.getD j 0 : ℤ) : ℚ) := by
  rw [valV_getD h j]
  congr 1
  simp only [List.getD, List.getElem?_map]
  cases v[j]? <;> simp

section
variable {t n : ℕ} {v : List ℤ} (hv : v.length = t) (hI : ∀ j < t, SmallInt n (v.getD j 0)) (hn : n ≤ 2 ^ 53)
include hv hI hn

theorem updLeft_same {k : ℕ} {tr : Tracker B64} {l : List B64} (h : TrkSame t k v tr) (hk : k < n) (hl : l.map B64.val = ofInts v) :
    TrkSame t (k + 1) v (updLeft tr l) := by
  have hll : l.length = t := by rw [valV_length hl, List.length_map, hv]
  refine ⟨?_, updMetrics_shape h.shape hll, ?_, ?_, fun _ => rfl⟩
  · simp only [updLeft, add_val, h.count]
    rw [one_val, Ext.fin_add]
    have := roundE_nat (n := k + 1) (by omega)
    push_cast at this ⊢
    exact this
  · intro j hj
    simp only [updLeft, updMetrics]
    rw [zipWith_getD_of (a := F64.zero) (b := F64.zero) (by rw [h.shape.sums]; exact hj) (by omega), add_val, h.sums j hj, ofInts_getD hl,
      Ext.fin_add]
    have := roundE_int ((hI j hj).lin (k := k + 1) (by omega))
    push_cast at this ⊢
    rw [show (k : ℚ) * (v.getD j 0 : ℤ) + (v.getD j 0 : ℤ) = (k + 1) * (v.getD j 0 : ℤ) by ring]
    exact this
  · intro j hj
    have h1 := roundE_int ((hI j hj).sq (k := 1) (by omega))
    have h2 := roundE_int ((hI j hj).sq (k := k + 1) (by omega))
    push_cast at h1 h2
    rw [one_mul] at h1
    simp only [updLeft, updMetrics]
    rw [zipWith_getD_of (a := F64.zero) (b := F64.zero) (by rw [h.shape.squares]; exact hj) (by omega), add_val, h.squares j hj, mul_val,
      ofInts_getD hl, Ext.fin_mul, ← pow_two, h1, Ext.fin_add]
    push_cast
    rw [show (k : ℚ) * (v.getD j 0 : ℤ) ^ 2 + (v.getD j 0 : ℤ) ^ 2 = (k + 1) * (v.getD j 0 : ℤ) ^ 2 by ring]
    exact h2

theorem updRight_same {k : ℕ} {tr : Tracker B64} {l : List B64} (h : TrkSame t (k + 1) v tr) (hk : k < n)
    (hl : l.map B64.val = ofInts v) : TrkSame t k v (updRight tr l) := by
  have hll : l.length = t := by rw [valV_length hl, List.length_map, hv]
  refine ⟨?_, updMetrics_shape h.shape hll, ?_, ?_, fun _ => rfl⟩
  · simp only [updRight, sub_val, h.count]
    rw [one_val, Ext.fin_sub]
    have := roundE_nat (n := k) (by omega)
    push_cast at this ⊢
    rw [add_sub_cancel_right]
    exact this
  · intro j hj
    simp only [updRight, updMetrics]
    rw [zipWith_getD_of (a := F64.zero) (b := F64.zero) (by rw [h.shape.sums]; exact hj) (by omega), sub_val, h.sums j hj, ofInts_getD hl,
      Ext.fin_sub]
    have := roundE_int ((hI j hj).lin (k := k) (by omega))
    push_cast at this ⊢
    rw [show ((k : ℚ) + 1) * (v.getD j 0 : ℤ) - (v.getD j 0 : ℤ) = k * (v.getD j 0 : ℤ) by ring]
    exact this
  · intro j hj
    have h1 := roundE_int ((hI j hj).sq (k := 1) (by omega))
    have h2 := roundE_int ((hI j hj).sq (k := k) (by omega))
    push_cast at h1 h2
    rw [one_mul] at h1
    simp only [updRight, updMetrics]
    rw [zipWith_getD_of (a := F64.zero) (b := F64.zero) (by rw [h.shape.squares]; exact hj) (by omega), sub_val, h.squares j hj, mul_val,
      ofInts_getD hl, Ext.fin_mul, ← pow_two, h1, Ext.fin_sub]
    push_cast
    rw [show ((k : ℚ) + 1) * (v.getD j 0 : ℤ) ^ 2 - (v.getD j 0 : ℤ) ^ 2 = k * (v.getD j 0 : ℤ) ^ 2 by ring]
    exact h2

omit hv hI hn in
theorem leftStart_same : TrkSame t 0 v (leftStart t) := by
  refine ⟨by simp [leftStart], leftStart_shape t, ?_, ?_, fun h => absurd rfl h⟩ <;>
  · intro j hj
    simp [leftStart, hj]

theorem foldl_same : ∀ (labels : List (List B64)) (k : ℕ) (tr : Tracker B64), TrkSame t k v tr →
    (∀ l ∈ labels, l.map B64.val = ofInts v) → k + labels.length ≤ n → TrkSame t (k + labels.length) v (labels.foldl updLeft tr) := by
  intro labels
  induction labels with
  | nil => intro k tr h _ _; exact h
  | cons l labels ih =>
    intro k tr h hl hk
    simp only [List.length_cons] at hk
    have := ih (k + 1) (updLeft tr l) (updLeft_same hv hI hn h (by omega) (hl l (by simp))) (fun l' hl' => hl l' (by simp [hl'])) (by omega)
    rw [List.foldl_cons, List.length_cons]
    simpa [Nat.add_assoc, Nat.add_comm 1] using this

theorem metricsOf_same {labels : List (List B64)} (hl : ∀ l ∈ labels, l.map B64.val = ofInts v) (hk : labels.length ≤ n) :
    TrkSame t labels.length v (rightStart labels.length (metricsOf labels t)) := by
  have h := foldl_same hv hI hn labels 0 _ leftStart_same hl (by omega)
  simp only [Nat.zero_add] at h
  have hs := sumVecs_foldl labels t
  have hll : ∀ l ∈ labels, l.length = t := by
    intro l hm
    rw [valV_length (hl l hm), List.length_map, hv]
  refine ⟨?_, (getLabelMetrics_ok hll).2, ?_, ?_, fun _ => rfl⟩
  · have := roundE_nat (n := labels.length) (by omega)
    simpa [rightStart] using this
  · intro j hj
    simpa [rightStart, metricsOf, hs] using h.sums j hj
  · intro j hj
    simpa [rightStart, metricsOf, hs] using h.squares j hj

/-- the computed variances are zero -/
theorem varVec_same {k : ℕ} {tr : Tracker B64} (h : TrkSame t k v tr) (hk0 : k ≠ 0) (hk : k ≤ n) :
    (varVec tr.metrics tr.numberOfLabels).length = t ∧ ∀ x ∈ varVec tr.metrics tr.numberOfLabels, x.val = .fin 0 := by
  have hlen : (varVec tr.metrics tr.numberOfLabels).length = t := Shape.varVec_length h.shape _
  refine ⟨hlen, ?_⟩
  intro x hx
  obtain ⟨j, hj, rfl⟩ := List.getElem_of_mem hx
  rw [hlen] at hj
  have e : (varVec tr.metrics tr.numberOfLabels)[j] =
      calculateVariance ((tr.metrics.sumOfLabels.getD j F64.zero /. tr.numberOfLabels) *.
        (tr.metrics.sumOfLabels.getD j F64.zero /. tr.numberOfLabels)) (tr.metrics.sumOfSquaredLabels.getD j F64.zero) tr.numberOfLabels := by
    have : (varVec tr.metrics tr.numberOfLabels)[j] = (varVec tr.metrics tr.numberOfLabels).getD j F64.zero := by
      simp [List.getD, hlen, hj]
    rw [this, varVec, zipWith_getD_of (a := F64.zero) (b := F64.zero) (by rw [h.shape.means]; exact hj) (by rw [h.shape.squares]; exact hj),
      h.means hk0]
    simp [List.getD, show j < tr.metrics.sumOfLabels.length by rw [h.shape.sums]; exact hj]
  have hkq : (k : ℚ) ≠ 0 := by exact_mod_cast hk0
  have hc0 : tr.numberOfLabels.val ≠ .fin 0 := by
    rw [h.count]
    intro h0
    simp only [Ext.fin.injEq] at h0
    exact hkq h0
  have h1 := roundE_int ((hI j hj).sq (k := 1) (by omega))
  have h2 := roundE_int ((hI j hj).sq (k := k) hk)
  have h3 := roundE_int ((hI j hj).lin (k := 1) (by omega))
  push_cast at h1 h2 h3
  rw [one_mul] at h1 h3
  have hmean : (tr.metrics.sumOfLabels.getD j F64.zero /. tr.numberOfLabels).val = .fin ((v.getD j 0 : ℤ) : ℚ) := by
    rw [div_val _ _ hc0, h.sums j hj, h.count, Ext.fin_div _ _ hkq]
    push_cast
    rw [mul_div_cancel_left₀ _ hkq]
    exact h3
  rw [e, calculateVariance, div_val _ _ hc0, sub_val, h.squares j hj, mul_val, mul_val, hmean, h.count, Ext.fin_mul, ← pow_two, h1,
    Ext.fin_mul, h2]
  push_cast
  rw [Ext.fin_sub, sub_self, roundE_zero, Ext.fin_div _ _ hkq, zero_div, roundE_zero]

omit hv hI hn in
theorem fsum_zeros {xs : List B64} (h : ∀ x ∈ xs, x.val = .fin 0) : (fsum xs).val = .fin 0 := by
  have key : ∀ (xs : List B64) (a : B64), a.val = .fin 0 → (∀ x ∈ xs, x.val = .fin 0) → (xs.foldl F64.add a).val = .fin 0 := by
    intro xs
    induction xs with
    | nil => intro a ha _; exact ha
    | cons x xs ih =>
      intro a ha hx
      rw [List.foldl_cons]
      refine ih _ ?_ (fun y hy => hx y (by simp [hy]))
      rw [add_val, ha, hx x (by simp), Ext.fin_add, add_zero, roundE_zero]
  exact key xs _ sumStart_val h

theorem splitLoss_same {k1 k2 : ℕ} {left right : Tracker B64} (hl : TrkSame t k1 v left) (hr : TrkSame t k2 v right) (h1 : k1 ≠ 0)
    (h2 : k2 ≠ 0) (hk : k1 + k2 ≤ n) : (splitLoss left right).val = .fin 0 := by
  apply fsum_zeros
  intro x hx
  have htot : (left.numberOfLabels +. right.numberOfLabels).val = .fin ((k1 + k2 : ℕ) : ℚ) := by
    rw [add_val, hl.count, hr.count, Ext.fin_add]
    have := roundE_nat (n := k1 + k2) (by omega)
    push_cast at this ⊢
    exact this
  have hw : ∀ {c : B64} {k : ℕ}, c.val = .fin k → k ≤ k1 + k2 → ∃ w, (c /. (left.numberOfLabels +. right.numberOfLabels)).val = .fin w := by
    intro c k hc hk'
    have hpos : (0 : ℚ) < ((k1 + k2 : ℕ) : ℚ) := by exact_mod_cast (by omega : 0 < k1 + k2)
    have hq : |(k : ℚ) / ((k1 + k2 : ℕ) : ℚ)| ≤ big := by
      rw [abs_of_nonneg (by positivity)]
      have h3 : (k : ℚ) / ((k1 + k2 : ℕ) : ℚ) ≤ 1 := by
        rw [div_le_one hpos]; exact_mod_cast hk'
      have := big_ge (show 1 ≤ 1000 by norm_num)
      linarith
    obtain ⟨w, hw, _⟩ := div_err hc htot hpos.ne' hq
    exact ⟨w, hw⟩
  obtain ⟨w1, hw1⟩ := hw hl.count (by omega)
  obtain ⟨w2, hw2⟩ := hw hr.count (by omega)
  obtain ⟨j, hj, rfl⟩ := List.getElem_of_mem hx
  rw [List.getElem_zipWith]
  have e1 := (varVec_same hv hI hn hl h1 (by omega)).2 _ (List.getElem_mem (l := varVec left.metrics left.numberOfLabels) (n := j) (by simp only [List.length_zipWith] at hj; omega))
  have e2 := (varVec_same hv hI hn hr h2 (by omega)).2 _ (List.getElem_mem (l := varVec right.metrics right.numberOfLabels) (n := j) (by simp only [List.length_zipWith] at hj; omega))
  rw [add_val, mul_val, mul_val, e1, e2, hw1, hw2, Ext.fin_mul, Ext.fin_mul, mul_zero, mul_zero, roundE_zero, Ext.fin_add, add_zero, roundE_zero]

theorem cands_same {prev : B64} : ∀ (seq : List (B64 × List B64)) (k : ℕ) (left right : Tracker B64),
    (∀ p ∈ seq, p.2.map B64.val = ofInts v) → k + seq.length ≤ n → TrkSame t k v left → TrkSame t seq.length v right →
    (k = 0 → ∀ p, seq[0]? = some p → (p.1 ==. prev) = true) →
    ∀ b ∈ cands prev left right seq, b.loss.val = .fin 0 := by
  intro seq
  induction seq with
  | nil => intro k left right _ _ _ _ _ b hb; simp [cands] at hb
  | cons p seq ih =>
    obtain ⟨x, l⟩ := p
    intro k left right hs hk hl hr hp b hb
    simp only [List.length_cons] at hk hr
    rw [cands, List.mem_append] at hb
    rcases hb with hb | hb
    · split at hb
      · next hvp =>
        simp only [List.mem_singleton] at hb
        have hvp : (x ==. prev) = false := by simpa using hvp
        have hk0 : k ≠ 0 := by
          intro h0
          have := hp h0 (x, l) (by simp)
          rw [this] at hvp; simp at hvp
        rw [hb]
        exact splitLoss_same hv hI hn hl hr hk0 (by omega) (by omega)
      · simp at hb
    · exact ih (k + 1) _ _ (fun p hp => hs p (by simp [hp])) (by omega) (updLeft_same hv hI hn hl (by omega) (hs (x, l) (by simp)))
        (updRight_same hv hI hn hr (by omega) (hs (x, l) (by simp))) (by omega) b hb

theorem splitOf_same {d : DataSet B64} {c : ℕ} (h : d.WF c t) (hl : ∀ l ∈ d.labels, l.map B64.val = ofInts v)
    (hk : d.labels.length ≤ n) : (splitOf d t).gain.val = .fin 0 := by
  have hne : d.labels ≠ [] := h.labels_ne
  have hpos : d.labels.length ≠ 0 := by simpa using hne
  have hr := metricsOf_same hv hI hn hl hk
  have htot : (totalVariance d.labels t).val = .fin 0 := fsum_zeros (varVec_same hv hI hn hr hpos hk).2
  have hgain : ∀ r ∈ d.featureColumns.map (colResult d.labels t), (F64.zero <. gainOf (totalVariance d.labels t) r) = false := by
    intro r hr'
    obtain ⟨col, hcol, rfl⟩ := List.mem_map.mp hr'
    rw [h.cols, columnsOf] at hcol
    obtain ⟨j, hj, rfl⟩ := List.mem_map.mp hcol
    have hcn := h.col_nan (List.mem_range.mp hj)
    have hcl : (column d.featureRows j).length = d.labels.length := by rw [column_length, h.label_count]
    have hlab : ∀ p ∈ seqOf d.labels (column d.featureRows j), p.2.map B64.val = ofInts v := by
      intro p hp
      simp only [seqOf, List.mem_map] at hp
      obtain ⟨q, hq, rfl⟩ := hp
      have : q ∈ (column d.featureRows j).zipIdx := (sorted_perm _).mem_iff.mp hq
      have hlt : q.2 < d.labels.length := by
        have := List.snd_lt_of_mem_zipIdx this
        omega
      apply hl
      simp [List.getD, hlt]
    have hsl : (seqOf d.labels (column d.featureRows j)).length = d.labels.length := by
      simp only [seqOf, List.length_map]
      rw [(sorted_perm _).length_eq, List.length_zipIdx, hcl]
    have hc := cands_same hv hI hn (prev := ((seqOf d.labels (column d.featureRows j)).map Prod.fst).headD F64.zero)
      (seqOf d.labels (column d.featureRows j)) 0 (leftStart t)
      (rightStart d.labels.length (metricsOf d.labels t)) hlab (by omega) leftStart_same (by rw [hsl]; exact hr) (by
        intro _ p hp
        rw [List.headD_eq_head?_getD, List.head?_eq_getElem?, List.getElem?_map, hp]
        have hm := List.mem_of_getElem? hp
        simp only [seqOf, List.mem_map] at hm
        obtain ⟨q, hq, rfl⟩ := hm
        have : q ∈ (column d.featureRows j).zipIdx := (sorted_perm _).mem_iff.mp hq
        exact isNaN_eq_false.mp (hcn _ (List.fst_mem_of_mem_zipIdx this)))
    rcases foldl_pickBest_mem (l := cands (((seqOf d.labels (column d.featureRows j)).map Prod.fst).headD F64.zero) (leftStart t)
        (rightStart d.labels.length (metricsOf d.labels t)) (seqOf d.labels (column d.featureRows j)))
      (b := { loss := F64.infinity, thresholdValue := F64.zero }) with hmem | hmem
    · rw [gainOf, colResult, scanResult, hmem, lt_val, sub_val, htot, infinity_val, zero_val]
      rfl
    · have := hc _ hmem
      rw [gainOf, colResult, scanResult, lt_val, sub_val, htot, this, Ext.fin_sub, sub_self, roundE_zero, zero_val]
      rfl
  rw [splitOf]
  rcases bestColumn_spec (totalVariance d.labels t) (d.featureColumns.map (colResult d.labels t)) with ⟨h1, _⟩ | ⟨i, r, h0, _, h2, _⟩
  · rw [h1]; exact zero_val
  · rw [hgain r (List.mem_of_getElem? h0)] at h2
    simp at h2

end

end Verif
