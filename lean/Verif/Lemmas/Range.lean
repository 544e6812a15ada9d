import Verif.Spec.Range
import Verif.Lemmas.SameInt
/-!
# Labels outside the range of the split search
-/

set_option linter.unusedSectionVars false

namespace Verif

open B64 LawfulOrder

section generic
variable {F : Type} [F64 F]

/-- invariants of the two trackers give a property of all losses -/
theorem cands_inv {n : ℕ} {PL PR : ℕ → Tracker F → Prop} {Lab : List F → Prop} {Q : F → Prop}
    (hL : ∀ k tr l, PL k tr → Lab l → k < n → PL (k + 1) (updLeft tr l))
    (hR : ∀ k tr l, PR (k + 1) tr → Lab l → k < n → PR k (updRight tr l))
    (hQ : ∀ k1 k2 l r, PL k1 l → PR k2 r → k1 ≠ 0 → k2 ≠ 0 → k1 + k2 = n → Q (splitLoss l r)) {prev : F} :
    ∀ (seq : List (F × List F)) (k : ℕ) (left right : Tracker F), (∀ p ∈ seq, Lab p.2) → k + seq.length = n → PL k left →
      PR seq.length right → (k = 0 → ∀ p, seq[0]? = some p → (p.1 ==. prev) = true) → ∀ b ∈ cands prev left right seq, Q b.loss := by
  intro seq
  induction seq with
  | nil => intro k left right _ _ _ _ _ b hb; simp [cands] at hb
  | cons p seq ih =>
    obtain ⟨x, l⟩ := p
    intro k left right hs hk hl hr hp b hb
    simp only [List.length_cons] at hk hr
    rw [cands, List.mem_append] at hb
    rcases hb with hb | hb
    · split at hb
      · next hvp =>
        simp only [List.mem_singleton] at hb
        have hvp : (x ==. prev) = false := by simpa using hvp
        have hk0 : k ≠ 0 := by
          intro h0
          have := hp h0 (x, l) (by simp)
          rw [this] at hvp; simp at hvp
        rw [hb]
        exact hQ k _ left right hl hr hk0 (by omega) (by omega)
      · simp at hb
    · exact ih (k + 1) _ _ (fun p hp => hs p (by simp [hp])) (by omega) (hL _ _ _ hl (hs (x, l) (by simp)) (by omega))
        (hR _ _ _ hr (hs (x, l) (by simp)) (by omega)) (by omega) b hb

theorem splitOf_inv [LawfulOrder F] {d : DataSet F} {c t : ℕ} (h : d.WF c t) {PL PR : ℕ → Tracker F → Prop} {Lab : List F → Prop} {Q : F → Prop}
    (hlab : ∀ l ∈ d.labels, Lab l)
    (hL : ∀ k tr l, PL k tr → Lab l → k < d.labels.length → PL (k + 1) (updLeft tr l))
    (hR : ∀ k tr l, PR (k + 1) tr → Lab l → k < d.labels.length → PR k (updRight tr l))
    (hQ : ∀ k1 k2 l r, PL k1 l → PR k2 r → k1 ≠ 0 → k2 ≠ 0 → k1 + k2 = d.labels.length → Q (splitLoss l r))
    (h0 : PL 0 (leftStart t)) (hr : PR d.labels.length (rightStart d.labels.length (metricsOf d.labels t)))
    (hgain : ∀ x, Q x ∨ x = F64.infinity → (F64.zero <. (totalVariance d.labels t -. x)) = false) :
    splitOf d t = { gain := F64.zero, question := { column := 0, value := F64.zero } } := by
  have hg : ∀ r ∈ d.featureColumns.map (colResult d.labels t), (F64.zero <. gainOf (totalVariance d.labels t) r) = false := by
    intro r hr'
    obtain ⟨col, hcol, rfl⟩ := List.mem_map.mp hr'
    rw [h.cols, columnsOf] at hcol
    obtain ⟨j, hj, rfl⟩ := List.mem_map.mp hcol
    have hcn := h.col_nan (List.mem_range.mp hj)
    have hcl : (column d.featureRows j).length = d.labels.length := by rw [column_length, h.label_count]
    have hlab' : ∀ p ∈ seqOf d.labels (column d.featureRows j), Lab p.2 := by
      intro p hp
      simp only [seqOf, List.mem_map] at hp
      obtain ⟨q, hq, rfl⟩ := hp
      have : q ∈ (column d.featureRows j).zipIdx := (sorted_perm _).mem_iff.mp hq
      have hlt : q.2 < d.labels.length := by
        have := List.snd_lt_of_mem_zipIdx this
        omega
      apply hlab
      simp [List.getD, hlt]
    have hsl : (seqOf d.labels (column d.featureRows j)).length = d.labels.length := by
      simp only [seqOf, List.length_map]
      rw [(sorted_perm _).length_eq, List.length_zipIdx, hcl]
    have hc := cands_inv hL hR hQ (prev := ((seqOf d.labels (column d.featureRows j)).map Prod.fst).headD F64.zero)
      (seqOf d.labels (column d.featureRows j)) 0 (leftStart t)
      (rightStart d.labels.length (metricsOf d.labels t)) hlab' (by omega) h0 (by rw [hsl]; exact hr) (by
        intro _ p hp
        rw [List.headD_eq_head?_getD, List.head?_eq_getElem?, List.getElem?_map, hp]
        have hm := List.mem_of_getElem? hp
        simp only [seqOf, List.mem_map] at hm
        obtain ⟨q, hq, rfl⟩ := hm
        have : q ∈ (column d.featureRows j).zipIdx := (sorted_perm _).mem_iff.mp hq
        exact isNaN_eq_false.mp (hcn _ (List.fst_mem_of_mem_zipIdx this)))
    rcases foldl_pickBest_mem (l := cands (((seqOf d.labels (column d.featureRows j)).map Prod.fst).headD F64.zero) (leftStart t)
        (rightStart d.labels.length (metricsOf d.labels t)) (seqOf d.labels (column d.featureRows j)))
      (b := { loss := F64.infinity, thresholdValue := F64.zero }) with hmem | hmem
    · refine hgain _ (.inr ?_)
      rw [colResult, scanResult, hmem]
    · exact hgain _ (.inl (hc _ hmem))
  rw [splitOf]
  rcases bestColumn_spec (totalVariance d.labels t) (d.featureColumns.map (colResult d.labels t)) with ⟨h1, _⟩ | ⟨i, r, h0, _, h2, _⟩
  · exact h1
  · rw [hg r (List.mem_of_getElem? h0)] at h2
    simp at h2

end generic

variable [B64Env]

/-! ## Huge labels -/

/-- NaN or plus infinity -/
def Over (x : B64) : Prop := x.val = .nan ∨ x.val = .posInf

theorem Over.iff {x : B64} : Over x ↔ posSpecial x = true := by
  rw [posSpecial_val, Ext.posSpecial_iff]
  rfl

theorem Over.add_left {x : B64} (h : Over x) (y : B64) : Over (x +. y) := by
  unfold Over at *
  rw [add_val]
  rcases h with h | h <;> rw [h] <;> cases y.val <;> simp [F64.add, Ext.add]

theorem Over.add_right (x : B64) {y : B64} (h : Over y) : Over (x +. y) := by
  unfold Over at *
  rw [add_val]
  rcases h with h | h <;> rw [h] <;> cases x.val <;> simp [F64.add, Ext.add]

theorem Over.sub_left {x : B64} (h : Over x) (y : B64) : Over (x -. y) := by
  unfold Over at *
  rw [sub_val]
  rcases h with h | h <;> rw [h] <;> cases y.val <;> simp [F64.sub, Ext.neg, Ext.add]

theorem Over.div {x y : B64} (h : Over x) {k : ℕ} (hk : k ≠ 0) (hy : y.val = .fin k) : Over (x /. y) := by
  have hk' : (k : ℚ) ≠ 0 := by exact_mod_cast hk
  have hneg : ¬ (k : ℚ) < 0 := _root_.not_lt.mpr (Nat.cast_nonneg k)
  unfold Over at *
  rw [div_val _ _ (by rw [hy]; simpa using hk), hy]
  rcases h with h | h <;> rw [h] <;> simp [F64.div, Ext.div, hneg]

theorem Over.mul {x y : B64} (h : Over y) {q : ℚ} (hq : 0 ≤ q) (hx : x.val = .fin q) : Over (x *. y) := by
  unfold Over at *
  rw [mul_val, hx]
  have hneg : ¬ q < 0 := _root_.not_lt.mpr hq
  rcases h with h | h <;> rw [h]
  · simp [F64.mul, Ext.mul]
  · simp only [F64.mul, Ext.mul, Ext.signInf, hneg, if_false]
    split <;> simp

theorem over_fold_add {xs : List B64} (h : ∃ x ∈ xs, Over x) (a : B64) : Over (xs.foldl F64.add a) := by
  have key : ∀ (xs : List B64) (a : B64), (Over a ∨ ∃ x ∈ xs, Over x) → Over (xs.foldl F64.add a) := by
    intro xs
    induction xs with
    | nil =>
      rintro a (h | ⟨x, hx, _⟩)
      · exact h
      · simp at hx
    | cons y xs ih =>
      rintro a (h | ⟨x, hx, hn⟩)
      · exact ih _ (.inl (h.add_left y))
      · rcases List.mem_cons.mp hx with rfl | hx
        · exact ih _ (.inl (Over.add_right a hn))
        · exact ih _ (.inr ⟨x, hx, hn⟩)
  exact key xs a (.inr h)

theorem Huge.square {x : B64} (h : Huge x) : Over (x *. x) := by
  obtain ⟨q, hx, hq⟩ := h
  right
  rw [mul_val, hx, Ext.fin_mul]
  have h1 : limit ≤ q * q := by
    rw [limit, pow2_eq, ← abs_mul_abs_self q]
    have h2 := mul_le_mul hq hq (by positivity) (abs_nonneg q)
    have h3 : (2 : ℚ) ^ (1024 : ℤ) = 2 ^ 512 * 2 ^ 512 := by
      rw [← pow_add, ← zpow_natCast]
      norm_num
    rw [h3]
    exact h2
  have h2 : roundQ limit = limit := by
    rw [limit, pow2_eq]
    exact roundQ_representable (representable_pow2 (by norm_num))
  have h3 := roundQ_mono h1
  rw [h2] at h3
  simp only [roundE, if_pos h3]

/-- the right tracker while the squares of target `j` are too large -/
structure OverTrk (t j k : ℕ) (tr : Tracker B64) : Prop where
  count : tr.numberOfLabels.val = .fin k
  shape : tr.metrics.Shape t
  square : Over (tr.metrics.sumOfSquaredLabels.getD j F64.zero)

/-- the left tracker: only its count matters -/
structure CountTrk (t k : ℕ) (tr : Tracker B64) : Prop where
  count : tr.numberOfLabels.val = .fin k
  shape : tr.metrics.Shape t

theorem count_succ {x : B64} {k : ℕ} (h : x.val = .fin k) (hk : k < 2 ^ 53) : (x +. F64.one).val = .fin (k + 1 : ℕ) := by
  rw [add_val, h, one_val, Ext.fin_add]
  have := roundE_nat (n := k + 1) (by omega)
  push_cast at this ⊢
  exact this

theorem count_pred {x : B64} {k : ℕ} (h : x.val = .fin (k + 1 : ℕ)) (hk : k < 2 ^ 53) : (x -. F64.one).val = .fin k := by
  rw [sub_val, h, one_val, Ext.fin_sub]
  have := roundE_nat (n := k) (by omega)
  push_cast at this ⊢
  rw [add_sub_cancel_right]
  exact this

theorem varVec_getD {m : LabelMetrics B64} {t : ℕ} (h : m.Shape t) (n : B64) {j : ℕ} (hj : j < t) :
    (varVec m n).getD j F64.zero = calculateVariance (m.meanOfLabels.getD j F64.zero *. m.meanOfLabels.getD j F64.zero)
      (m.sumOfSquaredLabels.getD j F64.zero) n := by
  rw [varVec, zipWith_getD_of (a := F64.zero) (b := F64.zero) (by rw [h.means]; exact hj) (by rw [h.squares]; exact hj)]

theorem varVec_over {m : LabelMetrics B64} {t j k : ℕ} {n : B64} (h : m.Shape t) (hj : j < t) (hs : Over (m.sumOfSquaredLabels.getD j F64.zero))
    (hn : n.val = .fin k) (hk : k ≠ 0) : Over ((varVec m n).getD j F64.zero) := by
  rw [varVec_getD h n hj, calculateVariance]
  exact (hs.sub_left _).div hk hn

theorem entry_mem {xs : List B64} {j : ℕ} (h : j < xs.length) : xs.getD j F64.zero ∈ xs := by
  simp [List.getD, h]

theorem weight_val {c total : B64} {k n : ℕ} (hc : c.val = .fin k) (ht : total.val = .fin n) (hn : n ≠ 0) (hk : k ≤ n) :
    ∃ q : ℚ, 0 ≤ q ∧ (c /. total).val = .fin q := by
  have hpos : (0 : ℚ) < n := by exact_mod_cast Nat.pos_of_ne_zero hn
  have hq : |(k : ℚ) / n| ≤ big := by
    rw [abs_of_nonneg (by positivity)]
    have h3 : (k : ℚ) / n ≤ 1 := by
      rw [div_le_one hpos]; exact_mod_cast hk
    have := big_ge (show 1 ≤ 1000 by norm_num)
    linarith
  obtain ⟨w, hw, _⟩ := div_err hc ht hpos.ne' hq
  refine ⟨w, ?_, hw⟩
  rw [div_val _ _ (by rw [ht]; simpa using hn), hc, ht, Ext.fin_div _ _ hpos.ne', roundE] at hw
  split at hw
  · simp at hw
  · split at hw
    · simp at hw
    · simp only [Ext.fin.injEq] at hw
      rw [← hw]
      exact roundQ_nonneg (by positivity)

theorem splitLoss_over {t j k1 k2 : ℕ} {left right : Tracker B64} (hj : j < t) (hl : CountTrk t k1 left) (hr : OverTrk t j k2 right)
    (h2 : k2 ≠ 0) (hk : k1 + k2 ≤ 2 ^ 53) : Over (splitLoss left right) := by
  have htot : (left.numberOfLabels +. right.numberOfLabels).val = .fin ((k1 + k2 : ℕ) : ℚ) := by
    rw [add_val, hl.count, hr.count, Ext.fin_add]
    have := roundE_nat (n := k1 + k2) (by omega)
    push_cast at this ⊢
    exact this
  obtain ⟨w, hw0, hw⟩ := weight_val hr.count htot (by omega) (by omega)
  have hv := varVec_over hr.shape hj hr.square hr.count h2
  apply over_fold_add
  refine ⟨_, entry_mem (j := j) ?_, ?_⟩
  · rw [List.length_zipWith, Shape.varVec_length hl.shape, Shape.varVec_length hr.shape]
    omega
  · rw [zipWith_getD_of (a := F64.zero) (b := F64.zero) (by rw [Shape.varVec_length hl.shape]; exact hj)
      (by rw [Shape.varVec_length hr.shape]; exact hj)]
    exact Over.add_right _ (hv.mul hw0 hw)

theorem squares_over {labels : List (List B64)} {t j : ℕ} (h : ∀ l ∈ labels, l.length = t) (hj : j < t)
    (hex : ∃ l ∈ labels, Over (l.getD j F64.zero *. l.getD j F64.zero)) : Over ((sumVecs labels t).2.getD j F64.zero) := by
  obtain ⟨_, h2⟩ := sumVecs_get h hj
  have : (sumVecs labels t).2.getD j F64.zero = labels.foldl (fun a l => a +. l.getD j F64.zero *. l.getD j F64.zero) F64.zero := by
    rw [List.getD, h2]; rfl
  rw [this]
  have e : labels.foldl (fun a l => a +. l.getD j F64.zero *. l.getD j F64.zero) F64.zero =
      (labels.map (fun l => l.getD j F64.zero *. l.getD j F64.zero)).foldl F64.add F64.zero := by
    rw [List.foldl_map]
  rw [e]
  apply over_fold_add
  obtain ⟨l, hl, ho⟩ := hex
  exact ⟨_, List.mem_map.mpr ⟨l, hl, rfl⟩, ho⟩

theorem splitOf_over {d : DataSet B64} {c t : ℕ} (h : d.WF c t) (hn : d.labels.length ≤ 2 ^ 53)
    (hex : ∃ l ∈ d.labels, ∃ x ∈ l, Over (x *. x)) :
    splitOf d t = { gain := F64.zero, question := { column := 0, value := F64.zero } } := by
  obtain ⟨l, hl, x, hx, ho⟩ := hex
  obtain ⟨j, hj, rfl⟩ := List.getElem_of_mem hx
  have hjt : j < t := by rw [← h.label_len l hl]; exact hj
  have hpos : d.labels.length ≠ 0 := by simpa using h.labels_ne
  have hsq := squares_over h.label_len hjt ⟨l, hl, by simpa [List.getD, hj] using ho⟩
  have hshape := (getLabelMetrics_ok h.label_len).2
  have hcount : (F64.ofNat d.labels.length : B64).val = .fin d.labels.length := by rw [ofNat_val, roundE_nat hn]
  have hT : Over (totalVariance d.labels t) := by
    refine over_fold_add ⟨_, entry_mem (j := j) ?_, varVec_over hshape hjt hsq hcount hpos⟩ _
    rw [Shape.varVec_length hshape]
    exact hjt
  refine splitOf_inv h (PL := CountTrk t) (PR := OverTrk t j) (Lab := fun l => l.length = t) (Q := Over) h.label_len ?_ ?_ ?_ ?_ ?_ ?_
  · intro k tr l htr hl hk
    exact ⟨count_succ htr.count (by omega), updMetrics_shape htr.shape hl⟩
  · intro k tr l htr hl hk
    refine ⟨count_pred htr.count (by omega), updMetrics_shape htr.shape hl, ?_⟩
    simp only [updRight, updMetrics]
    rw [zipWith_getD_of (a := F64.zero) (b := F64.zero) (by rw [htr.shape.squares]; exact hjt) (by omega)]
    exact htr.square.sub_left _
  · intro k1 k2 l r hl hr _ h2 hk
    exact splitLoss_over hjt hl hr h2 (by omega)
  · exact ⟨by simp [leftStart], leftStart_shape t⟩
  · exact ⟨hcount, hshape, hsq⟩
  · intro x hx
    have hx : Over x := by
      rcases hx with hx | rfl
      · exact hx
      · exact .inr infinity_val
    rw [lt_val, sub_val]
    unfold Over at hT hx
    rcases hT with hT | hT <;> rcases hx with hx | hx <;> rw [hT, hx, zero_val] <;> rfl

/-! ## Faint labels -/

/-- the bound on faint numbers -/
def faintQ : ℚ := (2 : ℚ) ^ (-565 : ℤ)

theorem Faint.iff {x : B64} : Faint x ↔ ∃ q : ℚ, x.val = .fin q ∧ |q| ≤ faintQ := by
  have : (1 : ℚ) / 2 ^ 565 = faintQ := by
    rw [faintQ, zpow_neg, one_div]
    norm_cast
  rw [Faint, this]

theorem round_faint {q : ℚ} {m : ℕ} (hm : m ≤ 2 ^ 26) (h : |q| ≤ m * faintQ) : ∃ v, roundE (.fin q) = .fin v ∧ |v| ≤ m * faintQ := by
  have hm' : |(m : ℤ)| < 2 ^ 53 := by
    rw [Nat.abs_cast]
    exact_mod_cast (show m < 2 ^ 53 by omega)
  have hrep : Representable ((m : ℚ) * faintQ) := ⟨m, -565, hm', by norm_num, by simp [faintQ]⟩
  have h1 := roundQ_representable hrep
  have h2 := roundQ_representable hrep.neg
  rw [abs_le] at h
  have u1 := roundQ_mono h.2
  have u2 := roundQ_mono h.1
  rw [h1] at u1
  rw [h2] at u2
  have hlim : (m : ℚ) * faintQ < limit := by
    have h3 : faintQ ≤ 1 := by
      rw [faintQ]
      exact zpow_le_one_of_nonpos₀ (by norm_num) (by norm_num)
    have h4 : (m : ℚ) ≤ 2 ^ 53 := by exact_mod_cast (show m ≤ 2 ^ 53 by omega)
    have h5 := limit_big
    have h6 : (m : ℚ) * faintQ ≤ m * 1 := mul_le_mul_of_nonneg_left h3 (Nat.cast_nonneg m)
    linarith
  refine ⟨roundQ q, ?_, abs_le.mpr ⟨u2, u1⟩⟩
  rw [roundE, if_neg (by linarith), if_neg (by linarith)]

theorem round_vanish {q : ℚ} (h : |q| ≤ (2 : ℚ) ^ (-1080 : ℤ)) : roundE (.fin q) = .fin 0 := by
  have h0 : roundQ q = 0 := by
    by_contra hne
    have h1 := roundQ_nearest q representable_zero
    rw [zero_sub, abs_neg] at h1
    have h2 : |roundQ q| ≤ 2 * (2 : ℚ) ^ (-1080 : ℤ) := by
      have := abs_sub_abs_le_abs_sub (roundQ q) q
      linarith
    obtain ⟨m, e, _, he, hr⟩ := roundQ_is_representable q
    have hm : m ≠ 0 := by
      rintro rfl
      simp [hr] at hne
    have h3 : (2 : ℚ) ^ (-1074 : ℤ) ≤ |roundQ q| := by
      rw [hr, abs_mul, abs_of_pos (by positivity : (0 : ℚ) < 2 ^ e)]
      have h4 : (1 : ℚ) ≤ |(m : ℚ)| := by exact_mod_cast Int.one_le_abs hm
      have h5 : (2 : ℚ) ^ (-1074 : ℤ) ≤ 2 ^ e := two_zpow_le.mpr he
      have h6 : (0 : ℚ) < 2 ^ e := by positivity
      nlinarith
    have h7 : 2 * (2 : ℚ) ^ (-1080 : ℤ) = (2 : ℚ) ^ (-1079 : ℤ) := by
      rw [← zpow_one_add₀ (by norm_num)]
      norm_num
    rw [h7] at h2
    have h8 : (2 : ℚ) ^ (-1079 : ℤ) < (2 : ℚ) ^ (-1074 : ℤ) := two_zpow_lt.mpr (by norm_num)
    linarith
  have hlim := limit_pos
  rw [roundE, h0, if_neg (by linarith), if_neg (by linarith)]

theorem faint_square {x : B64} {q : ℚ} {m : ℕ} (hx : x.val = .fin q) (hm : m ≤ 2 ^ 25) (h : |q| ≤ m * faintQ) : (x *. x).val = .fin 0 := by
  rw [mul_val, hx, Ext.fin_mul]
  apply round_vanish
  rw [abs_mul]
  have h1 : |q| ≤ (2 : ℚ) ^ (-540 : ℤ) := by
    refine h.trans ?_
    have h2 : (m : ℚ) ≤ 2 ^ 25 := by exact_mod_cast hm
    have h3 : (0 : ℚ) < faintQ := by unfold faintQ; positivity
    refine (mul_le_mul_of_nonneg_right h2 h3.le).trans (le_of_eq ?_)
    rw [faintQ, ← zpow_natCast, ← zpow_add₀ (by norm_num)]
    norm_num
  refine (mul_le_mul h1 h1 (abs_nonneg _) (by positivity)).trans (le_of_eq ?_)
  rw [← zpow_add₀ (by norm_num)]
  norm_num

/-- a tracker of `k` faint labels whose sums are at most `m` units -/
structure FaintTrk (t k m : ℕ) (tr : Tracker B64) : Prop where
  count : tr.numberOfLabels.val = .fin k
  shape : tr.metrics.Shape t
  sums : ∀ j < t, ∃ q, (tr.metrics.sumOfLabels.getD j F64.zero).val = .fin q ∧ |q| ≤ m * faintQ
  squares : ∀ j < t, (tr.metrics.sumOfSquaredLabels.getD j F64.zero).val = .fin 0
  means : k ≠ 0 → tr.metrics.meanOfLabels = tr.metrics.sumOfLabels.map (fun s => s /. tr.numberOfLabels)

theorem faint_getD {l : List B64} (h : ∀ x ∈ l, Faint x) {j : ℕ} (hj : j < l.length) :
    ∃ q, (l.getD j F64.zero).val = .fin q ∧ |q| ≤ faintQ := Faint.iff.mp (h _ (entry_mem hj))

theorem faint_sq_val {l : List B64} (h : ∀ x ∈ l, Faint x) {j : ℕ} (hj : j < l.length) :
    (l.getD j F64.zero *. l.getD j F64.zero).val = .fin 0 := by
  obtain ⟨q, h1, h2⟩ := faint_getD h hj
  exact faint_square h1 (m := 1) (by norm_num) (by simpa using h2)

theorem updLeft_faint {t k m : ℕ} {tr : Tracker B64} {l : List B64} (h : FaintTrk t k m tr) (hk : k < 2 ^ 53) (hm : m < 2 ^ 26)
    (hl : l.length = t) (hf : ∀ x ∈ l, Faint x) : FaintTrk t (k + 1) (m + 1) (updLeft tr l) := by
  refine ⟨count_succ h.count hk, updMetrics_shape h.shape hl, ?_, ?_, fun _ => rfl⟩
  · intro j hj
    simp only [updLeft, updMetrics]
    rw [zipWith_getD_of (a := F64.zero) (b := F64.zero) (by rw [h.shape.sums]; exact hj) (by omega)]
    obtain ⟨q, h1, h2⟩ := h.sums j hj
    obtain ⟨r, h3, h4⟩ := faint_getD hf (j := j) (by omega)
    rw [add_val, h1, h3, Ext.fin_add]
    refine round_faint (by omega) ((abs_add_le _ _).trans ?_)
    push_cast
    linarith
  · intro j hj
    simp only [updLeft, updMetrics]
    rw [zipWith_getD_of (a := F64.zero) (b := F64.zero) (by rw [h.shape.squares]; exact hj) (by omega), add_val, h.squares j hj,
      faint_sq_val hf (by omega), Ext.fin_add, add_zero, roundE_zero]

theorem updRight_faint {t k m : ℕ} {tr : Tracker B64} {l : List B64} (h : FaintTrk t (k + 1) m tr) (hk : k < 2 ^ 53) (hm : m < 2 ^ 26)
    (hl : l.length = t) (hf : ∀ x ∈ l, Faint x) : FaintTrk t k (m + 1) (updRight tr l) := by
  refine ⟨count_pred h.count hk, updMetrics_shape h.shape hl, ?_, ?_, fun _ => rfl⟩
  · intro j hj
    simp only [updRight, updMetrics]
    rw [zipWith_getD_of (a := F64.zero) (b := F64.zero) (by rw [h.shape.sums]; exact hj) (by omega)]
    obtain ⟨q, h1, h2⟩ := h.sums j hj
    obtain ⟨r, h3, h4⟩ := faint_getD hf (j := j) (by omega)
    rw [sub_val, h1, h3, Ext.fin_sub]
    refine round_faint (by omega) ((abs_sub _ _).trans ?_)
    push_cast
    linarith
  · intro j hj
    simp only [updRight, updMetrics]
    rw [zipWith_getD_of (a := F64.zero) (b := F64.zero) (by rw [h.shape.squares]; exact hj) (by omega), sub_val, h.squares j hj,
      faint_sq_val hf (by omega), Ext.fin_sub, sub_zero, roundE_zero]

theorem leftStart_faint (t : ℕ) : FaintTrk t 0 0 (leftStart t) := by
  refine ⟨by simp [leftStart], leftStart_shape t, ?_, ?_, fun h => absurd rfl h⟩
  · intro j hj
    exact ⟨0, by simp [leftStart, hj], by simp⟩
  · intro j hj
    simp [leftStart, hj]

theorem metricsOf_faint {labels : List (List B64)} {t : ℕ} (hlen : ∀ l ∈ labels, l.length = t) (hf : ∀ l ∈ labels, ∀ x ∈ l, Faint x)
    (hn : labels.length ≤ 2 ^ 24) : FaintTrk t labels.length labels.length (rightStart labels.length (metricsOf labels t)) := by
  have key : ∀ (labels : List (List B64)) (k : ℕ) (tr : Tracker B64), FaintTrk t k k tr → (∀ l ∈ labels, l.length = t) →
      (∀ l ∈ labels, ∀ x ∈ l, Faint x) → k + labels.length ≤ 2 ^ 24 →
      FaintTrk t (k + labels.length) (k + labels.length) (labels.foldl updLeft tr) := by
    intro labels
    induction labels with
    | nil => intro k tr h _ _ _; exact h
    | cons l labels ih =>
      intro k tr h hlen hf hk
      simp only [List.length_cons] at hk
      have := ih (k + 1) (updLeft tr l) (updLeft_faint h (by omega) (by omega) (hlen l (by simp)) (hf l (by simp)))
        (fun l' hl' => hlen l' (by simp [hl'])) (fun l' hl' => hf l' (by simp [hl'])) (by omega)
      rw [List.foldl_cons, List.length_cons]
      simpa [Nat.add_assoc, Nat.add_comm 1] using this
  have h := key labels 0 _ (leftStart_faint t) hlen hf (by omega)
  simp only [Nat.zero_add] at h
  have hs := sumVecs_foldl labels t
  refine ⟨?_, (getLabelMetrics_ok hlen).2, ?_, ?_, fun _ => rfl⟩
  · have := roundE_nat (n := labels.length) (by omega)
    simpa [rightStart] using this
  · intro j hj
    simpa [rightStart, metricsOf, hs] using h.sums j hj
  · intro j hj
    simpa [rightStart, metricsOf, hs] using h.squares j hj

theorem varVec_faint {t k m : ℕ} {tr : Tracker B64} (h : FaintTrk t k m tr) (hk0 : k ≠ 0) (hm : m ≤ 2 ^ 25) :
    (varVec tr.metrics tr.numberOfLabels).length = t ∧ ∀ x ∈ varVec tr.metrics tr.numberOfLabels, x.val = .fin 0 := by
  have hlen : (varVec tr.metrics tr.numberOfLabels).length = t := Shape.varVec_length h.shape _
  refine ⟨hlen, ?_⟩
  intro x hx
  obtain ⟨j, hj, rfl⟩ := List.getElem_of_mem hx
  rw [hlen] at hj
  have e : (varVec tr.metrics tr.numberOfLabels)[j] = (varVec tr.metrics tr.numberOfLabels).getD j F64.zero := by
    simp [List.getD, hlen, hj]
  have hkq : (k : ℚ) ≠ 0 := by exact_mod_cast hk0
  have hk1 : (1 : ℚ) ≤ k := by exact_mod_cast Nat.one_le_iff_ne_zero.mpr hk0
  have hc0 : tr.numberOfLabels.val ≠ .fin 0 := by
    rw [h.count]
    intro h0
    simp only [Ext.fin.injEq] at h0
    exact hkq h0
  obtain ⟨q, h1, h2⟩ := h.sums j hj
  have hmean : ∃ v, (tr.metrics.meanOfLabels.getD j F64.zero).val = .fin v ∧ |v| ≤ m * faintQ := by
    have e2 : tr.metrics.meanOfLabels.getD j F64.zero = tr.metrics.sumOfLabels.getD j F64.zero /. tr.numberOfLabels := by
      rw [h.means hk0]
      simp [List.getD, show j < tr.metrics.sumOfLabels.length by rw [h.shape.sums]; exact hj]
    rw [e2, div_val _ _ hc0, h1, h.count, Ext.fin_div _ _ hkq]
    refine round_faint (by omega) ?_
    rw [abs_div, Nat.abs_cast]
    refine le_trans ?_ h2
    exact div_le_self (abs_nonneg _) hk1
  obtain ⟨v, h3, h4⟩ := hmean
  rw [e, varVec_getD h.shape _ hj, calculateVariance, div_val _ _ hc0, sub_val, h.squares j hj, mul_val, faint_square h3 hm h4, h.count,
    Ext.fin_mul, mul_zero, roundE_zero, Ext.fin_sub, sub_zero, roundE_zero, Ext.fin_div _ _ hkq, zero_div, roundE_zero]

theorem splitLoss_faint {t k1 k2 m1 m2 : ℕ} {left right : Tracker B64} (hl : FaintTrk t k1 m1 left) (hr : FaintTrk t k2 m2 right) (h1 : k1 ≠ 0)
    (h2 : k2 ≠ 0) (hm1 : m1 ≤ 2 ^ 25) (hm2 : m2 ≤ 2 ^ 25) (hk : k1 + k2 ≤ 2 ^ 53) : (splitLoss left right).val = .fin 0 := by
  apply fsum_zeros
  intro x hx
  have htot : (left.numberOfLabels +. right.numberOfLabels).val = .fin ((k1 + k2 : ℕ) : ℚ) := by
    rw [add_val, hl.count, hr.count, Ext.fin_add]
    have := roundE_nat (n := k1 + k2) (by omega)
    push_cast at this ⊢
    exact this
  obtain ⟨w1, _, hw1⟩ := weight_val hl.count htot (by omega) (by omega)
  obtain ⟨w2, _, hw2⟩ := weight_val hr.count htot (by omega) (by omega)
  obtain ⟨j, hj, rfl⟩ := List.getElem_of_mem hx
  rw [List.getElem_zipWith]
  have e1 := (varVec_faint hl h1 hm1).2 _ (List.getElem_mem (l := varVec left.metrics left.numberOfLabels) (n := j) (by simp only [List.length_zipWith] at hj; omega))
  have e2 := (varVec_faint hr h2 hm2).2 _ (List.getElem_mem (l := varVec right.metrics right.numberOfLabels) (n := j) (by simp only [List.length_zipWith] at hj; omega))
  rw [add_val, mul_val, mul_val, e1, e2, hw1, hw2, Ext.fin_mul, Ext.fin_mul, mul_zero, mul_zero, roundE_zero, Ext.fin_add, add_zero, roundE_zero]

theorem splitOf_faint {d : DataSet B64} {c t : ℕ} (h : d.WF c t) (hn : d.labels.length ≤ 2 ^ 24) (hf : ∀ l ∈ d.labels, ∀ x ∈ l, Faint x) :
    splitOf d t = { gain := F64.zero, question := { column := 0, value := F64.zero } } := by
  have hpos : d.labels.length ≠ 0 := by simpa using h.labels_ne
  have hr := metricsOf_faint h.label_len hf hn
  have hT : (totalVariance d.labels t).val = .fin 0 := fsum_zeros (varVec_faint hr hpos (by omega)).2
  refine splitOf_inv h (PL := fun k => FaintTrk t k k) (PR := fun k => FaintTrk t k (2 * d.labels.length - k))
    (Lab := fun l => l.length = t ∧ ∀ x ∈ l, Faint x) (Q := fun x => x.val = .fin 0) (fun l hl => ⟨h.label_len l hl, hf l hl⟩) ?_ ?_ ?_ ?_ ?_ ?_
  · intro k tr l htr hl hk
    exact updLeft_faint htr (by omega) (by omega) hl.1 hl.2
  · intro k tr l htr hl hk
    have := updRight_faint htr (by omega) (by omega) hl.1 hl.2
    rwa [show 2 * d.labels.length - (k + 1) + 1 = 2 * d.labels.length - k by omega] at this
  · intro k1 k2 l r hl hr h1 h2 hk
    exact splitLoss_faint hl hr h1 h2 (by omega) (by omega) (by omega)
  · exact leftStart_faint t
  · rwa [show 2 * d.labels.length - d.labels.length = d.labels.length by omega]
  · intro x hx
    rw [lt_val, sub_val, hT]
    rcases hx with hx | rfl
    · rw [hx, Ext.fin_sub, sub_self, roundE_zero, zero_val]
      rfl
    · rw [infinity_val, zero_val]
      rfl

end Verif
