import Verif.Lemmas.NearScan
import Verif.Lemmas.TreeFacts
/-!
# Rounding errors of the split search: the chosen split
-/

set_option linter.unusedSectionVars false

namespace Verif

open B64 LawfulOrder

variable [B64Env]

/-! ## the exact data set -/

theorem isNaN_map {l : List B64} (h : ∀ x ∈ l, isNaN x = false) : ∀ x ∈ l.map B64.val, isNaN x = false := by
  intro x hx
  obtain ⟨y, hy, rfl⟩ := List.mem_map.mp hx
  rw [← isNaN_val]; exact h y hy

theorem column_val (rows : List (List B64)) (j : ℕ) : (column rows j).map B64.val = column (rows.map (List.map B64.val)) j := by
  simp only [column, List.map_map]
  apply List.map_congr_left
  intro r _
  simp only [Function.comp, List.getD, List.getElem?_map]
  cases r[j]? with
  | none => exact zero_val
  | some x => rfl

theorem DataSet.WF.exact {d : DataSet B64} {c t : ℕ} (h : d.WF c t) : d.exact.WF c t := by
  refine ⟨by simpa [DataSet.exact] using h.rows_ne, ?_, by simpa [DataSet.exact] using h.label_count, ?_, ?_, ?_, h.cols_u32⟩
  · intro row hr
    obtain ⟨r, hr', rfl⟩ := List.mem_map.mp hr
    simpa using h.row_len r hr'
  · intro row hr
    obtain ⟨r, hr', rfl⟩ := List.mem_map.mp hr
    simpa using h.label_len r hr'
  · simp only [DataSet.exact, h.cols, columnsOf, List.map_map]
    apply List.map_congr_left
    intro j _
    exact column_val _ j
  · intro row hr x hx
    obtain ⟨r, hr', rfl⟩ := List.mem_map.mp hr
    obtain ⟨y, hy, rfl⟩ := List.mem_map.mp hx
    rw [← isNaN_val]; exact h.no_nan r hr' y hy

/-! ## the best cut of a column -/

/-- the error of a loss -/
def lossErr (n t : ℕ) (B : ℚ) : ℚ := (202 * n + 2 * t) * (t * (u * (B * B)))

section
variable {t : ℕ} {B : ℚ} {ls : List (List ℚ)} (hS : Scale ls.length B) (ht1 : 1 ≤ t) (ht2 : t ≤ 2 ^ 24)
include hS ht1 ht2

theorem colResult_near {labels : List (List B64)} {col : List B64} (hl : labels.map (List.map B64.val) = lift ls)
    (h : ls.length = col.length) (ht : ∀ v ∈ ls, v.length = t) (hne : ls ≠ []) (hB : AtMost B ls) (hn : ∀ x ∈ col, isNaN x = false) :
    (colResult labels t col = { loss := F64.infinity, thresholdValue := F64.zero } ∧ ∀ x ∈ col.map B64.val, ∀ y ∈ col.map B64.val, (x ==. y) = true) ∨
    ∃ i v m L, 0 < i ∧ i < ls.length ∧ ((eseq ls (col.map B64.val)).map Prod.fst)[i]? = some (B64.val v) ∧
      ((eseq ls (col.map B64.val)).map Prod.fst)[0]? = some m ∧
      (colResult labels t col).thresholdValue = v ∧ (colResult labels t col).loss.val = .fin L ∧
      |L - candAt t (eseq ls (col.map B64.val)) i| ≤ lossErr ls.length t B ∧
      ∀ k w, ((eseq ls (col.map B64.val)).map Prod.fst)[k]? = some w → (w ==. m) = false →
        L ≤ candAt t (eseq ls (col.map B64.val)) k + lossErr ls.length t B := by
  have hn1 : 1 ≤ ls.length := List.length_pos_of_ne_nil hne
  obtain ⟨hv1, hv2⟩ := seqOf_val hl col
  have hlab : labels.length = ls.length := by
    have := congrArg List.length hl
    simpa [lift] using this
  have h' : ls.length = (col.map B64.val).length := by simpa using h
  have hn' := isNaN_map hn
  set s := eseq ls (col.map B64.val) with hsdef
  have hplen : (labs s).length = ls.length := (labs_perm h').length_eq
  have hslen : s.length = ls.length := by simpa [labs] using hplen
  have hst : ∀ v ∈ labs s, v.length = t := fun v hv => ht v ((labs_perm h').mem_iff.mp hv)
  have hsB : AtMost B (labs s) := fun v hv => hB v ((labs_perm h').mem_iff.mp hv)
  -- the starting tracker, read in sorted order
  have hr : TrkNear t ls.length B ls.length (rightStart labels.length (metricsOf labels t)) (labs s) := by
    have := metricsOf_near hS hl ht hB le_rfl
    have htg : ∀ j, (target (labs s) j).Perm (target ls j) := fun j => (labs_perm h').map _
    refine ⟨by rw [this.count, hplen], this.shape, ?_, ?_, fun _ => this.means hne⟩
    · intro j hj
      rw [(htg j).sum_eq]; exact this.sums j hj
    · intro j hj
      rw [((htg j).map _).sum_eq]; exact this.squares j hj
  obtain ⟨x0, hx0⟩ : ∃ x0, ((seqOf labels col).map Prod.fst)[0]? = some x0 := by
    have hlen0 : ((seqOf labels col).map Prod.fst).length = ls.length := by
      have := congrArg List.length hv1
      simpa [hslen] using this
    exact ⟨((seqOf labels col).map Prod.fst)[0]'(by omega), by rw [List.getElem?_eq_getElem]⟩
  have hvals : ∀ i : ℕ, (s.map Prod.fst)[i]? = (((seqOf labels col).map Prod.fst)[i]?).map B64.val := by
    intro i
    rw [← hv1, List.getElem?_map]
  have hm : (s.map Prod.fst)[0]? = some x0.val := by rw [hvals, hx0]; rfl
  have hnn : ∀ p ∈ s, NN p.1 := eseq_mem_nan h' hn'
  have hx0n : NN x0.val := by
    obtain ⟨p, hp, he⟩ := List.mem_map.mp (List.mem_of_getElem? hm)
    rw [← he]; exact hnn p hp
  have hhead : ((seqOf labels col).map Prod.fst).headD F64.zero = x0 := by
    rw [List.headD_eq_head?_getD, List.head?_eq_getElem?, hx0]; rfl
  obtain ⟨hc1, hc2⟩ := cands_near hS ht1 ht2 hn1 (prev := x0) (seqOf labels col) (labs s) [] (leftStart t)
    (rightStart labels.length (metricsOf labels t)) hv2 hst hsB (by simpa using hplen) (leftStart_near hS t) (by simpa using hr) (by
      intro _ v hv
      rw [hx0] at hv
      simp only [Option.some.injEq] at hv
      subst hv
      rw [eq_val]; exact hx0n)
  simp only [List.nil_append] at hc1 hc2
  have hres : colResult labels t col = (cands x0 (leftStart t) (rightStart labels.length (metricsOf labels t)) (seqOf labels col)).foldl
      pickBest { loss := F64.infinity, thresholdValue := F64.zero } := by
    rw [colResult, scanResult, hhead]
  rw [hres]
  have hNN : ∀ c ∈ cands x0 (leftStart t) (rightStart labels.length (metricsOf labels t)) (seqOf labels col), NN c.loss := by
    intro c hc
    obtain ⟨_, _, _, _, _, L, hL, _⟩ := hc1 c hc
    have : (c.loss ==. c.loss) = true := by rw [eq_val, hL]; simp
    exact this
  by_cases hemp : ∃ (i : ℕ) (v : B64), ((seqOf labels col).map Prod.fst)[i]? = some v ∧ (v ==. x0) = false
  · right
    obtain ⟨i0, v0, hi0, hv0⟩ := hemp
    obtain ⟨b0, hb0, _, L0, hL0, _⟩ := hc2 i0 v0 hi0 hv0
    have hle := foldl_pickBest_le (b := { loss := F64.infinity, thresholdValue := F64.zero }) LawfulOrder.inf_eq hNN
    rcases foldl_pickBest_mem (l := cands x0 (leftStart t) (rightStart labels.length (metricsOf labels t)) (seqOf labels col))
      (b := { loss := F64.infinity, thresholdValue := F64.zero }) with hmem | hmem
    · exfalso
      have := hle.2 b0 hb0
      rw [hmem, le_val, hL0] at this
      exact Bool.noConfusion (show false = true from this)
    · obtain ⟨i, v, h1, h2, h3, L, hL, hLe⟩ := hc1 _ hmem
      have hi : i < ls.length := by
        have := (List.getElem?_eq_some_iff.mp h1).1
        have e := congrArg List.length hv1
        simp only [List.length_map] at this e
        omega
      have hpos : 0 < i := by
        rcases Nat.eq_zero_or_pos i with rfl | hp
        · rw [hx0] at h1
          simp only [Option.some.injEq] at h1
          subst h1
          rw [eq_val, show (x0.val ==. x0.val) = true from hx0n] at h2
          simp at h2
        · exact hp
      refine ⟨i, v, x0.val, L, hpos, hi, by rw [hvals, h1]; rfl, hm, h3, hL, hLe, ?_⟩
      intro k w hk hw
      rw [hvals] at hk
      obtain ⟨w', hw', rfl⟩ := Option.map_eq_some_iff.mp hk
      obtain ⟨b, hb, _, L', hL', hLe'⟩ := hc2 k w' hw' (by rw [eq_val]; exact hw)
      have := hle.2 b hb
      rw [le_val, hL, hL'] at this
      simp only [Ext.fin_le, decide_eq_true_eq] at this
      have := (abs_le.mp hLe').2
      change L ≤ splitVar t ((labs s).take k) ((labs s).drop k) + (202 * ls.length + 2 * t) * (t * (u * (B * B)))
      linarith
  · left
    have hnil : cands x0 (leftStart t) (rightStart labels.length (metricsOf labels t)) (seqOf labels col) = [] := by
      apply List.eq_nil_iff_forall_not_mem.mpr
      intro b hb
      obtain ⟨i, v, h1, h2, _⟩ := hc1 b hb
      exact hemp ⟨i, v, h1, h2⟩
    rw [hnil]
    refine ⟨rfl, ?_⟩
    have hall : ∀ x ∈ col.map B64.val, (x ==. x0.val) = true := by
      intro x hx
      obtain ⟨i, hi⟩ := List.getElem?_of_mem hx
      have hil : i < ls.length := by
        have := (List.getElem?_eq_some_iff.mp hi).1
        omega
      have hmem : (x, ls[i]) ∈ (col.map B64.val).zip ls := by
        apply List.mem_of_getElem? (i := i)
        rw [List.getElem?_zip_eq_some]
        exact ⟨hi, by simp [hil]⟩
      have hmem' := List.mem_map_of_mem (f := Prod.fst) ((eseq_perm h').mem_iff.mpr hmem)
      obtain ⟨k, hk⟩ := List.getElem?_of_mem hmem'
      have hk : (s.map Prod.fst)[k]? = some x := hk
      rw [hvals] at hk
      obtain ⟨w, hw, rfl⟩ := Option.map_eq_some_iff.mp hk
      cases hx : (w ==. x0) with
      | true => rfl
      | false => exact absurd ⟨k, w, hw, hx⟩ hemp
    intro x hx y hy
    exact eq_trans' (hall x hx) (eq_symm' (hall y hy))

/-- the gain, from the computed total and the computed loss -/
theorem gain_near (hn1 : 1 ≤ ls.length) {T L : B64} {tv b x : ℚ}
    (hT : Near T tv ((88 * ls.length + 2 * t) * (t * (u * (B * B))))) (hL : L.val = .fin b) (hb : |b - x| ≤ lossErr ls.length t B)
    (hx0 : 0 ≤ x) (hxt : x ≤ tv) (htv : tv ≤ t * (B * B)) :
    ∃ g, (T -. L).val = .fin g ∧ |g - (tv - b)| ≤ splitTolerance ls.length t B - lossErr ls.length t B := by
  have hB := hS.pos
  have hu := u_pos
  have hul := u_le
  have hC0 : 0 < B * B := mul_pos hB hB
  have hn0 : (1 : ℚ) ≤ ls.length := by exact_mod_cast hn1
  have ht1q : (1 : ℚ) ≤ t := by exact_mod_cast ht1
  have htq : (t : ℚ) ≤ 16777216 := by norm_num at ht2; exact_mod_cast ht2
  have hnq := hS.rows_q
  have hts := hS.tiny_sq
  have hbs := hS.sq_big
  have ht := tiny_pos
  norm_num at hts hbs
  set n : ℚ := (ls.length : ℚ) with hndef
  set p : ℚ := t * (u * (B * B)) with hp
  have htC0 : 0 < (t : ℚ) * (B * B) := by positivity
  have hp0 : 0 < p := by positivity
  have huC : u * (B * B) ≤ p := by rw [hp]; nlinarith [mul_pos hu hC0]
  have hlin : n * u ≤ 1 / 1048576 := by
    have := mul_le_mul_of_nonneg_right hnq hu.le
    refine this.trans ?_
    unfold u; norm_num
  have hlit : t * u ≤ 1 / 1048576 := by
    have := mul_le_mul_of_nonneg_right htq hu.le
    refine this.trans ?_
    unfold u; norm_num
  have hnp : n * p ≤ 1 / 1048576 * (t * (B * B)) := by
    have : n * p = n * u * (t * (B * B)) := by rw [hp]; ring
    rw [this]; exact mul_le_mul_of_nonneg_right hlin htC0.le
  have htp : t * p ≤ 1 / 1048576 * (t * (B * B)) := by
    have : t * p = t * u * (t * (B * B)) := by rw [hp]; ring
    rw [this]; exact mul_le_mul_of_nonneg_right hlit htC0.le
  have hnp1 : p ≤ n * p := by nlinarith
  have htp1 : p ≤ t * p := by nlinarith
  unfold lossErr at hb ⊢
  rw [← hp, ← hndef] at hb ⊢
  have hb' : |b| ≤ 2 * (t * (B * B)) := by
    have := abs_near hb
    rw [abs_of_nonneg hx0] at this
    nlinarith
  have hdiff : |tv - b| ≤ 2 * (t * (B * B)) := by
    have h1 : tv - b = (tv - x) - (b - x) := by ring
    rw [h1]
    have h2 := abs_sub (tv - x) (b - x)
    rw [abs_of_nonneg (by linarith : 0 ≤ tv - x)] at h2
    nlinarith
  have htC : (t : ℚ) * (B * B) ≤ 16777216 * (B * B) := mul_le_mul_of_nonneg_right htq hC0.le
  obtain ⟨g, hg, hge⟩ := hT.sub (Near.exact hL) (by nlinarith)
  refine ⟨g, hg, hge.trans ?_⟩
  have hd : splitTolerance ls.length t B = 512 * (n + t) * p := by
    unfold splitTolerance
    rw [hp, ← hndef]; unfold u; ring
  rw [hd]
  have g1 : u * |tv - b| ≤ 2 * p := by
    have := mul_le_mul_of_nonneg_left hdiff hu.le
    have e : u * (2 * (t * (B * B))) = 2 * p := by rw [hp]; ring
    linarith
  have g2 : u * ((88 * n + 2 * t) * p + 0) ≤ 1 / 1024 * ((88 * n + 2 * t) * p) := by
    rw [add_zero]
    exact mul_le_mul_of_nonneg_right hul (by positivity)
  have htiny : tiny ≤ p := by linarith
  nlinarith

theorem totalVar_le (hB : AtMost B ls) : totalVar t ls ≤ t * (B * B) := by
  have h1 : ∀ x ∈ (List.range t).map (fun j => varOf (target ls j)), x ≤ B * B := by
    intro x hx
    obtain ⟨j, _, rfl⟩ := List.mem_map.mp hx
    exact varOf_le (hB.target hS.pos.le j)
  have h2 := List.sum_le_card_nsmul _ _ h1
  rw [List.length_map, List.length_range, nsmul_eq_mul] at h2
  exact h2

omit hS ht1 ht2 in
theorem candAt_bounds {col : List (Ext ℚ)} (h : ls.length = col.length) {i : ℕ} (hi : i < ls.length) :
    0 ≤ candAt t (eseq ls col) i ∧ candAt t (eseq ls col) i ≤ totalVar t ls := by
  have hp := labs_perm h
  constructor
  · exact div_nonneg (add_nonneg (mul_nonneg (Nat.cast_nonneg _) (totalVar_nonneg _ _))
      (mul_nonneg (Nat.cast_nonneg _) (totalVar_nonneg _ _))) (add_nonneg (Nat.cast_nonneg _) (Nat.cast_nonneg _))
  · have := splitVar_le (t := t) (a := (labs (eseq ls col)).take i) (b := (labs (eseq ls col)).drop i) (by
      intro h0
      have := congrArg List.length h0
      rw [List.length_drop, hp.length_eq] at this
      simp at this; omega)
    rwa [List.take_append_drop, totalVar_perm hp] at this

/-- what the split search finds, up to rounding -/
theorem splitOf_near {d : DataSet B64} {c : ℕ} (h : d.WF c t) (hls : d.exact.labels = lift ls) (hB : AtMost B ls) :
    ∃ g : ℚ, (splitOf d t).gain.val = .fin g ∧ 0 ≤ g ∧ g ≤ totalVar t ls + splitTolerance ls.length t B ∧
      (∀ q : Question (Ext ℚ), q.column < c → varianceReduction t d.exact.featureRows ls q ≤ g + splitTolerance ls.length t B) ∧
      (g = 0 ∨ ∃ i, ((eseq ls (column d.exact.featureRows (splitOf d t).question.column)).map Prod.fst)[i]? =
            some (splitOf d t).question.value.val ∧ (splitOf d t).question.column < c ∧ 0 < g ∧
          |g - (totalVar t ls - candAt t (eseq ls (column d.exact.featureRows (splitOf d t).question.column)) i)| ≤
            splitTolerance ls.length t B) := by
  have hE := h.exact
  have hlen : ls.length = d.exact.featureRows.length := by rw [← hE.label_count, hls, lift_length]
  have hlen' : ls.length = d.featureRows.length := by rw [hlen]; simp [DataSet.exact]
  have hne : ls ≠ [] := by
    rintro rfl
    exact hE.rows_ne (List.eq_nil_of_length_eq_zero hlen.symm)
  have hn1 : 1 ≤ ls.length := List.length_pos_of_ne_nil hne
  have ht : ∀ v ∈ ls, v.length = t := by
    intro v hv
    have := hE.label_len (liftV v) (by rw [hls]; exact mem_lift.mpr ⟨v, hv, rfl⟩)
    rwa [liftV_length] at this
  have hcl : ∀ j, ls.length = (column d.featureRows j).length := fun j => by rw [column_length, hlen']
  have hcv : ∀ j, (column d.featureRows j).map B64.val = column d.exact.featureRows j := fun j => column_val _ j
  have hcl' : ∀ j, ls.length = (column d.exact.featureRows j).length := fun j => by rw [column_length, hlen]
  have hδ : 0 ≤ splitTolerance ls.length t B := by unfold splitTolerance; positivity
  have hε : 0 ≤ lossErr ls.length t B := by
    have := u_pos
    have := hS.pos
    unfold lossErr; positivity
  have htl := totalVar_le hS ht1 ht2 hB
  have htot : Near (totalVariance d.labels t) (totalVar t ls) ((88 * ls.length + 2 * t) * (t * (u * (B * B)))) := by
    have hr := metricsOf_near hS hls ht hB le_rfl
    have := totalVar_near hS ht1 ht2 hn1 hr (by omega) rfl hB
    exact this
  have hcols : d.featureColumns.map (colResult d.labels t) =
      (List.range c).map (fun j => colResult d.labels t (column d.featureRows j)) := by
    rw [h.cols, columnsOf, List.map_map]; rfl
  -- every achievable reduction is bounded by the gain of its column
  have hach : ∀ q : Question (Ext ℚ), q.column < c → 0 < varianceReduction t d.exact.featureRows ls q →
      ∃ g, (gainOf (totalVariance d.labels t) (colResult d.labels t (column d.featureRows q.column))).val = .fin g ∧
        varianceReduction t d.exact.featureRows ls q ≤ g + splitTolerance ls.length t B := by
    intro q hq hpos
    have hside := sides_column (ls := ls) hE.row_len hq
    have hs1 : noLabels d.exact.featureRows ls q ≠ [] := by
      intro h0
      rw [reduction_one_side hlen hne (.inl h0)] at hpos; exact lt_irrefl _ hpos
    have hs2 : yesLabels d.exact.featureRows ls q ≠ [] := by
      intro h0
      rw [reduction_one_side hlen hne (.inr h0)] at hpos; exact lt_irrefl _ hpos
    have hred := reduction_eq t d.exact.featureRows ls q
    rw [hside.1, hside.2] at hred
    rw [hside.2] at hs1
    rw [hside.1] at hs2
    obtain ⟨k, w, m, hk, hm, hw, hcand⟩ := separating_candidate (t := t) (hcl' q.column) (hE.col_nan hq) hs1 hs2
    rcases colResult_near hS ht1 ht2 hls (hcl q.column) ht hne hB (h.col_nan hq) with
      ⟨_, hconst⟩ | ⟨i, v, m', L, _, hi, _, hm', _, hL, hLe, hmin⟩
    · exfalso
      have hmem : ∀ x ∈ (eseq ls (column d.exact.featureRows q.column)).map Prod.fst, x ∈ column d.exact.featureRows q.column := by
        intro x hx
        obtain ⟨p, hp, rfl⟩ := List.mem_map.mp hx
        exact (List.of_mem_zip ((eseq_perm (hcl' q.column)).mem_iff.mp hp)).1
      rw [hcv] at hconst
      rw [hconst w (hmem w (List.mem_of_getElem? hk)) m (hmem m (List.mem_of_getElem? hm))] at hw
      simp at hw
    · rw [hcv] at hm' hmin hLe
      rw [hm] at hm'
      simp only [Option.some.injEq] at hm'
      subst hm'
      obtain ⟨hx0, hxt⟩ := candAt_bounds (t := t) (hcl' q.column) hi
      obtain ⟨g, hg, hge⟩ := gain_near hS ht1 ht2 hn1 htot hL hLe hx0 hxt htl
      refine ⟨g, hg, ?_⟩
      rw [hred, ← hcand]
      have h1 := hmin k w hk hw
      have h2 := (abs_le.mp hge).1
      linarith
  have hget : ∀ j, j < c → colResult d.labels t (column d.featureRows j) ∈ d.featureColumns.map (colResult d.labels t) := by
    intro j hj
    rw [hcols]
    exact List.mem_map.mpr ⟨j, List.mem_range.mpr hj, rfl⟩
  unfold splitOf
  rcases bestColumn_spec (totalVariance d.labels t) (d.featureColumns.map (colResult d.labels t)) with
    ⟨h1, h2⟩ | ⟨i, r, h0, h1, h2, h3, _⟩
  · rw [h1]
    refine ⟨0, zero_val, le_rfl, add_nonneg (totalVar_nonneg _ _) hδ, ?_, .inl rfl⟩
    intro q hq
    by_contra hpos
    rw [_root_.not_le] at hpos
    obtain ⟨g, hg, hle⟩ := hach q hq (by linarith)
    have := h2 _ (hget q.column hq)
    rw [lt_val, hg, zero_val] at this
    simp at this
    linarith
  · rw [h1]
    rw [hcols] at h0
    simp only [List.getElem?_map, Option.map_eq_some_iff] at h0
    obtain ⟨j, hj, hr⟩ := h0
    have hic : i < c := by
      have := (List.getElem?_eq_some_iff.mp hj).1
      simpa using this
    have hij : j = i := by
      rw [List.getElem?_range hic] at hj; simpa using hj.symm
    subst hij
    rcases colResult_near hS ht1 ht2 hls (hcl j) ht hne hB (h.col_nan hic) with
      ⟨hinf, _⟩ | ⟨i, v, m, L, hi0, hil, hv, _, hthr, hL, hLe, _⟩
    · exfalso
      obtain ⟨T, hT, _⟩ := htot
      rw [← hr, hinf, gainOf, lt_val, sub_val, hT] at h2
      rw [show (BestThresholdResult.mk (F64.infinity : B64) F64.zero).loss.val = .posInf from rfl, zero_val] at h2
      exact Bool.noConfusion (show false = true from h2)
    · rw [hcv] at hv hLe
      rw [hr] at hthr hL
      obtain ⟨hx0, hxt⟩ := candAt_bounds (t := t) (hcl' j) hil
      obtain ⟨g, hg, hge⟩ := gain_near hS ht1 ht2 hn1 htot hL hLe hx0 hxt htl
      have hg' : (gainOf (totalVariance d.labels t) r).val = .fin g := hg
      rw [lt_val, hg', zero_val] at h2
      simp only [Ext.fin_lt, decide_eq_true_eq] at h2
      have hdist : |g - (totalVar t ls - candAt t (eseq ls (column d.exact.featureRows j)) i)| ≤ splitTolerance ls.length t B := by
        have a1 := abs_le.mp hge
        have a2 := abs_le.mp hLe
        rw [abs_le]
        constructor <;> linarith [a1.1, a1.2, a2.1, a2.2]
      refine ⟨g, hg', h2.le, ?_, ?_, .inr ⟨i, by rw [hv, hthr], hic, h2, hdist⟩⟩
      · have := (abs_le.mp hdist).2
        linarith
      · intro q hq
        by_contra hpos
        rw [_root_.not_le] at hpos
        obtain ⟨g', hg'', hle⟩ := hach q hq (by linarith)
        have := h3 _ (hget q.column hq)
        rw [lt_val, hg', hg''] at this
        simp at this
        linarith

end

end Verif
