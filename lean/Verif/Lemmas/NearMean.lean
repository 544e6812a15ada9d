import Verif.Spec.NearMean
import Verif.Lemmas.NearPerm
import Verif.Props.NearFit
import Mathlib.Algebra.Order.BigOperators.Group.List
/-!
# Integer labels: averages are rounded once
-/

set_option linter.unusedSectionVars false

namespace Verif

open B64 LawfulOrder

variable [B64Env]

theorem number_fin {x : B64} {q : ℚ} (h : x.val = .fin q) : x.number = q := by simp [B64.number, h]

theorem target_exact {labels : List (List B64)} {ls : List (List ℚ)} (hl : labels.map (List.map B64.val) = lift ls) (j : ℕ) :
    target ls j = labels.map (fun l => (l.getD j F64.zero).number) := by
  induction labels generalizing ls with
  | nil =>
    cases ls with
    | nil => rfl
    | cons v ls => simp [lift] at hl
  | cons l labels ih =>
    cases ls with
    | nil => simp [lift] at hl
    | cons v ls =>
      simp only [lift, List.map_cons, List.cons.injEq] at hl
      have h2 := ih (ls := ls) hl.2
      rw [target_cons', List.map_cons, h2, number_fin (valV_getD hl.1 j)]

theorem avgVec_rounded {t b : ℕ} {labels : List (List B64)} (hI : IntLabels b labels) (hf : ExactSums labels.length b)
    (hw : ∀ l ∈ labels, l.length = t) (hne : labels ≠ []) : RoundedMeans t labels (avgVec t labels) := by
  obtain ⟨ls, hls, hB, hz⟩ := hI.exact
  have hlen : ls.length = labels.length := by
    have := congrArg List.length hls
    simpa [lift] using this.symm
  have hne' : ls ≠ [] := by
    rintro rfl
    exact hne (List.eq_nil_of_length_eq_zero hlen.symm)
  have hX : Exactly t labels.length b ls := by
    refine ⟨?_, hz, hB, hlen.le⟩
    intro v hv
    have : liftV v ∈ labels.map (List.map B64.val) := by rw [hls]; exact mem_lift.mpr ⟨v, hv, rfl⟩
    obtain ⟨l, hl, e⟩ := List.mem_map.mp this
    rw [← valV_length e, hw l hl]
  have f1 := foldl_sum hf labels ls [] _ leftStart_sum hls (by simpa using hX)
  rw [List.append_nil] at f1
  have hcnt : (F64.ofNat labels.length : B64).val = .fin (ls.length : ℚ) := by
    rw [ofNat_val, roundE_nat hf.rows, hlen]
  have hq : (ls.length : ℚ) ≠ 0 := length_cast_ne hne'
  have hc0 : (F64.ofNat labels.length : B64).val ≠ .fin 0 := by
    rw [hcnt]
    intro h0
    simp only [Ext.fin.injEq] at h0
    exact hq h0
  have hvl : (vecSum t labels).length = t := by rw [vecSum_foldl]; exact f1.shape.sums
  rw [RoundedMeans, avgVec]
  apply List.ext_getElem
  · simp [hvl]
  · intro j hj hj'
    simp only [List.length_map] at hj
    simp only [List.getElem_map, List.getElem_range]
    have e1 := f1.sums j (by omega)
    rw [← vecSum_foldl] at e1
    simp only [List.getD, List.getElem?_eq_getElem hj, Option.getD_some] at e1
    rw [div_val _ _ hc0, e1, hcnt, Ext.fin_div _ _ hq, exactMean, ← target_exact hls, meanOf, target_length]

theorem RoundedMeans.entry {t : ℕ} {labels : List (List B64)} {a : List B64} (h : RoundedMeans t labels a) {j : ℕ} (hj : j < t) :
    (a.getD j F64.zero).val = roundE (.fin (exactMean labels j)) := by
  have := congrArg (fun x => x[j]?) h
  simp only [List.getElem?_map, List.getElem?_range hj, Option.map_some] at this
  obtain ⟨x, hx, e⟩ := Option.map_eq_some_iff.mp this
  rw [List.getD, hx]
  exact e

theorem RoundedMeans.length {t : ℕ} {labels : List (List B64)} {a : List B64} (h : RoundedMeans t labels a) : a.length = t := by
  have := congrArg List.length h
  simpa using this

theorem mean_le_some {xs : List ℚ} (hne : xs ≠ []) : ∃ x ∈ xs, x ≤ meanOf xs := by
  have h0 : (xs.length : ℚ) ≠ 0 := length_cast_ne hne
  obtain ⟨x, hx, h⟩ := List.exists_le_of_sum_le hne (fun x => x) (fun _ => meanOf xs) (by
    rw [List.map_id', List.map_const', List.sum_replicate, nsmul_eq_mul, meanOf, mul_div_cancel₀ _ h0])
  exact ⟨x, hx, h⟩

theorem some_le_mean {xs : List ℚ} (hne : xs ≠ []) : ∃ x ∈ xs, meanOf xs ≤ x := by
  have h0 : (xs.length : ℚ) ≠ 0 := length_cast_ne hne
  obtain ⟨x, hx, h⟩ := List.exists_le_of_sum_le hne (fun _ => meanOf xs) (fun x => x) (by
    rw [List.map_id', List.map_const', List.sum_replicate, nsmul_eq_mul, meanOf, mul_div_cancel₀ _ h0])
  exact ⟨x, hx, h⟩

/-- correctly rounded means stay between the labels -/
theorem RoundedMeans.between {t b : ℕ} {labels : List (List B64)} {a : List B64} (h : RoundedMeans t labels a) (hI : IntLabels b labels)
    (hne : labels ≠ []) : BetweenLabels t labels a := by
  intro j hj
  have hne' : labels.map (fun l => (l.getD j F64.zero).number) ≠ [] := by simpa using hne
  have hfin : ∀ l ∈ labels, (l.getD j F64.zero).val = .fin ((l.getD j F64.zero).number) := by
    intro l hl
    obtain ⟨v, hv, _⟩ := hI l hl
    have := ofInts_getD hv j
    rw [number_fin this, this]
  have hr : ∀ x : B64, roundE x.val = x.val := fun x => x.rounded
  obtain ⟨x, hx, h1⟩ := mean_le_some hne'
  obtain ⟨y, hy, h2⟩ := some_le_mean hne'
  obtain ⟨l, hl, rfl⟩ := List.mem_map.mp hx
  obtain ⟨l', hl', rfl⟩ := List.mem_map.mp hy
  refine ⟨l, hl, l', hl', ?_, ?_⟩
  · rw [le_val, h.entry hj, ← hr (l.getD j F64.zero)]
    refine roundE_mono ?_
    rw [hfin l hl]
    simpa [exactMean] using h1
  · rw [le_val, h.entry hj, ← hr (l'.getD j F64.zero)]
    refine roundE_mono ?_
    rw [hfin l' hl']
    simpa [exactMean] using h2

theorem roundE_roundQ {q v : ℚ} (h : roundE (.fin q) = .fin v) : roundQ q = v := by
  simp only [roundE] at h
  split_ifs at h
  exact Ext.fin.inj h

theorem exactMean_abs {b : ℕ} {labels : List (List B64)} (hI : IntLabels b labels) (hne : labels ≠ []) (j : ℕ) : |exactMean labels j| ≤ b := by
  have hne' : labels.map (fun l => (l.getD j F64.zero).number) ≠ [] := by simpa using hne
  have hb : ∀ l ∈ labels, |(l.getD j F64.zero).number| ≤ b := by
    intro l hl
    obtain ⟨v, hv, hvb⟩ := hI l hl
    rw [number_fin (ofInts_getD hv j)]
    have : |v.getD j 0| ≤ (b : ℤ) := by
      rw [List.getD]
      cases hg : v[j]? with
      | none => simp
      | some z => exact hvb z (List.mem_of_getElem? hg)
    exact_mod_cast this
  obtain ⟨x, hx, h1⟩ := mean_le_some hne'
  obtain ⟨y, hy, h2⟩ := some_le_mean hne'
  obtain ⟨l, hl, rfl⟩ := List.mem_map.mp hx
  obtain ⟨l', hl', rfl⟩ := List.mem_map.mp hy
  exact abs_le.mpr ⟨(abs_le.mp (hb l hl)).1.trans h1, h2.trans (abs_le.mp (hb l' hl')).2⟩

/-- no binary64 number is nearer to the mean -/
theorem RoundedMeans.nearest {t b : ℕ} {labels : List (List B64)} {a : List B64} (h : RoundedMeans t labels a) (hI : IntLabels b labels)
    (hf : ExactSums labels.length b) (hne : labels ≠ []) : NearestMeans t labels a := by
  refine ⟨h.length, fun j hj => ?_⟩
  have hb : (b : ℚ) ≤ big := by
    have h1 := hf.square
    have h2 := List.length_pos_of_ne_nil hne
    have h3 : b ≤ 2 ^ 53 := by nlinarith [hf.bound]
    have h4 : (b : ℚ) ≤ 2 ^ 53 := by exact_mod_cast h3
    exact h4.trans (big_ge (by norm_num))
  obtain ⟨v, hv, _⟩ := roundE_err ((exactMean_abs hI hne j).trans hb)
  have he := h.entry hj
  rw [hv] at he
  refine ⟨v, he, fun y r hy => ?_⟩
  have hr := y.rounded
  rw [hy] at hr
  have := roundQ_nearest (exactMean labels j) ((roundQ_fixed_iff r).mp (roundE_roundQ hr))
  rwa [roundE_roundQ hv] at this

/-! ## one-hot labels -/

theorem sum_hot {t : ℕ} {labels : List (List B64)} (hot : ∀ l ∈ labels, ∃ k < t, l = oneHot t k) {j : ℕ} (hj : j < t) :
    (labels.map (fun l => (l.getD j F64.zero).number)).sum = (classCount labels j : ℚ) := by
  induction labels with
  | nil => simp [classCount]
  | cons l labels ih =>
    have h2 := ih (fun l hl => hot l (by simp [hl]))
    obtain ⟨k, hk, rfl⟩ := hot l (by simp)
    have hone : (F64.one : B64).number = (1 : ℚ) := number_fin one_val
    have hzero : (F64.zero : B64).number = (0 : ℚ) := number_fin zero_val
    rw [List.map_cons, List.sum_cons, h2, classCount, classCount, List.countP_cons, List.getD, oneHot_at hj]
    by_cases hjk : j = k
    · simp only [hjk, if_true, Option.getD_some]
      rw [hone, show ((F64.one : B64) ==. F64.one) = true by rw [eq_val, one_val]; simp]
      push_cast
      rw [if_pos rfl, add_comm]
    · simp only [hjk, if_false, Option.getD_some]
      rw [hzero, show ((F64.zero : B64) ==. F64.one) = false by rw [eq_val, one_val, zero_val]; simp]
      simp

theorem exactMean_hot {t : ℕ} {labels : List (List B64)} (hot : ∀ l ∈ labels, ∃ k < t, l = oneHot t k) {j : ℕ} (hj : j < t) :
    exactMean labels j = (classCount labels j : ℚ) / labels.length := by
  rw [exactMean, meanOf, sum_hot hot hj, List.length_map]

theorem classCount_le (labels : List (List B64)) (j : ℕ) : classCount labels j ≤ labels.length := List.countP_le_length

/-- different shares of up to `2^51` are different after rounding -/
theorem share_lt {p q n : ℕ} (hpq : p < q) (hq : q ≤ n) (hn : n ≤ 2 ^ 51) :
    (roundE (.fin ((p : ℚ) / n)) <. roundE (.fin ((q : ℚ) / n))) = true := by
  have hn0 : (0 : ℚ) < n := by exact_mod_cast (by omega : 0 < n)
  have hbd : ∀ k : ℕ, k ≤ n → |(k : ℚ) / n| ≤ 1 := by
    intro k hk
    rw [abs_of_nonneg (by positivity), div_le_one hn0]
    exact_mod_cast hk
  have hbig : (1 : ℚ) ≤ big := by
    have := big_ge (show 1 ≤ 1000 by norm_num)
    linarith
  obtain ⟨v, hv, e1⟩ := roundE_err ((hbd p (by omega)).trans hbig)
  obtain ⟨w, hw, e2⟩ := roundE_err ((hbd q hq).trans hbig)
  rw [hv, hw]
  have hgap : (1 : ℚ) / 2 ^ 51 ≤ (q : ℚ) / n - (p : ℚ) / n := by
    rw [← sub_div, div_le_div_iff₀ (by positivity) hn0]
    have h1 : (1 : ℚ) ≤ (q : ℚ) - p := by
      have : (p : ℚ) + 1 ≤ q := by exact_mod_cast hpq
      linarith
    have h2 : (n : ℚ) ≤ 2 ^ 51 := by exact_mod_cast hn
    nlinarith
  have hp := mul_le_mul_of_nonneg_left (hbd p (by omega)) u_pos.le
  have hq' := mul_le_mul_of_nonneg_left (hbd q hq) u_pos.le
  have hu : u = 1 / 2 ^ 53 := rfl
  have ht : tiny ≤ 1 / 2 ^ 54 := one_div_pow_le_one_div_pow_of_le (by norm_num) (by norm_num)
  have a1 := (abs_le.mp e1).2
  have a2 := (abs_le.mp e2).1
  have h3 : (1 : ℚ) / 2 ^ 51 = 4 * (1 / 2 ^ 53) := by norm_num
  have h4 : (1 : ℚ) / 2 ^ 54 = 1 / 2 * (1 / 2 ^ 53) := by norm_num
  rw [h4, ← hu] at ht
  rw [h3, ← hu] at hgap
  have h5 := u_pos
  have : v < w := by linarith
  simpa using this

theorem RoundedMeans.shares {t : ℕ} {labels : List (List B64)} {a : List B64} (h : RoundedMeans t labels a) (hne : labels ≠ [])
    (hot : ∀ l ∈ labels, ∃ k < t, l = oneHot t k) (hn : labels.length ≤ 2 ^ 51) : Shares t labels a := by
  have hn0 : (labels.length : ℚ) ≠ 0 := length_cast_ne hne
  have hval : ∀ j < t, (a.getD j F64.zero).val = roundE (.fin ((classCount labels j : ℚ) / labels.length)) := by
    intro j hj
    rw [h.entry hj, exactMean_hot hot hj]
  have h0 : roundE (.fin (((0 : ℕ) : ℚ) / labels.length)) = .fin 0 := by rw [Nat.cast_zero, zero_div, roundE_zero]
  have h1 : roundE (.fin (((labels.length : ℕ) : ℚ) / labels.length)) = .fin 1 := by
    rw [div_self hn0]
    have := roundE_nat (n := 1) (by norm_num)
    simpa using this
  have hlt : ∀ p q : ℕ, p < q → q ≤ labels.length →
      roundE (.fin ((p : ℚ) / labels.length)) ≠ roundE (.fin ((q : ℚ) / labels.length)) := by
    intro p q hpq hq he
    have := share_lt hpq hq hn
    rw [he] at this
    exact absurd this (by rw [lt_irrefl']; simp)
  have hle := classCount_le labels
  refine ⟨?_, ?_, ?_⟩
  · intro i hi j hj
    rw [lt_val, hval i hi, hval j hj]
    constructor
    · intro hlt'
      by_contra hc
      rcases Nat.eq_or_lt_of_le (Nat.le_of_not_lt hc) with he | hl
      · rw [he] at hlt'
        rw [lt_irrefl'] at hlt'
        cases hlt'
      · have := share_lt hl (hle i) hn
        have h3 := lt_trans' this hlt'
        rw [lt_irrefl'] at h3
        cases h3
    · intro hc
      exact share_lt hc (hle j) hn
  · intro j hj
    rw [hval j hj]
    constructor
    · intro he
      by_contra hc
      exact hlt 0 _ (Nat.pos_of_ne_zero hc) (hle j) (by rw [h0, he])
    · intro he
      rw [he, h0]
  · intro j hj
    rw [hval j hj]
    constructor
    · intro he
      by_contra hc
      exact hlt _ labels.length (Nat.lt_of_le_of_ne (hle j) hc) le_rfl (by rw [h1, he])
    · intro he
      rw [he, h1]

end Verif
