import Verif.Num.Error
import Verif.Model.Boost
/-!
# Class probabilities with rounding
-/

set_option linter.unusedSectionVars false

namespace Verif

namespace B64

/-- one rounding of a number in the normal range has a relative error of at most `u` -/
theorem roundQ_err_normal {q : ℚ} (h : (2 : ℚ) ^ (-1022 : ℤ) ≤ |q|) : |roundQ q - q| ≤ u * |q| := by
  have hp := pow2_pos (unitExp q)
  have hq : q ≠ 0 := by
    rintro rfl
    have : (0 : ℚ) < (2 : ℚ) ^ (-1022 : ℤ) := by positivity
    rw [abs_zero] at h
    linarith
  have h1 : |roundQ q - q| ≤ pow2 (unitExp q) / 2 := by
    have h := nearestEven_near (q / pow2 (unitExp q))
    have : roundQ q - q = ((nearestEven (q / pow2 (unitExp q)) : ℚ) - q / pow2 (unitExp q)) * pow2 (unitExp q) := by
      rw [roundQ]; field_simp
    rw [this, abs_mul, abs_of_pos hp]
    nlinarith
  obtain ⟨h2, h3⟩ := binade_spec hq
  have h4 : (-1022 : ℤ) < binade q + 1 := two_zpow_lt.mp (h.trans_lt h3)
  have h5 : unitExp q = binade q - 52 := max_eq_left (by omega)
  rw [h5, pow2_eq] at h1
  have h6 : (2 : ℚ) ^ (binade q - 52) / 2 = u * (2 : ℚ) ^ binade q := by
    rw [u_zpow, ← zpow_add₀ (by norm_num : (2 : ℚ) ≠ 0), div_eq_iff (by norm_num)]
    rw [← zpow_add_one₀ (by norm_num : (2 : ℚ) ≠ 0)]
    congr 1
    ring
  rw [h6] at h1
  exact h1.trans (mul_le_mul_of_nonneg_left h2 u_pos.le)

/-- a sum of representable numbers has a relative error of at most `u`: tiny sums are exact -/
theorem roundQ_err_sum {a b : ℚ} (ha : Representable a) (hb : Representable b) : |roundQ (a + b) - (a + b)| ≤ u * |a + b| := by
  rcases _root_.le_or_gt ((2 : ℚ) ^ (-1022 : ℤ)) |a + b| with h | h
  · exact roundQ_err_normal h
  · have hex : roundQ (a + b) = a + b := by
      rcases eq_or_ne (a + b) 0 with h0 | h0
      · rw [h0, roundQ_zero]
      obtain ⟨m, e, _, he, rfl⟩ := ha
      obtain ⟨m', e', _, he', rfl⟩ := hb
      obtain ⟨n, hn⟩ := multiple_of_le (m := m) he
      obtain ⟨n', hn'⟩ := multiple_of_le (m := m') he'
      have h1 := (binade_spec h0).1.trans_lt h
      rw [two_zpow_lt] at h1
      have h2 : unitExp ((m : ℚ) * (2 : ℚ) ^ e + (m' : ℚ) * (2 : ℚ) ^ e') = -1074 := max_eq_right (by omega)
      apply roundQ_multiple (n := n + n')
      rw [h2, hn, hn']
      push_cast
      ring
    rw [hex, sub_self, abs_zero]
    exact mul_nonneg u_pos.le (abs_nonneg _)

theorem representable_of_val {x : B64} {a : ℚ} (h : x.val = .fin a) : Representable a := by
  have := x.rounded
  rw [h] at this
  rw [← roundQ_fixed_iff]
  simp only [roundE] at this
  split_ifs at this
  exact Ext.fin.inj this

theorem roundE_of_roundQ {q r : ℚ} (h : roundQ q = r) (h1 : |r| < limit) : roundE (.fin q) = .fin r := by
  rw [abs_lt] at h1
  rw [roundE, h, if_neg (_root_.not_le.mpr h1.2), if_neg (_root_.not_le.mpr h1.1)]

theorem roundQ_of_roundE {q r : ℚ} (h : roundE (.fin q) = .fin r) : roundQ q = r := by
  simp only [roundE] at h
  split_ifs at h
  exact Ext.fin.inj h

theorem one_lt_limit : (1 : ℚ) < limit := by
  have := limit_big
  have : (1 : ℚ) < 2 ^ 53 := by norm_num
  linarith

/-- `1 + 2^-53` is half-way between 1 and the next number, and rounds to 1 -/
theorem roundQ_tie : roundQ (1 + u) = 1 := by
  have : (1 + u : ℚ) = 9007199254740993 / 9007199254740992 := by unfold u; norm_num
  rw [this]
  decide +kernel

variable [B64Env]

theorem fin_of_le {x y : Ext ℚ} {a : ℚ} (h0 : (.fin 0 <=. x) = true) (h : (x <=. y) = true) (hy : y = .fin a) : ∃ b, x = .fin b ∧ 0 ≤ b ∧ b ≤ a := by
  subst hy
  cases x with
  | fin b => exact ⟨b, rfl, by simpa [F64.le, Ext.le] using h0, by simpa [F64.le, Ext.le] using h⟩
  | _ => simp [F64.le, Ext.le] at h0 h

theorem zero_le_iff (x : B64) : (F64.zero <=. x) = (.fin 0 <=. x.val) := by
  rw [le_val, zero_val]

/-- adding a number that is not negative does not make a sum smaller, nor less than that number -/
theorem le_add_of_nonneg {x y : B64} (hx : (F64.zero <=. x) = true) (hy : (F64.zero <=. y) = true) :
    (x <=. (x +. y)) = true ∧ (y <=. (x +. y)) = true ∧ (F64.zero <=. (x +. y)) = true := by
  rw [zero_le_iff] at hx hy ⊢
  rw [le_val, le_val, add_val]
  have key : (x.val <=. (x.val +. y.val)) = true ∧ (y.val <=. (x.val +. y.val)) = true := by
    revert hx hy
    generalize x.val = a
    generalize y.val = b
    intro hx hy
    cases a <;> cases b <;> simp_all [F64.le, Ext.le, F64.add, Ext.add]
  have h1 := roundE_mono key.1
  have h2 := roundE_mono key.2
  rw [x.rounded] at h1
  rw [y.rounded] at h2
  exact ⟨h1, h2, LawfulOrder.le_trans hx h1⟩

/-- a running sum of numbers that are not negative -/
theorem foldl_nonneg (es : List B64) (acc : B64) (hacc : (F64.zero <=. acc) = true) (hes : ∀ e ∈ es, (F64.zero <=. e) = true) :
    (F64.zero <=. es.foldl F64.add acc) = true ∧ (acc <=. es.foldl F64.add acc) = true ∧
      ∀ e ∈ es, (e <=. es.foldl F64.add acc) = true := by
  induction es generalizing acc with
  | nil =>
    refine ⟨hacc, ?_, by simp⟩
    exact (LawfulOrder.eq_iff.mp (LawfulOrder.le_nan hacc).2).1
  | cons e es ih =>
    obtain ⟨h1, h2, h3⟩ := le_add_of_nonneg hacc (hes e (by simp))
    obtain ⟨h4, h5, h6⟩ := ih (acc +. e) h3 (fun e he => hes e (by simp [he]))
    refine ⟨h4, LawfulOrder.le_trans h1 h5, ?_⟩
    intro e' he'
    rcases List.mem_cons.mp he' with rfl | he'
    · exact LawfulOrder.le_trans h2 h5
    · exact h6 e' he'

theorem sumStart_nonneg : (F64.zero <=. (F64.sumStart : B64)) = true := by
  rw [zero_le_iff, sumStart_val]
  simp [F64.le, Ext.le]

/-- the rounded reciprocal of a number from `2^-1022` to `2^1022` -/
theorem reciprocal {x : B64} {s : ℚ} (hs : x.val = .fin s) (h1 : (2 : ℚ) ^ (-1022 : ℤ) ≤ s) (h2 : s ≤ (2 : ℚ) ^ (1022 : ℤ)) :
    ∃ r, (F64.one /. x : B64).val = .fin r ∧ 0 < r ∧ |r - 1 / s| ≤ u * (1 / s) := by
  have hs0 : 0 < s := _root_.lt_of_lt_of_le (by positivity) h1
  have h3 : (2 : ℚ) ^ (-1022 : ℤ) ≤ 1 / s := by
    rw [zpow_neg, ← one_div]
    exact one_div_le_one_div_of_le hs0 h2
  have h4 : 1 / s ≤ (2 : ℚ) ^ (1022 : ℤ) := by
    have := one_div_le_one_div_of_le (zpow_pos (by norm_num) _) h1
    rwa [zpow_neg, ← one_div, one_div_one_div] at this
  have hpos : 0 < 1 / s := by positivity
  have he := roundQ_err_normal (q := 1 / s) (h3.trans (abs_of_pos hpos).ge)
  rw [abs_of_pos hpos] at he
  have hu := u_pos
  have hul := u_le
  have h5 : u * (1 / s) ≤ 1 / 1024 * (1 / s) := mul_le_mul_of_nonneg_right hul hpos.le
  obtain ⟨h6, h7⟩ := abs_le.mp he
  refine ⟨roundQ (1 / s), ?_, by linarith, he⟩
  rw [div_val _ _ (by rw [hs]; simpa using hs0.ne'), hs, one_val, Ext.fin_div _ _ hs0.ne']
  apply roundE_of_roundQ rfl
  rw [abs_of_pos (by linarith), limit, pow2_eq]
  have h8 : (2 : ℚ) ^ (1024 : ℤ) = 4 * (2 : ℚ) ^ (1022 : ℤ) := by
    rw [show (1024 : ℤ) = 1022 + 2 by norm_num, zpow_add₀ (by norm_num)]
    norm_num [mul_comm]
  have h9 : (0 : ℚ) < (2 : ℚ) ^ (1022 : ℤ) := by positivity
  rw [h8]
  clear h1 h2 h3 h8 hs
  generalize (2 : ℚ) ^ (1022 : ℤ) = P at *
  linarith

/-- an exponential times the rounded reciprocal of a total that is not smaller -/
theorem share {x y : B64} {a r s : ℚ} (hx : x.val = .fin a) (hy : y.val = .fin r) (ha : 0 ≤ a) (has : a ≤ s) (hs : 0 < s) (hr : 0 < r)
    (he : |r - 1 / s| ≤ u * (1 / s)) : ∃ p, (x *. y).val = .fin p ∧ p = roundQ (a * r) ∧ 0 ≤ p ∧ p ≤ 1 := by
  have h1 : r ≤ (1 + u) / s := by
    obtain ⟨_, h⟩ := abs_le.mp he
    have : (1 + u) / s = 1 / s + u * (1 / s) := by ring
    linarith
  have h2 : a * r ≤ 1 + u := by
    calc a * r ≤ s * ((1 + u) / s) := mul_le_mul has h1 hr.le hs.le
      _ = 1 + u := by field_simp
  have h3 : roundQ (a * r) ≤ 1 := by
    rw [← roundQ_tie]
    exact roundQ_mono h2
  have h4 : 0 ≤ roundQ (a * r) := roundQ_nonneg (mul_nonneg ha hr.le)
  refine ⟨roundQ (a * r), ?_, rfl, h4, h3⟩
  rw [mul_val, hx, hy, Ext.fin_mul]
  apply roundE_of_roundQ rfl
  rw [abs_of_nonneg h4]
  exact h3.trans_lt one_lt_limit

/-- the sum of numbers that are not negative, with its relative error -/
theorem foldl_err (es : List B64) (as : List ℚ) (hes : es.map val = as.map Ext.fin) (has : ∀ a ∈ as, 0 ≤ a) (acc : B64) (s0 A0 : ℚ)
    (k : ℕ) (hacc : acc.val = .fin s0) (hs0 : 0 ≤ s0) (hA0 : 0 ≤ A0) (he : |s0 - A0| ≤ k * (2 * u) * A0) (hk : ((k + as.length : ℕ) : ℚ) * (2 * u) ≤ 1)
    (s : ℚ) (hs : (es.foldl F64.add acc).val = .fin s) : |s - (A0 + as.sum)| ≤ ((k + as.length : ℕ) : ℚ) * (2 * u) * (A0 + as.sum) := by
  induction es generalizing as acc s0 A0 k with
  | nil =>
    cases as with
    | nil =>
      rw [List.foldl_nil, hacc] at hs
      cases hs
      simpa using he
    | cons a as => simp at hes
  | cons e es ih =>
    cases as with
    | nil => simp at hes
    | cons a as =>
      simp only [List.map_cons, List.cons.injEq] at hes
      obtain ⟨hea, hes⟩ := hes
      have ha : 0 ≤ a := has a (by simp)
      rw [List.foldl_cons] at hs
      have hu := u_pos
      -- no overflow, as the final sum is finite
      have hn : ∀ e ∈ es, (F64.zero <=. e) = true := by
        intro e he'
        have : e.val ∈ as.map Ext.fin := by rw [← hes]; exact List.mem_map_of_mem he'
        obtain ⟨b, hb, hb2⟩ := List.mem_map.mp this
        rw [zero_le_iff, ← hb2]
        simpa [F64.le, Ext.le] using has b (by simp [hb])
      have hacc0 : (F64.zero <=. acc) = true := by rw [zero_le_iff, hacc]; simpa [F64.le, Ext.le] using hs0
      have he0 : (F64.zero <=. e) = true := by rw [zero_le_iff, hea]; simpa [F64.le, Ext.le] using ha
      have h1 := (le_add_of_nonneg hacc0 he0).2.2
      obtain ⟨_, h2, _⟩ := foldl_nonneg es (acc +. e) h1 hn
      rw [zero_le_iff] at h1
      rw [le_val] at h2
      obtain ⟨b, hb, hb0, _⟩ := fin_of_le h1 h2 hs
      have hb2 := hb
      rw [add_val, hacc, hea, Ext.fin_add] at hb2
      have hb3 := roundQ_of_roundE hb2
      have herr := roundQ_err_sum (representable_of_val hacc) (representable_of_val hea)
      rw [hb3, abs_of_nonneg (by linarith : 0 ≤ s0 + a)] at herr
      have hk1 : (k : ℚ) * (2 * u) ≤ 1 := by
        refine le_trans (mul_le_mul_of_nonneg_right ?_ (by linarith)) hk
        exact_mod_cast Nat.le_add_right _ _
      have h3 : s0 ≤ 2 * A0 := by
        obtain ⟨_, h⟩ := abs_le.mp he
        have := mul_le_mul_of_nonneg_right hk1 hA0
        linarith
      have h4 : |b - (A0 + a)| ≤ ((k + 1 : ℕ) : ℚ) * (2 * u) * (A0 + a) := by
        have h5 : |b - (A0 + a)| ≤ |b - (s0 + a)| + |s0 - A0| := by
          have : b - (A0 + a) = (b - (s0 + a)) + (s0 - A0) := by ring
          rw [this]
          exact abs_add_le _ _
        have h6 : u * (s0 + a) ≤ u * (2 * (A0 + a)) := mul_le_mul_of_nonneg_left (by linarith) hu.le
        have h7 : (k : ℚ) * (2 * u) * A0 ≤ (k : ℚ) * (2 * u) * (A0 + a) := mul_le_mul_of_nonneg_left (by linarith) (by positivity)
        push_cast
        have h8 : ((k : ℚ) + 1) * (2 * u) * (A0 + a) = (k : ℚ) * (2 * u) * (A0 + a) + u * (2 * (A0 + a)) := by ring
        rw [h8]
        linarith
      have h9 := ih as hes (fun x hx => has x (by simp [hx])) (acc +. e) b (A0 + a) (k + 1) hb hb0 (by linarith) h4
        (by rw [List.length_cons] at hk; rw [show k + 1 + as.length = k + (as.length + 1) by omega]; exact hk) hs
      rw [List.sum_cons, List.length_cons, ← add_assoc, show k + (as.length + 1) = k + 1 + as.length by omega]
      exact h9

/-- the arithmetic behind the accuracy of a probability -/
theorem share_core {n A a s r p t U : ℚ} (hU : 0 < U) (hn : 0 ≤ n) (hnU : 4 * n * (1 + 2 * n) * U ≤ 1) (hU1 : U ≤ 1 / 1024) (hA : 0 < A)
    (ha : 0 ≤ a) (hs : 0 < s) (hsA : |s - A| ≤ n * (2 * U) * A) (hr : |r - 1 / s| ≤ U * (1 / s)) (hp : |p - a * r| ≤ U * (a * r) + t) : |p - a / A| ≤ (n + 2) * (2 * U) * (a / A) + t := by
  have hnn : 4 * n * U ≤ 1 := by
    have : 0 ≤ 8 * (n * n) * U := by positivity
    nlinarith
  have hq0 : 0 < A / s := div_pos hA hs
  have hq : A / s ≤ 1 + 4 * n * U := by
    rw [div_le_iff₀ hs]
    obtain ⟨h, _⟩ := abs_le.mp hsA
    have h1 : (1 - 2 * n * U) * A ≤ s := by linarith
    have h2 : 0 ≤ n * U := by positivity
    have h3 : (1 + 4 * n * U) * ((1 - 2 * n * U) * A) ≤ (1 + 4 * n * U) * s := mul_le_mul_of_nonneg_left h1 (by linarith)
    have h4 : A ≤ (1 + 4 * n * U) * ((1 - 2 * n * U) * A) := by
      have : (1 + 4 * n * U) * ((1 - 2 * n * U) * A) = A + 2 * (n * U) * (1 - 4 * n * U) * A := by ring
      rw [this]
      have : 0 ≤ 2 * (n * U) * (1 - 4 * n * U) * A := by
        apply mul_nonneg (mul_nonneg (by linarith) (by linarith)) hA.le
      linarith
    linarith
  have hD : |r * A - 1| ≤ (2 * n + 2) * U := by
    have e1 : r * A - 1 = (r - 1 / s) * A + (A - s) / s := by field_simp; ring
    have e2 : |(r - 1 / s) * A| ≤ U * (A / s) := by
      rw [abs_mul, abs_of_pos hA]
      calc |r - 1 / s| * A ≤ U * (1 / s) * A := mul_le_mul_of_nonneg_right hr hA.le
        _ = U * (A / s) := by ring
    have e3 : |(A - s) / s| ≤ n * (2 * U) * (A / s) := by
      rw [abs_div, abs_of_pos hs, abs_sub_comm, div_le_iff₀ hs]
      calc |s - A| ≤ n * (2 * U) * A := hsA
        _ = n * (2 * U) * (A / s) * s := by field_simp
    rw [e1]
    refine (abs_add_le _ _).trans ?_
    have e4 : U * (A / s) + n * (2 * U) * (A / s) = (1 + 2 * n) * U * (A / s) := by ring
    have e5 : (1 + 2 * n) * U * (A / s) ≤ (1 + 2 * n) * U * (1 + 4 * n * U) := mul_le_mul_of_nonneg_left hq (by positivity)
    have e6 : (1 + 2 * n) * U * (1 + 4 * n * U) = (1 + 2 * n) * U + U * (4 * n * (1 + 2 * n) * U) := by ring
    have e7 : U * (4 * n * (1 + 2 * n) * U) ≤ U * 1 := mul_le_mul_of_nonneg_left hnU hU.le
    linarith
  have hz : 0 ≤ a / A := by positivity
  have h1 : |a * r - a / A| ≤ (2 * n + 2) * U * (a / A) := by
    have : a * r - a / A = (r * A - 1) * (a / A) := by field_simp
    rw [this, abs_mul, abs_of_nonneg hz]
    exact mul_le_mul_of_nonneg_right hD hz
  have h2 : a * r ≤ 2 * (a / A) := by
    obtain ⟨_, h⟩ := abs_le.mp h1
    have : (2 * n + 2) * U * (a / A) ≤ 1 * (a / A) := mul_le_mul_of_nonneg_right (by linarith) hz
    linarith
  have h3 : |p - a / A| ≤ |p - a * r| + |a * r - a / A| := abs_sub_le _ _ _
  have h4 : U * (a * r) ≤ U * (2 * (a / A)) := mul_le_mul_of_nonneg_left h2 hU.le
  have h5 : (n + 2) * (2 * U) * (a / A) = U * (2 * (a / A)) + (2 * n + 2) * U * (a / A) := by ring
  rw [h5]
  linarith

end B64

end Verif
