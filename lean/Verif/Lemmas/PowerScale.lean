import Verif.Spec.PowerScale
import Verif.Lemmas.Range
import Verif.Lemmas.Ensemble
import Verif.Lemmas.Relabel
/-!
# Labels multiplied by a power of two

Away from the ends of the range, multiplying by a power of two commutes with rounding.
-/

set_option linter.unusedSectionVars false

namespace Verif

open B64 LawfulOrder

namespace B64

theorem binade_unique {q : ℚ} {e : ℤ} (hq : q ≠ 0) (h1 : (2 : ℚ) ^ e ≤ |q|) (h2 : |q| < (2 : ℚ) ^ (e + 1)) : binade q = e := by
  obtain ⟨h3, h4⟩ := binade_spec hq
  have a := two_zpow_lt.mp (h1.trans_lt h4)
  have b := two_zpow_lt.mp (h3.trans_lt h2)
  omega

theorem roundQ_scale {q : ℚ} {k : ℤ} (h1 : (2 : ℚ) ^ (-1022 : ℤ) ≤ |q|) (h2 : (2 : ℚ) ^ (-1022 : ℤ) ≤ |(2 : ℚ) ^ k * q|) :
    roundQ ((2 : ℚ) ^ k * q) = (2 : ℚ) ^ k * roundQ q := by
  have hq : q ≠ 0 := by
    rintro rfl
    rw [abs_zero] at h1
    exact absurd h1 (_root_.not_le.mpr (by positivity))
  have hk : (0 : ℚ) < 2 ^ k := by positivity
  have hq2 : (2 : ℚ) ^ k * q ≠ 0 := mul_ne_zero hk.ne' hq
  obtain ⟨b1, b2⟩ := binade_spec hq
  have habs : |(2 : ℚ) ^ k * q| = 2 ^ k * |q| := by rw [abs_mul, abs_of_pos hk]
  have hb : binade ((2 : ℚ) ^ k * q) = binade q + k := by
    apply binade_unique hq2
    · rw [habs, zpow_add₀ (by norm_num), mul_comm]
      exact mul_le_mul_of_nonneg_left b1 hk.le
    · rw [habs, show binade q + k + 1 = binade q + 1 + k by ring, zpow_add₀ (by norm_num) (binade q + 1), mul_comm ((2 : ℚ) ^ (binade q + 1))]
      exact mul_lt_mul_of_pos_left b2 hk
  have l1 : -1022 < binade q + 1 := two_zpow_lt.mp (h1.trans_lt b2)
  have l2 : -1022 < binade ((2 : ℚ) ^ k * q) + 1 := two_zpow_lt.mp (h2.trans_lt (binade_spec hq2).2)
  have u1 : unitExp q = binade q - 52 := max_eq_left (by omega)
  have u2 : unitExp ((2 : ℚ) ^ k * q) = binade q - 52 + k := by
    rw [unitExp, hb, max_eq_left (by omega)]
    ring
  have hp : (0 : ℚ) < 2 ^ (binade q - 52) := by positivity
  have e1 : (2 : ℚ) ^ (binade q - 52 + k) = 2 ^ k * 2 ^ (binade q - 52) := by rw [zpow_add₀ (by norm_num), mul_comm]
  have e2 : (2 : ℚ) ^ k * q / (2 ^ k * 2 ^ (binade q - 52)) = q / 2 ^ (binade q - 52) := mul_div_mul_left _ _ hk.ne'
  rw [roundQ, roundQ, u1, u2, pow2_eq, pow2_eq, e1, e2]
  ring

/-- a multiple of `2^a` -/
def OnGrid (a : ℤ) (q : ℚ) : Prop := ∃ n : ℤ, q = n * (2 : ℚ) ^ a

theorem OnGrid.mono {a b : ℤ} {q : ℚ} (h : OnGrid a q) (hb : b ≤ a) : OnGrid b q := by
  obtain ⟨n, rfl⟩ := h
  exact multiple_of_le hb

theorem OnGrid.add {a : ℤ} {q r : ℚ} (h : OnGrid a q) (h' : OnGrid a r) : OnGrid a (q + r) := by
  obtain ⟨n, rfl⟩ := h
  obtain ⟨m, rfl⟩ := h'
  exact ⟨n + m, by push_cast; ring⟩

theorem OnGrid.sub {a : ℤ} {q r : ℚ} (h : OnGrid a q) (h' : OnGrid a r) : OnGrid a (q - r) := by
  obtain ⟨n, rfl⟩ := h
  obtain ⟨m, rfl⟩ := h'
  exact ⟨n - m, by push_cast; ring⟩

theorem OnGrid.mul {a b : ℤ} {q r : ℚ} (h : OnGrid a q) (h' : OnGrid b r) : OnGrid (a + b) (q * r) := by
  obtain ⟨n, rfl⟩ := h
  obtain ⟨m, rfl⟩ := h'
  exact ⟨n * m, by push_cast; rw [zpow_add₀ (by norm_num)]; ring⟩

theorem OnGrid.low {a : ℤ} {q : ℚ} (h : OnGrid a q) : q = 0 ∨ (2 : ℚ) ^ a ≤ |q| := by
  obtain ⟨n, rfl⟩ := h
  rcases eq_or_ne n 0 with rfl | hn
  · simp
  · right
    have h1 : (1 : ℚ) ≤ |(n : ℚ)| := by exact_mod_cast Int.one_le_abs hn
    have h2 : (0 : ℚ) < 2 ^ a := by positivity
    rw [abs_mul, abs_of_pos h2]
    nlinarith

theorem onGrid_zero (a : ℤ) : OnGrid a 0 := ⟨0, by simp⟩

theorem onGrid_nat (n : ℕ) : OnGrid 0 (n : ℚ) := ⟨n, by simp⟩

theorem Representable.onGrid {a : ℤ} {q : ℚ} (h : Representable q) (hl : q = 0 ∨ (2 : ℚ) ^ a ≤ |q|) : OnGrid (a - 52) q := by
  rcases hl with rfl | hl
  · exact onGrid_zero _
  obtain ⟨m, e, hm, _, rfl⟩ := h
  apply multiple_of_le
  have h1 : |(m : ℚ) * (2 : ℚ) ^ e| < (2 : ℚ) ^ (53 + e) := by
    rw [abs_mul, abs_of_pos (show (0 : ℚ) < (2 : ℚ) ^ e by positivity), zpow_add₀ (by norm_num)]
    apply mul_lt_mul_of_pos_right _ (by positivity)
    have : |(m : ℚ)| < 2 ^ 53 := by exact_mod_cast hm
    exact_mod_cast this
  have := two_zpow_lt.mp (hl.trans_lt h1)
  omega

theorem OnGrid.round {a : ℤ} {q : ℚ} (h : OnGrid a q) : OnGrid a (roundQ q) := by
  rcases le_total (unitExp q) a with hu | hu
  · obtain ⟨n, hn⟩ := h.mono hu
    rw [roundQ_multiple hn]
    exact h
  · have : OnGrid (unitExp q) (roundQ q) := ⟨_, by rw [roundQ, pow2_eq]⟩
    exact this.mono hu

/-- rounding of numbers in range, and of their multiples by `2^k` -/
theorem round_pair {q : ℚ} {k a b : ℤ} {M : ℕ} (hlo : q = 0 ∨ (2 : ℚ) ^ a ≤ |q|) (hb : |q| ≤ M * (2 : ℚ) ^ b) (hM : M < 2 ^ 53)
    (h1 : -1000 ≤ a) (h2 : -1000 ≤ a + k) (h3 : -1000 ≤ b) (h4 : b ≤ 900) (h5 : b + k ≤ 900) :
    roundE (.fin q) = .fin (roundQ q) ∧ roundE (.fin ((2 : ℚ) ^ k * q)) = .fin (2 ^ k * roundQ q) ∧ |roundQ q| ≤ M * (2 : ℚ) ^ b ∧
      (roundQ q = 0 ∨ (2 : ℚ) ^ a ≤ |roundQ q|) := by
  have hk : (0 : ℚ) < 2 ^ k := by positivity
  have hs : roundQ ((2 : ℚ) ^ k * q) = 2 ^ k * roundQ q := by
    rcases hlo with rfl | hlo
    · simp [roundQ_zero]
    · apply roundQ_scale
      · exact (two_zpow_le.mpr (by omega)).trans hlo
      · rw [abs_mul, abs_of_pos hk]
        refine le_trans ?_ (mul_le_mul_of_nonneg_left hlo hk.le)
        rw [← zpow_add₀ (by norm_num)]
        exact two_zpow_le.mpr (by omega)
  have hM' : |(M : ℤ)| < 2 ^ 53 := by
    rw [Nat.abs_cast]
    exact_mod_cast hM
  have hrep : Representable ((M : ℚ) * (2 : ℚ) ^ b) := ⟨M, b, hM', by omega, by simp⟩
  have habs : |roundQ q| ≤ M * (2 : ℚ) ^ b := by
    rw [abs_le] at hb ⊢
    have u1 := roundQ_mono hb.2
    have u2 := roundQ_mono hb.1
    rw [roundQ_representable hrep] at u1
    rw [roundQ_representable hrep.neg] at u2
    exact ⟨u2, u1⟩
  have hlim : ∀ e : ℤ, e ≤ 900 → (M : ℚ) * (2 : ℚ) ^ e < limit := by
    intro e he
    have hMq : (M : ℚ) < 2 ^ 53 := by exact_mod_cast hM
    have hp : (0 : ℚ) < 2 ^ e := by positivity
    have : (2 : ℚ) ^ 53 * 2 ^ e = 2 ^ (53 + e) := by rw [zpow_add₀ (by norm_num)]; norm_cast
    rw [limit, pow2_eq]
    calc (M : ℚ) * 2 ^ e < 2 ^ 53 * 2 ^ e := mul_lt_mul_of_pos_right hMq hp
      _ = 2 ^ (53 + e) := this
      _ ≤ _ := two_zpow_le.mpr (by omega)
  have fit : ∀ v : ℚ, |roundQ v| < limit → roundE (.fin v) = .fin (roundQ v) := by
    intro v hv
    rw [abs_lt] at hv
    rw [roundE, if_neg (_root_.not_le.mpr hv.2), if_neg (_root_.not_le.mpr hv.1)]
  refine ⟨fit q (habs.trans_lt (hlim b h4)), ?_, habs, ?_⟩
  · rw [← hs]
    apply fit
    rw [hs, abs_mul, abs_of_pos hk]
    refine _root_.lt_of_le_of_lt (mul_le_mul_of_nonneg_left habs hk.le) ?_
    have : (2 : ℚ) ^ k * (M * 2 ^ b) = M * 2 ^ (b + k) := by rw [zpow_add₀ (by norm_num)]; ring
    rw [this]
    exact hlim _ h5
  · rcases hlo with rfl | hlo
    · left; exact roundQ_zero
    · right
      have hr := roundQ_representable (representable_pow2 (show -1074 ≤ a by omega))
      rcases le_abs.mp hlo with h | h
      · have := roundQ_mono h
        rw [hr] at this
        exact this.trans (le_abs_self _)
      · have := roundQ_mono h
        rw [hr, roundQ_neg] at this
        exact this.trans (neg_le_abs _)

/-- `y` is `2^k` times `x`, which is a multiple of `2^a` and at most `M * 2^b` in absolute value -/
def Sc (k a : ℤ) (M : ℕ) (b : ℤ) (x y : B64) : Prop :=
  ∃ q : ℚ, x.val = .fin q ∧ y.val = .fin ((2 : ℚ) ^ k * q) ∧ OnGrid a q ∧ |q| ≤ M * (2 : ℚ) ^ b

variable {k k' a a' b b' : ℤ} {M M' : ℕ} {x y x' y' : B64}

theorem Sc.times (h : Sc k a M b x y) : TimesPow k x y := by
  obtain ⟨q, h1, h2, _⟩ := h
  exact ⟨q, h1, h2⟩

theorem Sc.weaken (h : Sc k a M b x y) (ha : a' ≤ a) {e : ℕ} (hM : M ≤ M' * 2 ^ e) (hb : b + e ≤ b') : Sc k a' M' b' x y := by
  obtain ⟨q, h1, h2, h3, h4⟩ := h
  refine ⟨q, h1, h2, h3.mono ha, h4.trans ?_⟩
  have hM' : (M : ℚ) ≤ M' * 2 ^ e := by exact_mod_cast hM
  have hp : (0 : ℚ) < 2 ^ b := by positivity
  calc (M : ℚ) * 2 ^ b ≤ M' * 2 ^ e * 2 ^ b := mul_le_mul_of_nonneg_right hM' hp.le
    _ = M' * 2 ^ (b + e) := by rw [zpow_add₀ (by norm_num), zpow_natCast]; ring
    _ ≤ _ := mul_le_mul_of_nonneg_left (two_zpow_le.mpr hb) (Nat.cast_nonneg _)

variable [B64Env]

theorem Sc.add (h : Sc k a M b x y) (h' : Sc k a M' b x' y') (hM : M + M' < 2 ^ 53) (h1 : -1000 ≤ a) (h2 : -1000 ≤ a + k)
    (h3 : -1000 ≤ b) (h4 : b ≤ 900) (h5 : b + k ≤ 900) : Sc k a (M + M') b (x +. x') (y +. y') := by
  obtain ⟨q, e1, e2, e3, e4⟩ := h
  obtain ⟨r, f1, f2, f3, f4⟩ := h'
  have hg := e3.add f3
  have hbd : |q + r| ≤ (M + M' : ℕ) * (2 : ℚ) ^ b := by
    refine (abs_add_le q r).trans ?_
    push_cast
    rw [add_mul]
    exact add_le_add e4 f4
  obtain ⟨r1, r2, r3, _⟩ := round_pair (k := k) hg.low hbd hM h1 h2 h3 h4 h5
  refine ⟨roundQ (q + r), ?_, ?_, hg.round, r3⟩
  · rw [add_val, e1, f1, Ext.fin_add, r1]
  · rw [add_val, e2, f2, Ext.fin_add, ← mul_add, r2]

theorem Sc.sub (h : Sc k a M b x y) (h' : Sc k a M' b x' y') (hM : M + M' < 2 ^ 53) (h1 : -1000 ≤ a) (h2 : -1000 ≤ a + k)
    (h3 : -1000 ≤ b) (h4 : b ≤ 900) (h5 : b + k ≤ 900) : Sc k a (M + M') b (x -. x') (y -. y') := by
  obtain ⟨q, e1, e2, e3, e4⟩ := h
  obtain ⟨r, f1, f2, f3, f4⟩ := h'
  have hg := e3.sub f3
  have hbd : |q - r| ≤ (M + M' : ℕ) * (2 : ℚ) ^ b := by
    refine (abs_sub q r).trans ?_
    push_cast
    rw [add_mul]
    exact add_le_add e4 f4
  obtain ⟨r1, r2, r3, _⟩ := round_pair (k := k) hg.low hbd hM h1 h2 h3 h4 h5
  refine ⟨roundQ (q - r), ?_, ?_, hg.round, r3⟩
  · rw [sub_val, e1, f1, Ext.fin_sub, r1]
  · rw [sub_val, e2, f2, Ext.fin_sub, ← mul_sub, r2]

theorem Sc.mul (h : Sc k a M b x y) (h' : Sc k' a' M' b' x' y') (hM : M * M' < 2 ^ 53) (h1 : -1000 ≤ a + a') (h2 : -1000 ≤ a + a' + (k + k'))
    (h3 : -1000 ≤ b + b') (h4 : b + b' ≤ 900) (h5 : b + b' + (k + k') ≤ 900) :
    Sc (k + k') (a + a') (M * M') (b + b') (x *. x') (y *. y') := by
  obtain ⟨q, e1, e2, e3, e4⟩ := h
  obtain ⟨r, f1, f2, f3, f4⟩ := h'
  have hg := e3.mul f3
  have hbd : |q * r| ≤ (M * M' : ℕ) * (2 : ℚ) ^ (b + b') := by
    rw [abs_mul]
    refine (mul_le_mul e4 f4 (abs_nonneg r) (by positivity)).trans (le_of_eq ?_)
    push_cast
    rw [zpow_add₀ (by norm_num)]
    ring
  obtain ⟨r1, r2, r3, _⟩ := round_pair (k := k + k') hg.low hbd hM h1 h2 h3 h4 h5
  refine ⟨roundQ (q * r), ?_, ?_, hg.round, r3⟩
  · rw [mul_val, e1, f1, Ext.fin_mul, r1]
  · rw [mul_val, e2, f2, Ext.fin_mul, ← r2, zpow_add₀ (by norm_num)]
    congr 2
    ring

/-- division by a count -/
theorem Sc.div (h : Sc k a M b x y) {n : ℕ} {c c' : B64} (hc : c.val = .fin n) (hc' : c'.val = .fin n) (hn0 : n ≠ 0) (hn : n ≤ 2 ^ 24)
    (hM : M < 2 ^ 53) (h1 : -1000 ≤ a - 76) (h2 : -1000 ≤ a - 76 + k) (h3 : -1000 ≤ b) (h4 : b ≤ 900) (h5 : b + k ≤ 900) :
    Sc k (a - 76) M b (x /. c) (y /. c') := by
  obtain ⟨q, e1, e2, e3, e4⟩ := h
  have hnq : (n : ℚ) ≠ 0 := by exact_mod_cast hn0
  have hn1 : (1 : ℚ) ≤ n := by exact_mod_cast Nat.one_le_iff_ne_zero.mpr hn0
  have hn2 : (n : ℚ) ≤ 2 ^ 24 := by exact_mod_cast hn
  have hpos : (0 : ℚ) < n := by linarith
  have hlo : q / n = 0 ∨ (2 : ℚ) ^ (a - 24) ≤ |q / n| := by
    rcases e3.low with rfl | hl
    · left; simp
    · right
      rw [abs_div, Nat.abs_cast, le_div_iff₀ hpos]
      refine le_trans ?_ hl
      have hp : (0 : ℚ) < 2 ^ (a - 24) := by positivity
      calc (2 : ℚ) ^ (a - 24) * n ≤ 2 ^ (a - 24) * 2 ^ 24 := mul_le_mul_of_nonneg_left hn2 hp.le
        _ = 2 ^ a := by rw [← zpow_natCast, ← zpow_add₀ (by norm_num)]; congr 1; norm_num
  have hbd : |q / n| ≤ M * (2 : ℚ) ^ b := by
    rw [abs_div, Nat.abs_cast]
    exact (div_le_self (abs_nonneg q) hn1).trans e4
  obtain ⟨r1, r2, r3, r4⟩ := round_pair (k := k) hlo hbd hM (by omega) (by omega) h3 h4 h5
  refine ⟨roundQ (q / n), ?_, ?_, ?_, r3⟩
  · rw [div_val _ _ (by rw [hc]; simpa using hn0), e1, hc, Ext.fin_div _ _ hnq, r1]
  · rw [div_val _ _ (by rw [hc']; simpa using hn0), e2, hc', Ext.fin_div _ _ hnq, mul_div_assoc, r2]
  · have := (roundQ_is_representable (q / n)).onGrid r4
    rwa [show a - 24 - 52 = a - 76 by ring] at this

theorem Sc.count {n : ℕ} {c c' : B64} (hc : c.val = .fin n) (hc' : c'.val = .fin n) (hn : n ≤ 2 ^ 24) : Sc 0 0 1 24 c c' := by
  refine ⟨n, hc, by simpa using hc', onGrid_nat n, ?_⟩
  have hn2 : (n : ℚ) ≤ 2 ^ 24 := by exact_mod_cast hn
  rw [Nat.abs_cast, Nat.cast_one, one_mul]
  exact_mod_cast hn2

theorem Sc.zero (hx : x.val = .fin 0) (hy : y.val = .fin 0) : Sc k a M b x y :=
  ⟨0, hx, by simpa using hy, onGrid_zero a, by rw [abs_zero]; positivity⟩

/-- comparisons do not change -/
theorem timesPow_lt (h : TimesPow k x y) (h' : TimesPow k x' y') : (y <. y') = (x <. x') := by
  obtain ⟨q, e1, e2⟩ := h
  obtain ⟨r, f1, f2⟩ := h'
  have hk : (0 : ℚ) < 2 ^ k := by positivity
  rw [lt_val, lt_val, e1, e2, f1, f2, Ext.fin_lt, Ext.fin_lt]
  congr 1
  exact propext (mul_lt_mul_iff_right₀ hk)

end B64

variable [B64Env] {k : ℤ}

/-! ## The trackers of the two runs -/

/-- label entries of the two runs -/
abbrev ScLab (k : ℤ) : B64 → B64 → Prop := Sc k (-200) 1 200

theorem representable_of_val {x : B64} {q : ℚ} (h : x.val = .fin q) : Representable q := by
  have hr := x.rounded
  rw [h, roundE] at hr
  split at hr
  · cases hr
  · split at hr
    · cases hr
    · simp only [Ext.fin.injEq] at hr
      exact (roundQ_fixed_iff q).mp hr

theorem Ordinary.sc {x y : B64} (h : Ordinary x) (ht : TimesPow k x y) : ScLab k x y := by
  obtain ⟨q, h1, h2, h3⟩ := h
  obtain ⟨r, t1, t2⟩ := ht
  rw [h1] at t1
  cases t1
  have hrep := representable_of_val h1
  refine ⟨q, h1, t2, ?_, ?_⟩
  · have hp : (1 : ℚ) / 2 ^ 148 = 2 ^ (-148 : ℤ) := by
      rw [zpow_neg, one_div]
      norm_cast
    rw [hp] at h2
    exact hrep.onGrid h2
  · rw [Nat.cast_one, one_mul]
    have hp : (2 : ℚ) ^ 200 = 2 ^ (200 : ℤ) := by rw [← zpow_natCast]; norm_num
    rwa [← hp]

/-- corresponding label vectors -/
def ScVec (k : ℤ) (t : ℕ) (l l' : List B64) : Prop :=
  l.length = t ∧ l'.length = t ∧ ∀ j < t, ScLab k (l.getD j F64.zero) (l'.getD j F64.zero)

/-- corresponding trackers of `n` labels -/
structure ScTrk (k : ℤ) (t n m : ℕ) (tr tr' : Tracker B64) : Prop where
  count : tr.numberOfLabels.val = .fin n
  count' : tr'.numberOfLabels.val = .fin n
  shape : tr.metrics.Shape t
  shape' : tr'.metrics.Shape t
  sums : ∀ j < t, Sc k (-200) m 200 (tr.metrics.sumOfLabels.getD j F64.zero) (tr'.metrics.sumOfLabels.getD j F64.zero)
  squares : ∀ j < t, Sc (k + k) (-400) m 400 (tr.metrics.sumOfSquaredLabels.getD j F64.zero) (tr'.metrics.sumOfSquaredLabels.getD j F64.zero)
  means : n ≠ 0 → tr.metrics.meanOfLabels = tr.metrics.sumOfLabels.map (fun s => s /. tr.numberOfLabels)
  means' : n ≠ 0 → tr'.metrics.meanOfLabels = tr'.metrics.sumOfLabels.map (fun s => s /. tr'.numberOfLabels)

theorem ScVec.square {t j : ℕ} {l l' : List B64} (h : ScVec k t l l') (hj : j < t) (hk : |k| ≤ 100) :
    Sc (k + k) (-400) 1 400 (l.getD j F64.zero *. l.getD j F64.zero) (l'.getD j F64.zero *. l'.getD j F64.zero) := by
  rw [abs_le] at hk
  have := (h.2.2 j hj).mul (h.2.2 j hj) (by norm_num) (by omega) (by omega) (by omega) (by omega) (by omega)
  simpa using this

theorem updLeft_sc {t n m : ℕ} {tr tr' : Tracker B64} {l l' : List B64} (hk : |k| ≤ 100) (h : ScTrk k t n m tr tr') (hn : n < 2 ^ 53)
    (hm : m < 2 ^ 26) (hl : ScVec k t l l') : ScTrk k t (n + 1) (m + 1) (updLeft tr l) (updLeft tr' l') := by
  have hk' := abs_le.mp hk
  refine ⟨count_succ h.count hn, count_succ h.count' hn, updMetrics_shape h.shape hl.1, updMetrics_shape h.shape' hl.2.1, ?_, ?_,
    fun _ => rfl, fun _ => rfl⟩
  · intro j hj
    simp only [updLeft, updMetrics]
    rw [zipWith_getD_of (a := F64.zero) (b := F64.zero) (by rw [h.shape.sums]; exact hj) (by rw [hl.1]; exact hj),
      zipWith_getD_of (a := F64.zero) (b := F64.zero) (by rw [h.shape'.sums]; exact hj) (by rw [hl.2.1]; exact hj)]
    exact (h.sums j hj).add (hl.2.2 j hj) (by omega) (by omega) (by omega) (by omega) (by omega) (by omega)
  · intro j hj
    simp only [updLeft, updMetrics]
    rw [zipWith_getD_of (a := F64.zero) (b := F64.zero) (by rw [h.shape.squares]; exact hj) (by rw [hl.1]; exact hj),
      zipWith_getD_of (a := F64.zero) (b := F64.zero) (by rw [h.shape'.squares]; exact hj) (by rw [hl.2.1]; exact hj)]
    exact (h.squares j hj).add (hl.square hj hk) (by omega) (by omega) (by omega) (by omega) (by omega) (by omega)

theorem updRight_sc {t n m : ℕ} {tr tr' : Tracker B64} {l l' : List B64} (hk : |k| ≤ 100) (h : ScTrk k t (n + 1) m tr tr') (hn : n < 2 ^ 53)
    (hm : m < 2 ^ 26) (hl : ScVec k t l l') : ScTrk k t n (m + 1) (updRight tr l) (updRight tr' l') := by
  have hk' := abs_le.mp hk
  refine ⟨count_pred h.count hn, count_pred h.count' hn, updMetrics_shape h.shape hl.1, updMetrics_shape h.shape' hl.2.1, ?_, ?_,
    fun _ => rfl, fun _ => rfl⟩
  · intro j hj
    simp only [updRight, updMetrics]
    rw [zipWith_getD_of (a := F64.zero) (b := F64.zero) (by rw [h.shape.sums]; exact hj) (by rw [hl.1]; exact hj),
      zipWith_getD_of (a := F64.zero) (b := F64.zero) (by rw [h.shape'.sums]; exact hj) (by rw [hl.2.1]; exact hj)]
    exact (h.sums j hj).sub (hl.2.2 j hj) (by omega) (by omega) (by omega) (by omega) (by omega) (by omega)
  · intro j hj
    simp only [updRight, updMetrics]
    rw [zipWith_getD_of (a := F64.zero) (b := F64.zero) (by rw [h.shape.squares]; exact hj) (by rw [hl.1]; exact hj),
      zipWith_getD_of (a := F64.zero) (b := F64.zero) (by rw [h.shape'.squares]; exact hj) (by rw [hl.2.1]; exact hj)]
    exact (h.squares j hj).sub (hl.square hj hk) (by omega) (by omega) (by omega) (by omega) (by omega) (by omega)

theorem leftStart_sc (t : ℕ) : ScTrk k t 0 0 (leftStart t) (leftStart t) := by
  refine ⟨by simp [leftStart], by simp [leftStart], leftStart_shape t, leftStart_shape t, ?_, ?_, fun h => absurd rfl h, fun h => absurd rfl h⟩
  · intro j hj
    exact Sc.zero (by simp [leftStart, hj]) (by simp [leftStart, hj])
  · intro j hj
    exact Sc.zero (by simp [leftStart, hj]) (by simp [leftStart, hj])

theorem metricsOf_sc {zs : List (List B64 × List B64)} {t : ℕ} (hk : |k| ≤ 100) (hz : ∀ z ∈ zs, ScVec k t z.1 z.2) (hn : zs.length ≤ 2 ^ 24) :
    ScTrk k t zs.length zs.length (rightStart zs.length (metricsOf (zs.map Prod.fst) t)) (rightStart zs.length (metricsOf (zs.map Prod.snd) t)) := by
  have key : ∀ (zs : List (List B64 × List B64)) (n : ℕ) (tr tr' : Tracker B64), ScTrk k t n n tr tr' → (∀ z ∈ zs, ScVec k t z.1 z.2) →
      n + zs.length ≤ 2 ^ 24 →
      ScTrk k t (n + zs.length) (n + zs.length) ((zs.map Prod.fst).foldl updLeft tr) ((zs.map Prod.snd).foldl updLeft tr') := by
    intro zs
    induction zs with
    | nil => intro n tr tr' h _ _; exact h
    | cons z zs ih =>
      intro n tr tr' h hz hn
      simp only [List.length_cons] at hn
      have := ih (n + 1) (updLeft tr z.1) (updLeft tr' z.2) (updLeft_sc hk h (by omega) (by omega) (hz z (by simp)))
        (fun z' hz' => hz z' (by simp [hz'])) (by omega)
      simp only [List.map_cons, List.foldl_cons, List.length_cons]
      rwa [show n + (zs.length + 1) = n + 1 + zs.length by omega]
  have h := key zs 0 _ _ (leftStart_sc t) hz (by omega)
  simp only [Nat.zero_add] at h
  have hs := sumVecs_foldl (zs.map Prod.fst) t
  have hs' := sumVecs_foldl (zs.map Prod.snd) t
  have l1 : ∀ l ∈ zs.map Prod.fst, l.length = t := by
    intro l hl
    obtain ⟨z, hz', rfl⟩ := List.mem_map.mp hl
    exact (hz z hz').1
  have l2 : ∀ l ∈ zs.map Prod.snd, l.length = t := by
    intro l hl
    obtain ⟨z, hz', rfl⟩ := List.mem_map.mp hl
    exact (hz z hz').2.1
  have hc := roundE_nat (n := zs.length) (by omega)
  refine ⟨by simpa [rightStart] using hc, by simpa [rightStart] using hc, (getLabelMetrics_ok l1).2, (getLabelMetrics_ok l2).2, ?_, ?_, ?_, ?_⟩
  · intro j hj
    simpa [rightStart, metricsOf, hs, hs'] using h.sums j hj
  · intro j hj
    simpa [rightStart, metricsOf, hs, hs'] using h.squares j hj
  · intro _
    simp [rightStart, metricsOf]
  · intro _
    simp [rightStart, metricsOf]

/-- corresponding means -/
theorem mean_sc {t n m : ℕ} {tr tr' : Tracker B64} (hk : |k| ≤ 100) (h : ScTrk k t n m tr tr') (hn0 : n ≠ 0) (hn : n ≤ 2 ^ 24)
    (hm : m ≤ 2 ^ 25) {j : ℕ} (hj : j < t) :
    Sc k (-276) 1 225 (tr.metrics.meanOfLabels.getD j F64.zero) (tr'.metrics.meanOfLabels.getD j F64.zero) := by
  have hk' := abs_le.mp hk
  have e : tr.metrics.meanOfLabels.getD j F64.zero = tr.metrics.sumOfLabels.getD j F64.zero /. tr.numberOfLabels := by
    rw [h.means hn0]
    simp [List.getD, show j < tr.metrics.sumOfLabels.length by rw [h.shape.sums]; exact hj]
  have e' : tr'.metrics.meanOfLabels.getD j F64.zero = tr'.metrics.sumOfLabels.getD j F64.zero /. tr'.numberOfLabels := by
    rw [h.means' hn0]
    simp [List.getD, show j < tr'.metrics.sumOfLabels.length by rw [h.shape'.sums]; exact hj]
  rw [e, e']
  have := (h.sums j hj).div h.count h.count' hn0 hn (by omega) (by omega) (by omega) (by omega) (by omega) (by omega)
  exact this.weaken (e := 25) (by omega) (by omega) (by omega)

/-- corresponding variances -/
theorem varVec_sc {t n m : ℕ} {tr tr' : Tracker B64} (hk : |k| ≤ 100) (h : ScTrk k t n m tr tr') (hn0 : n ≠ 0) (hn : n ≤ 2 ^ 24)
    (hm : m ≤ 2 ^ 25) {j : ℕ} (hj : j < t) : Sc (k + k) (-628) 2 474 ((varVec tr.metrics tr.numberOfLabels).getD j F64.zero)
      ((varVec tr'.metrics tr'.numberOfLabels).getD j F64.zero) := by
  have hk' := abs_le.mp hk
  have hmean := mean_sc hk h hn0 hn hm hj
  have hsq := hmean.mul hmean (by norm_num) (by omega) (by omega) (by omega) (by omega) (by omega)
  have hcm := hsq.mul (Sc.count h.count h.count' hn) (by norm_num) (by omega) (by omega) (by omega) (by omega) (by omega)
  have hcm' := (Sc.count h.count h.count' hn).mul hsq (by norm_num) (by omega) (by omega) (by omega) (by omega) (by omega)
  rw [varVec_getD h.shape _ hj, varVec_getD h.shape' _ hj, calculateVariance, calculateVariance]
  have hS := (h.squares j hj).weaken (a' := -552) (M' := 1) (b' := 474) (e := 25) (by omega) (by omega) (by omega)
  have hcm2 : Sc (k + k) (-552) 1 474 (tr.metrics.meanOfLabels.getD j F64.zero *. tr.metrics.meanOfLabels.getD j F64.zero *. tr.numberOfLabels)
      (tr'.metrics.meanOfLabels.getD j F64.zero *. tr'.metrics.meanOfLabels.getD j F64.zero *. tr'.numberOfLabels) := by simpa using hcm
  have hcm3 : Sc (k + k) (-552) 1 474 (tr.numberOfLabels *. (tr.metrics.meanOfLabels.getD j F64.zero *. tr.metrics.meanOfLabels.getD j F64.zero))
      (tr'.numberOfLabels *. (tr'.metrics.meanOfLabels.getD j F64.zero *. tr'.metrics.meanOfLabels.getD j F64.zero)) := by simpa using hcm'
  have := (hS.sub hcm3 (by norm_num) (by omega) (by omega) (by omega) (by omega) (by omega)).div h.count h.count' hn0 hn (by norm_num) (by omega)
    (by omega) (by omega) (by omega) (by omega)
  simpa using this

theorem fsum_sc {K a b : ℤ} {M : ℕ} (h1 : -1000 ≤ a) (h2 : -1000 ≤ a + K) (h3 : -1000 ≤ b) (h4 : b ≤ 900) (h5 : b + K ≤ 900)
    {xs ys : List B64} (h : List.Forall₂ (Sc K a M b) xs ys) (hM : M * xs.length < 2 ^ 53) : Sc K a (M * xs.length) b (fsum xs) (fsum ys) := by
  have key : ∀ (xs ys : List B64) (m : ℕ) (u v : B64), List.Forall₂ (Sc K a M b) xs ys → Sc K a m b u v → m + M * xs.length < 2 ^ 53 →
      Sc K a (m + M * xs.length) b (xs.foldl F64.add u) (ys.foldl F64.add v) := by
    intro xs ys m u v h
    induction h generalizing m u v with
    | nil => intro hu _; simpa using hu
    | @cons x y xs ys hxy _ ih =>
      intro hu hm
      rw [List.length_cons, Nat.mul_succ] at hm ⊢
      have := ih (m + M) _ _ (hu.add hxy (by omega) h1 h2 h3 h4 h5) (by omega)
      rw [List.foldl_cons, List.foldl_cons]
      rwa [show m + (M * xs.length + M) = m + M + M * xs.length by omega]
  have := key xs ys 0 F64.sumStart F64.sumStart h (Sc.zero (by simp) (by simp)) (by omega)
  simpa [fsum] using this

theorem forall₂_getD {R : B64 → B64 → Prop} {xs ys : List B64} {t : ℕ} (h1 : xs.length = t) (h2 : ys.length = t)
    (h : ∀ j < t, R (xs.getD j F64.zero) (ys.getD j F64.zero)) : List.Forall₂ R xs ys := by
  rw [List.forall₂_iff_get]
  refine ⟨by omega, ?_⟩
  intro i hi hi'
  have := h i (by omega)
  simpa [List.getD, hi, hi'] using this

theorem splitLoss_sc {t n1 n2 m1 m2 : ℕ} {left right left' right' : Tracker B64} (hk : |k| ≤ 100) (hl : ScTrk k t n1 m1 left left')
    (hr : ScTrk k t n2 m2 right right') (h1 : n1 ≠ 0) (h2 : n2 ≠ 0) (hn : n1 + n2 ≤ 2 ^ 24) (hm1 : m1 ≤ 2 ^ 25) (hm2 : m2 ≤ 2 ^ 25)
    (ht : t ≤ 2 ^ 24) : Sc (k + k) (-704) (4 * t) 498 (splitLoss left right) (splitLoss left' right') := by
  have hk' := abs_le.mp hk
  have htot : ∀ {l r : Tracker B64}, l.numberOfLabels.val = .fin n1 → r.numberOfLabels.val = .fin n2 →
      (l.numberOfLabels +. r.numberOfLabels).val = .fin ((n1 + n2 : ℕ) : ℚ) := by
    intro l r e1 e2
    rw [add_val, e1, e2, Ext.fin_add]
    have := roundE_nat (n := n1 + n2) (by omega)
    push_cast at this ⊢
    exact this
  have w1 := (Sc.count hl.count hl.count' (by omega)).div (htot hl.count hr.count) (htot hl.count' hr.count') (by omega) hn (by norm_num)
    (by omega) (by omega) (by omega) (by omega) (by omega)
  have w2 := (Sc.count hr.count hr.count' (by omega)).div (htot hl.count hr.count) (htot hl.count' hr.count') (by omega) hn (by norm_num)
    (by omega) (by omega) (by omega) (by omega) (by omega)
  have lens := fun (l r : Tracker B64) (a : l.metrics.Shape t) (b : r.metrics.Shape t) (f : B64 → B64 → B64) =>
    show (List.zipWith f (varVec l.metrics l.numberOfLabels) (varVec r.metrics r.numberOfLabels)).length = t by
      rw [List.length_zipWith, Shape.varVec_length a, Shape.varVec_length b, Nat.min_self]
  have hf : List.Forall₂ (Sc (k + k) (-704) 4 498)
      (List.zipWith (fun l r => (left.numberOfLabels /. (left.numberOfLabels +. right.numberOfLabels) *. l) +.
        (right.numberOfLabels /. (left.numberOfLabels +. right.numberOfLabels) *. r))
        (varVec left.metrics left.numberOfLabels) (varVec right.metrics right.numberOfLabels))
      (List.zipWith (fun l r => (left'.numberOfLabels /. (left'.numberOfLabels +. right'.numberOfLabels) *. l) +.
        (right'.numberOfLabels /. (left'.numberOfLabels +. right'.numberOfLabels) *. r))
        (varVec left'.metrics left'.numberOfLabels) (varVec right'.metrics right'.numberOfLabels)) := by
    refine forall₂_getD (lens _ _ hl.shape hr.shape _) (lens _ _ hl.shape' hr.shape' _) ?_
    intro j hj
    rw [zipWith_getD_of (a := F64.zero) (b := F64.zero) (by rw [Shape.varVec_length hl.shape]; exact hj)
        (by rw [Shape.varVec_length hr.shape]; exact hj),
      zipWith_getD_of (a := F64.zero) (b := F64.zero) (by rw [Shape.varVec_length hl.shape']; exact hj)
        (by rw [Shape.varVec_length hr.shape']; exact hj)]
    have v1 := w1.mul (varVec_sc hk hl h1 (by omega) hm1 hj) (by norm_num) (by omega) (by omega) (by omega) (by omega) (by omega)
    have v2 := w2.mul (varVec_sc hk hr h2 (by omega) hm2 hj) (by norm_num) (by omega) (by omega) (by omega) (by omega) (by omega)
    have := v1.add v2 (by norm_num) (by omega) (by omega) (by omega) (by omega) (by omega)
    simpa using this
  have := fsum_sc (by omega) (by omega) (by omega) (by omega) (by omega) hf (by rw [lens _ _ hl.shape hr.shape]; omega)
  rw [lens _ _ hl.shape hr.shape] at this
  exact this

/-! ## Candidates, columns -/

/-- corresponding losses: infinite, or in proportion -/
def ScLoss (k : ℤ) (t : ℕ) (x y : B64) : Prop := (x = F64.infinity ∧ y = F64.infinity) ∨ Sc (k + k) (-704) (4 * t) 498 x y

theorem ScLoss.lt {t : ℕ} {x y x' y' : B64} (h : ScLoss k t x y) (h' : ScLoss k t x' y') : (y <. y') = (x <. x') := by
  rcases h with ⟨rfl, rfl⟩ | h <;> rcases h' with ⟨rfl, rfl⟩ | h'
  · rfl
  · obtain ⟨q, e1, e2, _⟩ := h'
    rw [lt_val, lt_val, e1, e2, infinity_val]
    rfl
  · obtain ⟨q, e1, e2, _⟩ := h
    rw [lt_val, lt_val, e1, e2, infinity_val]
    rfl
  · exact timesPow_lt h.times h'.times

/-- corresponding candidates -/
def ScCand (k : ℤ) (t : ℕ) (b b' : BestThresholdResult B64) : Prop := b'.thresholdValue = b.thresholdValue ∧ ScLoss k t b.loss b'.loss

theorem foldl_pickBest_sc {t : ℕ} {bs bs' : List (BestThresholdResult B64)} (h : List.Forall₂ (ScCand k t) bs bs') :
    ∀ b b', ScCand k t b b' → ScCand k t (bs.foldl pickBest b) (bs'.foldl pickBest b') := by
  induction h with
  | nil => intro b b' h; exact h
  | @cons c c' cs cs' hc _ ih =>
    intro b b' h
    rw [List.foldl_cons, List.foldl_cons]
    apply ih
    unfold pickBest
    rw [hc.2.lt h.2]
    split
    · exact hc
    · exact h

theorem cands_sc {t N : ℕ} (hk : |k| ≤ 100) (hN : N ≤ 2 ^ 24) (ht : t ≤ 2 ^ 24) {prev : B64} :
    ∀ (seq : List (B64 × (List B64 × List B64))) (n : ℕ) (left left' right right' : Tracker B64), (∀ p ∈ seq, ScVec k t p.2.1 p.2.2) →
      n + seq.length = N → ScTrk k t n n left left' → ScTrk k t seq.length (2 * N - seq.length) right right' →
      (n = 0 → ∀ p, seq[0]? = some p → (p.1 ==. prev) = true) →
      List.Forall₂ (ScCand k t) (cands prev left right (seq.map (fun p => (p.1, p.2.1)))) (cands prev left' right' (seq.map (fun p => (p.1, p.2.2)))) := by
  intro seq
  induction seq with
  | nil => intro n left left' right right' _ _ _ _ _; simp [cands]
  | cons p seq ih =>
    obtain ⟨x, z⟩ := p
    intro n left left' right right' hs hn hl hr hp
    simp only [List.length_cons] at hn hr
    simp only [List.map_cons, cands]
    refine List.rel_append ?_ ?_
    · split
      · next hvp =>
        have hn0 : n ≠ 0 := by
          intro h0
          have := hp h0 (x, z) rfl
          simp only at this
          simp [this] at hvp
        exact .cons ⟨rfl, .inr (splitLoss_sc hk hl hr hn0 (by omega) (by omega) (by omega) (by omega) ht)⟩ .nil
      · exact .nil
    · have hz := hs (x, z) (by simp)
      have hr' := updRight_sc hk hr (by omega) (by omega) hz
      rw [show 2 * N - (seq.length + 1) + 1 = 2 * N - seq.length by omega] at hr'
      exact ih (n + 1) _ _ _ _ (fun p hp => hs p (by simp [hp])) (by omega) (updLeft_sc hk hl (by omega) (by omega) hz) hr' (by omega)

theorem gain_sc {t : ℕ} {T T' x y : B64} (hk : |k| ≤ 100) (ht : t ≤ 2 ^ 24) (hT : Sc (k + k) (-704) (2 * t) 498 T T') (h : ScLoss k t x y) :
    ((T -. x).val = .negInf ∧ (T' -. y).val = .negInf) ∨ TimesPow (k + k) (T -. x) (T' -. y) := by
  have hk' := abs_le.mp hk
  rcases h with ⟨rfl, rfl⟩ | h
  · left
    obtain ⟨q, e1, e2, _⟩ := hT
    rw [sub_val, sub_val, e1, e2, infinity_val]
    exact ⟨rfl, rfl⟩
  · right
    exact (hT.sub h (by omega) (by omega) (by omega) (by omega) (by omega) (by omega)).times

/-- corresponding splits -/
def ScSplit (k : ℤ) (b b' : BestSplitResult B64) : Prop := b'.question = b.question ∧ TimesPow (k + k) b.gain b'.gain

theorem bestColumn_sc {t : ℕ} {T T' : B64} (hk : |k| ≤ 100) (ht : t ≤ 2 ^ 24) (hT : Sc (k + k) (-704) (2 * t) 498 T T')
    {rs rs' : List (BestThresholdResult B64)} (h : List.Forall₂ (ScCand k t) rs rs') : ScSplit k (bestColumn T rs) (bestColumn T' rs') := by
  have key : ∀ (rs rs' : List (BestThresholdResult B64)) (i : ℕ) (b b' : BestSplitResult B64), List.Forall₂ (ScCand k t) rs rs' → ScSplit k b b' →
      ScSplit k ((rs.zipIdx i).foldl (pickColumn T) b) ((rs'.zipIdx i).foldl (pickColumn T') b') := by
    intro rs rs' i b b' h
    induction h generalizing i b b' with
    | nil => intro hb; exact hb
    | @cons r r' rs rs' hr _ ih =>
      intro hb
      rw [List.zipIdx_cons, List.zipIdx_cons, List.foldl_cons, List.foldl_cons]
      apply ih
      unfold pickColumn
      simp only
      have hlt : (b'.gain <. (T' -. r'.loss)) = (b.gain <. (T -. r.loss)) := by
        rcases gain_sc hk ht hT hr.2 with ⟨e1, e2⟩ | hg
        · obtain ⟨q, f1, f2⟩ := hb.2
          rw [lt_val, lt_val, e1, e2, f1, f2]
          rfl
        · exact timesPow_lt hb.2 hg
      change ScSplit k (if (b.gain <. (T -. r.loss)) = true then _ else _) (if (b'.gain <. (T' -. r'.loss)) = true then _ else _)
      rw [hlt]
      split
      · next hgt =>
        rcases gain_sc hk ht hT hr.2 with ⟨e1, e2⟩ | hg
        · obtain ⟨q, f1, f2⟩ := hb.2
          rw [lt_val, e1, f1] at hgt
          exact absurd hgt (by simp [F64.lt, Ext.le])
        · exact ⟨by rw [hr.1], hg⟩
      · exact hb
  refine key rs rs' 0 _ _ h ⟨rfl, 0, by simp, by simp⟩

theorem splitOf_sc {d : DataSet B64} {c t : ℕ} {zs : List (List B64 × List B64)} (hk : |k| ≤ 100) (h : d.WF c t)
    (hz : ∀ z ∈ zs, ScVec k t z.1 z.2) (hls : d.labels = zs.map Prod.fst) (hn : d.labels.length ≤ 2 ^ 24) (ht : t ≤ 2 ^ 24) :
    ScSplit k (splitOf d t) (splitOf { d with labels := zs.map Prod.snd } t) := by
  have hk' := abs_le.mp hk
  have hzl : zs.length = d.labels.length := by rw [hls, List.length_map]
  have hpos : zs.length ≠ 0 := by
    rw [hzl]
    simpa using h.labels_ne
  have hm := metricsOf_sc hk hz (by omega)
  have hT : Sc (k + k) (-704) (2 * t) 498 (totalVariance d.labels t) (totalVariance (zs.map Prod.snd) t) := by
    have hf := forall₂_getD (R := Sc (k + k) (-628) 2 474) (Shape.varVec_length hm.shape _) (Shape.varVec_length hm.shape' _)
      (fun j hj => varVec_sc hk hm hpos (by omega) (by omega) hj)
    have := fsum_sc (by omega) (by omega) (by omega) (by omega) (by omega) hf (by rw [Shape.varVec_length hm.shape]; omega)
    rw [Shape.varVec_length hm.shape] at this
    rw [totalVariance, totalVariance, hls, List.length_map, List.length_map]
    exact this.weaken (e := 0) (by omega) (by omega) (by omega)
  rw [splitOf, splitOf]
  refine bestColumn_sc hk ht hT ?_
  rw [List.forall₂_map_left_iff, List.forall₂_map_right_iff, List.forall₂_same]
  intro col hcol
  rw [h.cols, columnsOf] at hcol
  obtain ⟨i, hi, rfl⟩ := List.mem_map.mp hcol
  have hcn := h.col_nan (List.mem_range.mp hi)
  have hcl : (column d.featureRows i).length = zs.length := by rw [column_length, hzl, h.label_count]
  set col := column d.featureRows i with hcoldef
  let seq : List (B64 × (List B64 × List B64)) := (sorted col.zipIdx).map (fun p => (p.1, zs.getD p.2 ([], [])))
  have hidx : ∀ p ∈ sorted col.zipIdx, p.2 < zs.length := by
    intro p hp
    have := List.snd_lt_of_mem_zipIdx ((sorted_perm _).mem_iff.mp hp)
    omega
  have e1 : seqOf d.labels col = seq.map (fun p => (p.1, p.2.1)) := by
    simp only [seqOf, seq, List.map_map]
    apply List.map_congr_left
    intro p hp
    have := hidx p hp
    simp [hls, this]
  have e2 : seqOf (zs.map Prod.snd) col = seq.map (fun p => (p.1, p.2.2)) := by
    simp only [seqOf, seq, List.map_map]
    apply List.map_congr_left
    intro p hp
    have := hidx p hp
    simp [this]
  have hseq : seq.length = zs.length := by
    simp only [seq, List.length_map]
    rw [(sorted_perm _).length_eq, List.length_zipIdx, hcl]
  have hsz : ∀ p ∈ seq, ScVec k t p.2.1 p.2.2 := by
    intro p hp
    obtain ⟨q, hq, rfl⟩ := List.mem_map.mp hp
    apply hz
    simp [hidx q hq]
  simp only [colResult, scanResult, e1, e2]
  simp only [hls, List.length_map, List.map_map]
  refine foldl_pickBest_sc ?_ _ _ ⟨rfl, .inl ⟨rfl, rfl⟩⟩
  refine cands_sc hk (N := zs.length) (by omega) ht seq 0 _ _ _ _ hsz (by omega) (leftStart_sc t) ?_ ?_
  · rw [hseq, show 2 * zs.length - zs.length = zs.length by omega]
    exact hm
  · intro _ p hp
    rw [List.headD_eq_head?_getD, List.head?_eq_getElem?, List.getElem?_map, hp]
    obtain ⟨q, hq, rfl⟩ := List.mem_map.mp (List.mem_of_getElem? hp)
    exact isNaN_eq_false.mp (hcn _ (List.fst_mem_of_mem_zipIdx ((sorted_perm _).mem_iff.mp hq)))

/-! ## Trees and leaves -/

section generic
variable {F : Type} [F64 F]

theorem restrict_labels {d : DataSet F} {ls : List (List F)} (hlen : ls.length = d.featureRows.length)
    (hl : d.labels.length = d.featureRows.length) (c : ℕ) (p : List F → Bool) : ({ d with labels := ls } : DataSet F).restrict c p =
      { d.restrict c p with labels := ((d.featureRows.zip ls).filter (fun e => p e.1)).map Prod.snd } := by
  have h1 : ∀ ms : List (List F), ms.length = d.featureRows.length →
      ((d.featureRows.zip ms).filter (fun e => p e.1)).map Prod.fst = d.featureRows.filter p := by
    intro ms hms
    have : (d.featureRows.zip ms).filter (fun e => p e.1) = (d.featureRows.zip ms).filter (p ∘ Prod.fst) := rfl
    rw [this, ← List.filter_map, List.map_fst_zip (by omega)]
  simp only [DataSet.restrict, DataSet.examples]
  rw [h1 _ hlen, h1 _ hl]

theorem sumVecs_fst (labels : List (List F)) (t : ℕ) : (sumVecs labels t).1 = vecSum t labels := by
  have key : ∀ (labels : List (List F)) (acc : List F × List F),
      (labels.foldl (fun acc l => (List.zipWith F64.add acc.1 l, List.zipWith (fun q x => q +. x *. x) acc.2 l)) acc).1 =
        labels.foldl (fun a b => List.zipWith F64.add a b) acc.1 := by
    intro labels
    induction labels with
    | nil => intro acc; rfl
    | cons l labels ih => intro acc; rw [List.foldl_cons, List.foldl_cons, ih]
  exact key labels _

end generic

/-- corresponding leaf outputs -/
theorem avgVec_sc {zs : List (List B64 × List B64)} {t : ℕ} (hk : |k| ≤ 100) (hz : ∀ z ∈ zs, ScVec k t z.1 z.2) (hn0 : zs ≠ [])
    (hn : zs.length ≤ 2 ^ 24) : (avgVec t (zs.map Prod.fst)).length = t ∧ (avgVec t (zs.map Prod.snd)).length = t ∧
      ∀ j < t, Sc k (-276) 1 225 ((avgVec t (zs.map Prod.fst)).getD j F64.zero) ((avgVec t (zs.map Prod.snd)).getD j F64.zero) := by
  refine ⟨avgVec_length ?_, avgVec_length ?_, fun j hj => ?_⟩
  · intro l hl
    obtain ⟨z, hz', rfl⟩ := List.mem_map.mp hl
    exact (hz z hz').1
  · intro l hl
    obtain ⟨z, hz', rfl⟩ := List.mem_map.mp hl
    exact (hz z hz').2.1
  · have := mean_sc hk (metricsOf_sc hk hz hn) (by simpa using hn0) hn (by omega) hj
    simpa only [rightStart, metricsOf, sumVecs_fst, avgVec] using this

/-- The same questions, hence the same way for every row, and leaves made from the same rows with the corresponding labels. -/
def ScShape {L L' : Type} (c t : ℕ) (k : ℤ) (leafOf : DataSet B64 → L) (leafOf' : DataSet B64 → L') (x : TreeNode B64 L) (y : TreeNode B64 L') : Prop :=
  (∀ p, y.questionAt p = x.questionAt p) ∧ (∀ row, y.route row = x.route row) ∧
    ∀ p leaf, x.leafAt p = some leaf → ∃ (dd : DataSet B64) (zs : List (List B64 × List B64)), dd.WF c t ∧ (∀ z ∈ zs, ScVec k t z.1 z.2) ∧
      dd.labels = zs.map Prod.fst ∧ zs.length ≤ 2 ^ 24 ∧ leaf = leafOf dd ∧ y.leafAt p = some (leafOf' { dd with labels := zs.map Prod.snd })

theorem treeOf_sc {L L' : Type} {t c : ℕ} (hk : |k| ≤ 100) (ht : t ≤ 2 ^ 24) {leafOf : DataSet B64 → L} {leafOf' : DataSet B64 → L'} (m : ℕ)
    (d : DataSet B64) (h : d.WF c t) : ∀ zs : List (List B64 × List B64), (∀ z ∈ zs, ScVec k t z.1 z.2) → d.labels = zs.map Prod.fst →
      zs.length ≤ 2 ^ 24 →
      ScShape c t k leafOf leafOf' (treeOf leafOf c t m d) (treeOf leafOf' c t m { d with labels := zs.map Prod.snd }) := by
  have hzero : ∀ {b b' : BestSplitResult B64}, ScSplit k b b' → (b'.gain ==. F64.zero) = (b.gain ==. F64.zero) := by
    intro b b' hb
    obtain ⟨q, e1, e2⟩ := hb.2
    have hp : (2 : ℚ) ^ (k + k) ≠ 0 := by positivity
    rw [eq_val, eq_val, e1, e2, zero_val, Ext.fin_eq, Ext.fin_eq]
    congr 1
    simp [hp]
  have hleaf : ∀ (q q' : Question B64) (d : DataSet B64) (zs : List (List B64 × List B64)), d.WF c t → (∀ z ∈ zs, ScVec k t z.1 z.2) →
      d.labels = zs.map Prod.fst → zs.length ≤ 2 ^ 24 →
      ScShape c t k leafOf leafOf' (TreeNode.leafNode q (leafOf d)) (TreeNode.leafNode q' (leafOf' { d with labels := zs.map Prod.snd })) := by
    intro q q' d zs hw hzs hls hn
    refine ⟨fun p => by cases p <;> rfl, fun _ => rfl, ?_⟩
    intro p leaf hp
    cases p with
    | nil =>
      cases hp
      exact ⟨d, zs, hw, hzs, hls, hn, rfl, rfl⟩
    | cons x p => cases x <;> cases hp
  refine treeOf_induct (motive := fun m d => ∀ zs : List (List B64 × List B64), (∀ z ∈ zs, ScVec k t z.1 z.2) → d.labels = zs.map Prod.fst →
    zs.length ≤ 2 ^ 24 → ScShape c t k leafOf leafOf' (treeOf leafOf c t m d) (treeOf leafOf' c t m { d with labels := zs.map Prod.snd }))
    ?_ ?_ ?_ m d h
  · intro d hw zs hzs hls hn
    exact hleaf _ _ _ _ hw hzs hls hn
  · intro m d hw hg zs hzs hls hn
    have hs := splitOf_sc hk hw hzs hls (by rw [hls, List.length_map]; exact hn) ht
    rw [treeOf_leaf hg, treeOf_leaf ((hzero hs).trans hg)]
    exact hleaf _ _ _ _ hw hzs hls hn
  · intro m d hw hg i1 i2 zs hzs hls hn
    have hs := splitOf_sc hk hw hzs hls (by rw [hls, List.length_map]; exact hn) ht
    have hlen : zs.length = d.featureRows.length := by rw [← hw.label_count, hls, List.length_map]
    have hr : ∀ p : List B64 → Bool, ∃ ys : List (List B64 × List B64), (∀ z ∈ ys, ScVec k t z.1 z.2) ∧
        (d.restrict c p).labels = ys.map Prod.fst ∧ ys.length ≤ 2 ^ 24 ∧
        ({ d with labels := zs.map Prod.snd } : DataSet B64).restrict c p = { d.restrict c p with labels := ys.map Prod.snd } := by
      intro p
      refine ⟨((d.featureRows.zip zs).filter (fun e => p e.1)).map Prod.snd, ?_, ?_, ?_, ?_⟩
      · intro y hy
        obtain ⟨e, he, rfl⟩ := List.mem_map.mp hy
        exact hzs _ (List.of_mem_zip (List.mem_filter.mp he).1).2
      · simp only [DataSet.restrict, DataSet.examples, hls]
        rw [List.zip_map_right, List.filter_map, List.map_map, List.map_map]
        rfl
      · rw [List.length_map]
        refine (List.length_filter_le _ _).trans ?_
        rw [List.length_zip]
        omega
      · rw [restrict_labels (by rw [List.length_map]; exact hlen) hw.label_count, List.zip_map_right, List.filter_map, List.map_map, List.map_map]
        rfl
    rw [treeOf_node hg, treeOf_node ((hzero hs).trans hg), hs.1]
    obtain ⟨ms1, z1, a1, l1, b1⟩ := hr (satisfies (splitOf d t).question)
    obtain ⟨ms2, z2, a2, l2, b2⟩ := hr (fun r => !satisfies (splitOf d t).question r)
    rw [b1, b2]
    have k1 := i1 ms1 z1 a1 l1
    have k2 := i2 ms2 z2 a2 l2
    refine ⟨fun p => ?_, fun row => ?_, fun p leaf hp => ?_⟩
    · match p with
      | [] => rfl
      | true :: p => exact k1.1 p
      | false :: p => exact k2.1 p
    · rw [TreeNode.route_new, TreeNode.route_new, k1.2.1 row, k2.2.1 row]
    · match p with
      | [] => cases hp
      | true :: p => exact k1.2.2 p leaf hp
      | false :: p => exact k2.2.2 p leaf hp

end Verif
