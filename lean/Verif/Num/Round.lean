import Mathlib.Algebra.Order.Floor.Ring
import Mathlib.Algebra.Order.Field.Power
import Mathlib.Data.Rat.Floor
import Mathlib.Tactic.Linarith
import Mathlib.Tactic.Ring
import Mathlib.Tactic.FieldSimp
import Mathlib.Tactic.Positivity
/-!
# Rounding to binary64

The rounding function of IEEE-754 binary64 (round to nearest, ties to even, with gradual underflow; overflow is handled where the
function is used), and the facts that show that it is this function: it returns representable numbers, no representable number is
nearer, it keeps representable numbers, it is monotone and odd.
-/

namespace Verif.B64

/-- The nearest integer; of two equally near integers the even one. -/
def nearestEven (x : ℚ) : ℤ :=
  if x - ⌊x⌋ < 1 / 2 then ⌊x⌋
  else if 1 / 2 < x - ⌊x⌋ then ⌊x⌋ + 1
  else if ⌊x⌋ % 2 = 0 then ⌊x⌋ else ⌊x⌋ + 1

/-- `2 ^ e` -/
def pow2 : ℤ → ℚ
  | .ofNat n => ((2 ^ n : ℕ) : ℚ)
  | .negSucc n => mkRat 1 (2 ^ (n + 1))

/-- The exponent of the binade of a non-zero number: `2 ^ binade q ≤ |q| < 2 ^ (binade q + 1)`. -/
def binade (q : ℚ) : ℤ :=
  let e : ℤ := (Nat.log2 q.num.natAbs : ℤ) - (Nat.log2 q.den : ℤ)
  if pow2 e ≤ |q| then e else e - 1

/-- The exponent of the unit in the last place: 53 significant bits, but never below `2 ^ (-1074)`. -/
def unitExp (q : ℚ) : ℤ := max (binade q - 52) (-1074)

/-- Round to the nearest multiple of the unit in the last place, ties to even. -/
def roundQ (q : ℚ) : ℚ := (nearestEven (q / pow2 (unitExp q)) : ℚ) * pow2 (unitExp q)

/-- The finite binary64 numbers when the exponent has no upper bound: `m * 2 ^ e` with a 53-bit integer `m`. -/
def Representable (q : ℚ) : Prop := ∃ m e : ℤ, |m| < 2 ^ 53 ∧ -1074 ≤ e ∧ q = m * (2 : ℚ) ^ e

theorem pow2_eq (e : ℤ) : pow2 e = (2 : ℚ) ^ e := by
  cases e with
  | ofNat n => simp [pow2]
  | negSucc n => simp [pow2, Rat.mkRat_eq_div, zpow_negSucc]

theorem pow2_pos (e : ℤ) : 0 < pow2 e := by rw [pow2_eq]; positivity

theorem nearestEven_int (n : ℤ) : nearestEven n = n := by
  simp [nearestEven]

theorem nearestEven_near (x : ℚ) : |(nearestEven x : ℚ) - x| ≤ 1 / 2 := by
  have h1 := Int.floor_le x
  have h2 := Int.lt_floor_add_one x
  unfold nearestEven
  split_ifs with ha hb hc <;> rw [abs_le] <;> push_cast <;> constructor <;> linarith

theorem nearestEven_mono {x y : ℚ} (h : x ≤ y) : nearestEven x ≤ nearestEven y := by
  have hf := Int.floor_le_floor h
  rcases hf.eq_or_lt with hf | hf
  · unfold nearestEven
    rw [← hf]
    split_ifs <;> first | omega | (exfalso; linarith)
  · have h1 : nearestEven x ≤ ⌊x⌋ + 1 := by unfold nearestEven; split_ifs <;> omega
    have h2 : ⌊y⌋ ≤ nearestEven y := by unfold nearestEven; split_ifs <;> omega
    omega

theorem nearestEven_neg (x : ℚ) : nearestEven (-x) = -nearestEven x := by
  by_cases hi : x = ⌊x⌋
  · have : nearestEven (-x) = nearestEven ((-⌊x⌋ : ℤ) : ℚ) := by rw [Int.cast_neg, ← hi]
    rw [this, nearestEven_int, hi, nearestEven_int]
    simp
  · have h1 := Int.floor_le x
    have h2 := Int.lt_floor_add_one x
    have h3 : (⌊x⌋ : ℚ) < x := lt_of_le_of_ne h1 (Ne.symm hi)
    have hfl : ⌊-x⌋ = -⌊x⌋ - 1 := by
      rw [Int.floor_eq_iff]
      push_cast
      constructor <;> linarith
    unfold nearestEven
    rw [hfl]
    push_cast
    split_ifs <;> first | omega | (exfalso; linarith)

/-- no integer is nearer -/
theorem nearestEven_best (x : ℚ) (n : ℤ) : |(nearestEven x : ℚ) - x| ≤ |(n : ℚ) - x| := by
  by_cases h : n = nearestEven x
  · rw [h]
  · have h1 := nearestEven_near x
    have h2 : (1 : ℚ) ≤ |(n : ℚ) - nearestEven x| := by
      have : (1 : ℤ) ≤ |n - nearestEven x| := Int.one_le_abs (sub_ne_zero.mpr h)
      exact_mod_cast this
    have h3 : |(n : ℚ) - nearestEven x| ≤ |(n : ℚ) - x| + |x - nearestEven x| := by
      have := abs_add_le ((n : ℚ) - x) (x - nearestEven x)
      simpa using this
    rw [abs_sub_comm x] at h3
    linarith

theorem two_zpow_lt {a b : ℤ} : (2 : ℚ) ^ a < (2 : ℚ) ^ b ↔ a < b := zpow_lt_zpow_iff_right₀ (by norm_num)
theorem two_zpow_le {a b : ℤ} : (2 : ℚ) ^ a ≤ (2 : ℚ) ^ b ↔ a ≤ b := zpow_le_zpow_iff_right₀ (by norm_num)

theorem binade_spec {q : ℚ} (hq : q ≠ 0) : (2 : ℚ) ^ binade q ≤ |q| ∧ |q| < (2 : ℚ) ^ (binade q + 1) := by
  have hn : q.num.natAbs ≠ 0 := by simpa using hq
  have hd : q.den ≠ 0 := q.den_nz
  have hdpos : (0 : ℚ) < q.den := by exact_mod_cast q.den_pos
  have habs : |q| = (q.num.natAbs : ℚ) / q.den := by
    conv_lhs => rw [← Rat.num_div_den q]
    rw [abs_div, Nat.abs_cast, Nat.cast_natAbs, Int.cast_abs]
  set a := Nat.log2 q.num.natAbs with ha
  set b := Nat.log2 q.den with hb
  have a1 : (2 : ℚ) ^ (a : ℤ) ≤ q.num.natAbs := by
    rw [zpow_natCast]; exact_mod_cast Nat.log2_self_le hn
  have a2 : (q.num.natAbs : ℚ) < (2 : ℚ) ^ ((a : ℤ) + 1) := by
    have := Nat.lt_log2_self (n := q.num.natAbs)
    have : ((q.num.natAbs : ℕ) : ℚ) < ((2 ^ (a + 1) : ℕ) : ℚ) := by exact_mod_cast this
    simpa [zpow_add_one₀, pow_succ] using this
  have b1 : (2 : ℚ) ^ (b : ℤ) ≤ q.den := by
    rw [zpow_natCast]; exact_mod_cast Nat.log2_self_le hd
  have b2 : (q.den : ℚ) < (2 : ℚ) ^ ((b : ℤ) + 1) := by
    have := Nat.lt_log2_self (n := q.den)
    have : ((q.den : ℕ) : ℚ) < ((2 ^ (b + 1) : ℕ) : ℚ) := by exact_mod_cast this
    simpa [zpow_add_one₀, pow_succ] using this
  have two : (2 : ℚ) ≠ 0 := by norm_num
  have hlow : (2 : ℚ) ^ ((a : ℤ) - b - 1) ≤ |q| := by
    rw [habs, le_div_iff₀ hdpos]
    calc (2 : ℚ) ^ ((a : ℤ) - b - 1) * q.den ≤ (2 : ℚ) ^ ((a : ℤ) - b - 1) * (2 : ℚ) ^ ((b : ℤ) + 1) :=
          mul_le_mul_of_nonneg_left b2.le (by positivity)
      _ = (2 : ℚ) ^ (a : ℤ) := by rw [← zpow_add₀ two]; congr 1; ring
      _ ≤ _ := a1
  have hhigh : |q| < (2 : ℚ) ^ ((a : ℤ) - b + 1) := by
    rw [habs, div_lt_iff₀ hdpos]
    calc (q.num.natAbs : ℚ) < (2 : ℚ) ^ ((a : ℤ) + 1) := a2
      _ = (2 : ℚ) ^ ((a : ℤ) - b + 1) * (2 : ℚ) ^ (b : ℤ) := by rw [← zpow_add₀ two]; congr 1; ring
      _ ≤ _ := mul_le_mul_of_nonneg_left b1 (by positivity)
  simp only [binade, ← ha, ← hb, pow2_eq]
  split_ifs with h
  · exact ⟨h, hhigh⟩
  · refine ⟨hlow, ?_⟩
    rw [sub_add_cancel]
    exact not_le.mp h

theorem binade_neg (q : ℚ) : binade (-q) = binade q := by simp [binade]
theorem unitExp_neg (q : ℚ) : unitExp (-q) = unitExp q := by simp [unitExp, binade_neg]

theorem binade_mono {x y : ℚ} (hx : x ≠ 0) (h : |x| ≤ |y|) : binade x ≤ binade y := by
  have hy : y ≠ 0 := by
    rintro rfl
    simp at h
    exact hx h
  have h1 := (binade_spec hx).1
  have h2 := (binade_spec hy).2
  have := (h1.trans h).trans_lt h2
  rw [two_zpow_lt] at this
  omega

theorem roundQ_zero : roundQ 0 = 0 := by
  have : nearestEven 0 = 0 := by simpa using nearestEven_int 0
  simp [roundQ, this]

theorem roundQ_neg (q : ℚ) : roundQ (-q) = -roundQ q := by
  simp [roundQ, unitExp_neg, neg_div, nearestEven_neg]

/-- a multiple of the unit is kept -/
theorem roundQ_multiple {q : ℚ} {n : ℤ} (h : q = n * (2 : ℚ) ^ unitExp q) : roundQ q = q := by
  have hp : (2 : ℚ) ^ unitExp q ≠ 0 := by positivity
  have : q / (2 : ℚ) ^ unitExp q = n := by rw [div_eq_iff hp]; exact h
  rw [roundQ, pow2_eq, this, nearestEven_int, ← h]

/-- a power of two times an integer is an integer multiple of every smaller power -/
theorem multiple_of_le {m e u : ℤ} (h : u ≤ e) : ∃ n : ℤ, (m : ℚ) * (2 : ℚ) ^ e = n * (2 : ℚ) ^ u := by
  refine ⟨m * 2 ^ (e - u).toNat, ?_⟩
  have : (e - u).toNat = e - u := Int.toNat_of_nonneg (by omega)
  push_cast
  rw [mul_assoc]
  congr 1
  rw [← zpow_natCast, this, ← zpow_add₀ (by norm_num)]
  congr 1
  ring

/-- a representable number is a multiple of its own unit, and more: of the unit of every number that is not larger -/
theorem Representable.multiple {r q : ℚ} (hr : Representable r) (h : (2 : ℚ) ^ binade q ≤ |r|) :
    ∃ n : ℤ, r = n * (2 : ℚ) ^ unitExp q := by
  obtain ⟨m, e, hm, he, rfl⟩ := hr
  apply multiple_of_le
  by_contra hlt
  have hu : unitExp q = binade q - 52 := by
    unfold unitExp at hlt ⊢
    omega
  have h1 : |(m : ℚ) * (2 : ℚ) ^ e| < (2 : ℚ) ^ (53 + e) := by
    rw [abs_mul, abs_of_pos (show (0 : ℚ) < (2 : ℚ) ^ e by positivity), zpow_add₀ (by norm_num)]
    apply mul_lt_mul_of_pos_right _ (by positivity)
    have : |(m : ℚ)| < 2 ^ 53 := by exact_mod_cast hm
    exact_mod_cast this
  have h2 := h.trans_lt h1
  rw [two_zpow_lt] at h2
  omega

theorem roundQ_representable {q : ℚ} (h : Representable q) : roundQ q = q := by
  by_cases hq : q = 0
  · rw [hq, roundQ_zero]
  · obtain ⟨n, hn⟩ := h.multiple (binade_spec hq).1
    exact roundQ_multiple hn

theorem representable_zero : Representable 0 := ⟨0, 0, by norm_num, by norm_num, by simp⟩

theorem Representable.neg {q : ℚ} (h : Representable q) : Representable (-q) := by
  obtain ⟨m, e, hm, he, rfl⟩ := h
  exact ⟨-m, e, by simpa using hm, he, by push_cast; ring⟩

theorem representable_pow2 {e : ℤ} (h : -1074 ≤ e) : Representable ((2 : ℚ) ^ e) := ⟨1, e, by norm_num, h, by simp⟩

theorem roundQ_is_representable (q : ℚ) : Representable (roundQ q) := by
  by_cases hq : q = 0
  · rw [hq, roundQ_zero]; exact representable_zero
  have hu : -1074 ≤ unitExp q := le_max_right _ _
  rw [roundQ, pow2_eq]
  set n := nearestEven (q / (2 : ℚ) ^ unitExp q) with hn
  have hle : |(q / (2 : ℚ) ^ unitExp q)| < 2 ^ 53 := by
    rw [abs_div, abs_of_pos (show (0 : ℚ) < (2 : ℚ) ^ unitExp q by positivity), div_lt_iff₀ (by positivity)]
    refine (binade_spec hq).2.trans_le ?_
    have : (2 : ℚ) ^ 53 * (2 : ℚ) ^ unitExp q = (2 : ℚ) ^ (53 + unitExp q) := by
      rw [zpow_add₀ (by norm_num)]; norm_cast
    rw [this, two_zpow_le]
    have : binade q - 52 ≤ unitExp q := le_max_left _ _
    omega
  rw [abs_lt] at hle
  have hn1 : n ≤ 2 ^ 53 := by
    rw [hn, ← nearestEven_int (2 ^ 53)]
    apply nearestEven_mono
    push_cast
    exact hle.2.le
  have hn2 : -2 ^ 53 ≤ n := by
    rw [hn, ← nearestEven_int (-2 ^ 53)]
    apply nearestEven_mono
    push_cast
    exact hle.1.le
  by_cases h1 : |n| < 2 ^ 53
  · exact ⟨n, _, h1, hu, rfl⟩
  · have : n = 2 ^ 53 ∨ n = -2 ^ 53 := by
      rw [abs_lt] at h1
      omega
    have h53 : (2 : ℚ) ^ 53 * (2 : ℚ) ^ unitExp q = (2 : ℚ) ^ (53 + unitExp q) := by
      rw [zpow_add₀ (by norm_num)]; norm_cast
    rcases this with h | h
    · rw [h]
      rw [Int.cast_pow, Int.cast_ofNat, h53]
      exact representable_pow2 (by omega)
    · rw [h]
      rw [Int.cast_neg, Int.cast_pow, Int.cast_ofNat, neg_mul, h53]
      exact (representable_pow2 (by omega)).neg

theorem roundQ_idem (q : ℚ) : roundQ (roundQ q) = roundQ q := roundQ_representable (roundQ_is_representable q)

theorem roundQ_fixed_iff (q : ℚ) : roundQ q = q ↔ Representable q :=
  ⟨fun h => h ▸ roundQ_is_representable q, roundQ_representable⟩

theorem roundQ_nonneg {q : ℚ} (h : 0 ≤ q) : 0 ≤ roundQ q := by
  have : 0 ≤ nearestEven (q / pow2 (unitExp q)) := by
    have := nearestEven_mono (x := ((0 : ℤ) : ℚ)) (y := q / pow2 (unitExp q)) (by
      have := pow2_pos (unitExp q)
      push_cast
      positivity)
    rwa [nearestEven_int] at this
  have h2 := pow2_pos (unitExp q)
  rw [roundQ]
  have : (0 : ℚ) ≤ (nearestEven (q / pow2 (unitExp q)) : ℚ) := by exact_mod_cast this
  positivity

/-- compare with a multiple of the unit -/
theorem roundQ_le_multiple {q : ℚ} {n : ℤ} (h : q ≤ n * (2 : ℚ) ^ unitExp q) : roundQ q ≤ n * (2 : ℚ) ^ unitExp q := by
  have hp : (0 : ℚ) < (2 : ℚ) ^ unitExp q := by positivity
  rw [roundQ, pow2_eq]
  apply mul_le_mul_of_nonneg_right _ hp.le
  have := nearestEven_mono (x := q / (2 : ℚ) ^ unitExp q) (y := n) (by rw [div_le_iff₀ hp]; exact h)
  rw [nearestEven_int] at this
  exact_mod_cast this

@[inherit_doc roundQ_le_multiple]
theorem roundQ_ge_multiple {q : ℚ} {n : ℤ} (h : n * (2 : ℚ) ^ unitExp q ≤ q) : n * (2 : ℚ) ^ unitExp q ≤ roundQ q := by
  have hp : (0 : ℚ) < (2 : ℚ) ^ unitExp q := by positivity
  rw [roundQ, pow2_eq]
  apply mul_le_mul_of_nonneg_right _ hp.le
  have := nearestEven_mono (x := n) (y := q / (2 : ℚ) ^ unitExp q) (by rw [le_div_iff₀ hp]; exact h)
  rw [nearestEven_int] at this
  exact_mod_cast this

theorem roundQ_mono_pos {x y : ℚ} (hx : 0 < x) (h : x ≤ y) : roundQ x ≤ roundQ y := by
  have hy : 0 < y := hx.trans_le h
  have hb := binade_mono (y := y) hx.ne' (by rwa [abs_of_pos hx, abs_of_pos hy])
  by_cases hu : unitExp x = unitExp y
  · rw [roundQ, roundQ, hu]
    have hp := pow2_pos (unitExp y)
    apply mul_le_mul_of_nonneg_right _ hp.le
    exact_mod_cast nearestEven_mono (div_le_div_of_nonneg_right h hp.le)
  · have hlt : binade x < binade y := by
      rcases hb.eq_or_lt with hb | hb
      · exact absurd (by rw [unitExp, unitExp, hb]) hu
      · exact hb
    have hx2 := (binade_spec hx.ne').2
    have hy1 := (binade_spec hy.ne').1
    rw [abs_of_pos hx] at hx2
    rw [abs_of_pos hy] at hy1
    have hx3 : x ≤ (2 : ℚ) ^ binade y := hx2.le.trans (two_zpow_le.mpr (by omega))
    have h1 : unitExp y = binade y - 52 := by unfold unitExp at *; omega
    have h2 : unitExp x ≤ binade y := by unfold unitExp at *; omega
    obtain ⟨n, hn⟩ := multiple_of_le (m := 1) h2
    obtain ⟨k, hk⟩ := multiple_of_le (m := 1) (show unitExp y ≤ binade y by omega)
    rw [Int.cast_one, one_mul] at hn hk
    calc roundQ x ≤ n * (2 : ℚ) ^ unitExp x := roundQ_le_multiple (by rw [← hn]; exact hx3)
      _ = k * (2 : ℚ) ^ unitExp y := by rw [← hn, ← hk]
      _ ≤ roundQ y := roundQ_ge_multiple (by rw [← hk]; exact hy1)

/-- Rounding is monotone. -/
theorem roundQ_mono {x y : ℚ} (h : x ≤ y) : roundQ x ≤ roundQ y := by
  rcases lt_or_ge 0 x with hx | hx
  · exact roundQ_mono_pos hx h
  · have h1 : roundQ x ≤ 0 := by
      have := roundQ_nonneg (neg_nonneg.mpr hx)
      rw [roundQ_neg] at this
      linarith
    rcases lt_or_ge y 0 with hy | hy
    · have := roundQ_mono_pos (neg_pos.mpr hy) (neg_le_neg h)
      rw [roundQ_neg, roundQ_neg] at this
      linarith
    · exact h1.trans (roundQ_nonneg hy)

/-- Rounding gives a nearest representable number. -/
theorem roundQ_nearest (q : ℚ) {r : ℚ} (hr : Representable r) : |roundQ q - q| ≤ |r - q| := by
  by_cases hq : q = 0
  · rw [hq, roundQ_zero]; simp
  have hp : (0 : ℚ) < (2 : ℚ) ^ unitExp q := by positivity
  -- it is nearest among the multiples of the unit
  have hmul : ∀ n : ℤ, |roundQ q - q| ≤ |n * (2 : ℚ) ^ unitExp q - q| := by
    intro n
    have h := nearestEven_best (q / (2 : ℚ) ^ unitExp q) n
    have e : ∀ k : ℤ, |(k : ℚ) * (2 : ℚ) ^ unitExp q - q| = |(k : ℚ) - q / (2 : ℚ) ^ unitExp q| * (2 : ℚ) ^ unitExp q := by
      intro k
      rw [← abs_of_pos hp, ← abs_mul, abs_of_pos hp, sub_mul, div_mul_cancel₀ _ hp.ne']
    rw [roundQ, pow2_eq, e, e]
    exact mul_le_mul_of_nonneg_right h hp.le
  rcases le_or_gt ((2 : ℚ) ^ binade q) |r| with h | h
  · obtain ⟨n, hn⟩ := hr.multiple h
    rw [hn]
    exact hmul n
  · -- `r` is closer to zero than the bottom of the binade of `q`
    rcases le_or_gt (unitExp q) (binade q) with hle | hgt
    · obtain ⟨n, hn⟩ := multiple_of_le (m := 1) hle
      rw [Int.cast_one, one_mul] at hn
      have hb := (binade_spec hq).1
      rcases lt_or_gt_of_ne hq with hneg | hpos
      · have h1 := hmul (-n)
        push_cast at h1
        rw [neg_mul, ← hn] at h1
        rw [abs_of_neg hneg] at hb
        rw [abs_lt] at h
        refine h1.trans ?_
        rw [abs_of_nonneg (by linarith), abs_of_nonneg (by linarith)]
        linarith
      · have h1 := hmul n
        rw [← hn] at h1
        rw [abs_of_pos hpos] at hb
        rw [abs_lt] at h
        refine h1.trans ?_
        rw [abs_of_nonpos (by linarith), abs_of_nonpos (by linarith)]
        linarith
    · -- below half of the smallest number: `r` is zero
      have hu : unitExp q = -1074 := by unfold unitExp at *; omega
      obtain ⟨m, e, hm, he, rfl⟩ := hr
      obtain ⟨n, hn⟩ := multiple_of_le (m := m) (u := -1074) he
      rw [hn, ← hu]
      exact hmul n

theorem representable_ofNat {n : ℕ} (h : n ≤ 2 ^ 53) : Representable n := by
  rcases h.eq_or_lt with h | h
  · rw [h]
    have : (((2 : ℕ) ^ 53 : ℕ) : ℚ) = (2 : ℚ) ^ (53 : ℤ) := by norm_num
    rw [this]
    exact representable_pow2 (by norm_num)
  · exact ⟨n, 0, by rw [Nat.abs_cast]; exact_mod_cast h, by norm_num, by simp⟩

-- 0.1 + 0.2, and ties
example : roundQ (1 / 10) = 3602879701896397 / 36028797018963968 := by decide +kernel
example : roundQ (2 ^ 53 + 1) = 2 ^ 53 ∧ roundQ (2 ^ 53 + 3) = 2 ^ 53 + 4 := by decide +kernel
example : roundQ (1 / 2 ^ 1075) = 0 ∧ roundQ (3 / 2 ^ 1075) = 1 / 2 ^ 1073 := by decide +kernel

end Verif.B64
