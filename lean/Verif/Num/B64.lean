import Verif.Num.ExtLaws
import Verif.Num.Round
import Verif.Lemmas.Special
/-!
# IEEE-754 binary64

`B64` is the set of binary64 values (finite numbers with subnormals, two zeros, two infinities, one NaN) with the IEEE operations:
the exact result, rounded to nearest (ties to even), overflowing to infinity.  This is what Rust's `f64` computes; the payload of
a NaN, which no function of /repo can see, is left out.  The value of `exp` and the value a sum starts from are not fixed by IEEE-754;
they are parameters.

The law classes used by the theorems hold for `B64`.
-/

set_option linter.unusedSectionVars false

namespace Verif

/-- `2 ^ 1024`: the first power of two that is too large. -/
def B64.limit : ℚ := B64.pow2 1024

theorem B64.limit_big : (2 : ℚ) ^ 53 < B64.limit := by
  rw [B64.limit, B64.pow2_eq]
  have := B64.two_zpow_lt.mpr (show (53 : ℤ) < 1024 by norm_num)
  exact_mod_cast this

theorem B64.limit_pos : 0 < B64.limit := B64.pow2_pos _

/-- Round a real value to binary64: infinity on overflow. -/
def roundE : Ext ℚ → Ext ℚ
  | .fin q =>
    if B64.limit ≤ B64.roundQ q then .posInf
    else if B64.roundQ q ≤ -B64.limit then .negInf
    else .fin (B64.roundQ q)
  | e => e

theorem roundE_idem (e : Ext ℚ) : roundE (roundE e) = roundE e := by
  cases e with
  | fin q =>
    simp only [roundE]
    split_ifs with h1 h2
    · rfl
    · rfl
    · simp only [B64.roundQ_idem, h1, h2, if_false]
  | _ => rfl

/-- A binary64 value: its value, and whether it is the negative zero. -/
@[ext] structure B64 where
  val : Ext ℚ
  negZero : Bool
  rounded : roundE val = val
  only_zero : negZero = true → val = .fin 0

namespace B64

instance : DecidableEq B64 := fun x y =>
  if h : x.val = y.val ∧ x.negZero = y.negZero then .isTrue (B64.ext h.1 h.2)
  else .isFalse (fun e => h (by rw [e]; exact ⟨rfl, rfl⟩))

/-- The rounded value; `s` is the sign of a zero result. -/
def make (s : Bool) (e : Ext ℚ) : B64 where
  val := roundE e
  negZero := s && decide (roundE e = .fin 0)
  rounded := roundE_idem e
  only_zero h := by simpa using (Bool.and_eq_true_iff.mp h).2

/-- the sign bit (of a value that is not NaN) -/
def sign (x : B64) : Bool :=
  x.negZero || match x.val with
    | .negInf => true
    | .fin q => decide (q < 0)
    | _ => false

/-- unary minus -/
def neg (x : B64) : B64 := make (!x.negZero) (Ext.neg x.val)

/-- `+`; an exact zero sum is `-0` only for `-0 + -0` -/
def add (x y : B64) : B64 := make (x.sign && y.sign) (Ext.add x.val y.val)

/-- `*` -/
def mul (x y : B64) : B64 := make (x.sign ^^ y.sign) (Ext.mul x.val y.val)

/-- `/` -/
def div (x y : B64) : B64 :=
  if y.val = .fin 0 then
    if x.val = .nan ∨ x.val = .fin 0 then make false .nan
    else make false (if (x.sign ^^ y.sign) = true then .negInf else .posInf)
  else make (x.sign ^^ y.sign) (Ext.div x.val y.val)

end B64

/-- What IEEE-754 does not fix: the value of `exp`, and whether `sum()` starts from `-0.0`. -/
class B64Env where
  exp : B64 → B64
  sumFromNegZero : Bool

instance [B64Env] : F64 B64 where
  zero := .make false (.fin 0)
  one := .make false (.fin 1)
  infinity := .make false .posInf
  negInfinity := .make false .negInf
  sumStart := .make B64Env.sumFromNegZero (.fin 0)
  add := B64.add
  sub x y := B64.add x y.neg
  mul := B64.mul
  div := B64.div
  neg := B64.neg
  abs x := .make false (Ext.abs x.val)
  exp := B64Env.exp
  eq x y := Ext.le x.val y.val && Ext.le y.val x.val
  lt x y := Ext.le x.val y.val && !Ext.le y.val x.val
  le x y := Ext.le x.val y.val
  ofNat n := .make false (.fin (n : ℚ))
  toUsize x := Ext.toUsize x.val

namespace B64

variable [B64Env]

@[simp] theorem make_val (s : Bool) (e : Ext ℚ) : (make s e).val = roundE e := rfl
@[simp] theorem add_val (x y : B64) : (x +. y).val = roundE (x.val +. y.val) := rfl
@[simp] theorem mul_val (x y : B64) : (x *. y).val = roundE (x.val *. y.val) := rfl
theorem le_val (x y : B64) : (x <=. y) = (x.val <=. y.val) := rfl
theorem lt_val (x y : B64) : (x <. y) = (x.val <. y.val) := rfl
theorem eq_val (x y : B64) : (x ==. y) = (x.val ==. y.val) := rfl
@[simp] theorem ofNat_val (n : Nat) : (F64.ofNat n : B64).val = roundE (.fin n) := rfl

@[simp] theorem roundE_nan : roundE .nan = .nan := rfl
@[simp] theorem roundE_posInf : roundE .posInf = .posInf := rfl
@[simp] theorem roundE_negInf : roundE .negInf = .negInf := rfl

theorem roundE_fin {q : ℚ} (h : Representable q) (h2 : |q| < limit) : roundE (.fin q) = .fin q := by
  rw [abs_lt] at h2
  simp only [roundE, roundQ_representable h]
  rw [if_neg (_root_.not_le.mpr h2.2), if_neg (_root_.not_le.mpr h2.1)]

@[simp] theorem roundE_zero : roundE (.fin 0) = .fin 0 := roundE_fin representable_zero (by simpa using limit_pos)
theorem roundE_nat {n : ℕ} (h : n ≤ 2 ^ 53) : roundE (.fin n) = .fin n := by
  refine roundE_fin (representable_ofNat h) ?_
  rw [Nat.abs_cast]
  have : (n : ℚ) ≤ 2 ^ 53 := by exact_mod_cast h
  exact this.trans_lt limit_big
@[simp] theorem roundE_one : roundE (.fin 1) = .fin 1 := by simpa using roundE_nat (n := 1) (by norm_num)

@[simp] theorem zero_val : (F64.zero : B64).val = .fin 0 := roundE_zero
@[simp] theorem one_val : (F64.one : B64).val = .fin 1 := roundE_one
@[simp] theorem infinity_val : (F64.infinity : B64).val = .posInf := rfl
@[simp] theorem negInfinity_val : (F64.negInfinity : B64).val = .negInf := rfl
@[simp] theorem sumStart_val : (F64.sumStart : B64).val = .fin 0 := roundE_zero

theorem roundE_neg (e : Ext ℚ) : roundE (Ext.neg e) = Ext.neg (roundE e) := by
  cases e with
  | fin q =>
    simp only [roundE, Ext.neg, roundQ_neg]
    have hp := limit_pos
    split_ifs with h1 h2 h3 h4 h5 h6 h7
    all_goals first | rfl | (exfalso; linarith)
  | _ => rfl

@[simp] theorem neg_val (x : B64) : (F64.neg x).val = Ext.neg x.val := by
  show roundE (Ext.neg x.val) = _
  rw [roundE_neg, x.rounded]

@[simp] theorem sub_val (x y : B64) : (x -. y).val = roundE (x.val -. y.val) := by
  show roundE (Ext.add x.val (neg y).val) = roundE (Ext.add x.val (Ext.neg y.val))
  rw [show (neg y).val = Ext.neg y.val from neg_val y]

theorem div_val (x y : B64) (h : y.val ≠ .fin 0) : (x /. y).val = roundE (x.val /. y.val) := by
  show (div x y).val = _
  rw [div, if_neg h]
  rfl

theorem roundE_mono {a b : Ext ℚ} (h : (a <=. b) = true) : (roundE a <=. roundE b) = true := by
  have big : ∀ q r : ℚ, q ≤ r → (roundE (.fin q) <=. roundE (.fin r)) = true := by
    intro q r hqr
    have hm := roundQ_mono hqr
    have hp := limit_pos
    simp only [roundE]
    split_ifs <;> simp only [F64.le, Ext.le, decide_eq_true_eq] <;> first | exact hm | (exfalso; linarith)
  cases a <;> cases b <;> simp only [F64.le, Ext.le, decide_eq_true_eq, Bool.false_eq_true] at h
  case fin.fin q r => exact big q r h
  all_goals simp only [roundE]
  all_goals try split_ifs
  all_goals rfl

theorem roundE_isNaN {e : Ext ℚ} : roundE e = .nan ↔ e = .nan := by
  cases e with
  | fin q => simp only [roundE]; split_ifs <;> simp
  | _ => simp

instance : LawfulOrder B64 where
  le_nan h := LawfulOrder.le_nan (F := Ext ℚ) h
  le_trans h1 h2 := LawfulOrder.le_trans (F := Ext ℚ) h1 h2
  le_total h1 h2 := LawfulOrder.le_total (F := Ext ℚ) h1 h2
  lt_iff := LawfulOrder.lt_iff (F := Ext ℚ)
  eq_iff := LawfulOrder.eq_iff (F := Ext ℚ)
  zero_eq := by rw [eq_val]; simp
  inf_eq := rfl
  negInf_le h := LawfulOrder.negInf_le (F := Ext ℚ) h
  sub_inf := by
    intro x
    rw [lt_val, sub_val, infinity_val, zero_val]
    cases x.val <;> rfl

theorem sign_of_ofNat {n : ℕ} (h : n ≤ 2 ^ 53) : (F64.ofNat n : B64).sign = false := by
  have hv : (F64.ofNat n : B64).val = .fin n := by rw [ofNat_val, roundE_nat h]
  have hz : (F64.ofNat n : B64).negZero = false := rfl
  rw [sign, hv, hz]
  simp

instance : LawfulCount B64 where
  zero_eq_ofNat := by
    show make false (.fin 0) = make false (.fin ((0 : ℕ) : ℚ))
    simp
  add_one := by
    intro n hn
    apply B64.ext
    · simp [roundE_nat hn.le]
    · have : (F64.ofNat n +. (F64.one : B64)).negZero = false := by
        show (((F64.ofNat n : B64).sign && _) && _) = false
        rw [sign_of_ofNat hn.le]
        simp
      rw [this]
      rfl
  toUsize_ofNat := by
    intro n hn
    show Ext.toUsize (F64.ofNat n : B64).val = n
    rw [ofNat_val, roundE_nat hn]
    exact LawfulCount.toUsize_ofNat (F := Ext ℚ) hn

/-- dividing by a non-zero count that is a representable integer -/
theorem div_count {m n : ℕ} (hn : 0 < n) (hm : m ≤ n) (h53 : n ≤ 2 ^ 53) :
    (F64.ofNat m /. F64.ofNat n : B64).val = roundE (.fin ((m : ℚ) / n)) := by
  have hn0 : (n : ℚ) ≠ 0 := by exact_mod_cast hn.ne'
  have hv : (F64.ofNat n : B64).val = .fin n := by rw [ofNat_val, roundE_nat h53]
  rw [div_val _ _ (by rw [hv]; simpa using hn.ne'), hv, ofNat_val, roundE_nat (hm.trans h53), Ext.fin_div _ _ hn0]

instance : LawfulFraction B64 where
  nonneg := by
    intro m n hn hm h53
    rw [le_val, div_count hn hm h53, zero_val, ← roundE_zero]
    apply roundE_mono
    simp only [Ext.fin_le, decide_eq_true_eq]
    positivity
  le_one := by
    intro m n hn hm h53
    rw [le_val, div_count hn hm h53, one_val]
    conv_lhs => rw [← roundE_one]
    apply roundE_mono
    simp only [Ext.fin_le, decide_eq_true_eq]
    have h0 : (0 : ℚ) < n := by exact_mod_cast hn
    rw [div_le_one h0]
    exact_mod_cast hm
  eq_one := by
    intro m n hn hm h53
    have h0 : (0 : ℚ) < n := by exact_mod_cast hn
    rw [eq_val, div_count hn hm h53, one_val]
    constructor
    · intro h
      by_contra hne
      have hlt : m < n := lt_of_le_of_ne hm hne
      -- the largest number below one
      have hrep : Representable (1 - 1 / 2 ^ 53 : ℚ) :=
        ⟨2 ^ 53 - 1, -53, by norm_num, by norm_num, by norm_num⟩
      have hle : (m : ℚ) / n ≤ 1 - 1 / 2 ^ 53 := by
        rw [div_le_iff₀ h0]
        have h1 : (m : ℚ) + 1 ≤ n := by exact_mod_cast hlt
        have h2 : (n : ℚ) ≤ 2 ^ 53 := by exact_mod_cast h53
        have h3 : (1 / 2 ^ 53 : ℚ) * n ≤ 1 := by
          rw [one_div, inv_mul_le_iff₀ (by positivity)]; simpa using h2
        linarith
      have h1 := roundE_mono (a := .fin ((m : ℚ) / n)) (b := .fin (1 - 1 / 2 ^ 53)) (by simpa using hle)
      rw [roundE_fin hrep (by rw [abs_of_nonneg (by norm_num)]; exact lt_trans (by norm_num) limit_big)] at h1
      have h2 := ((LawfulOrder.eq_iff (F := Ext ℚ)).mp h).2
      have h3 := LawfulOrder.le_trans h2 h1
      simp only [Ext.fin_le, decide_eq_true_eq] at h3
      norm_num at h3
    · rintro rfl
      rw [div_self h0.ne', roundE_one]
      simp
  eq_zero := by
    intro m n hn hm h53
    have h0 : (0 : ℚ) < n := by exact_mod_cast hn
    rw [eq_val, div_count hn hm h53, zero_val]
    constructor
    · intro h
      by_contra hne
      have hpos : 0 < m := Nat.pos_of_ne_zero hne
      have hrep : Representable (1 / 2 ^ 53 : ℚ) := ⟨1, -53, by norm_num, by norm_num, by norm_num⟩
      have hle : (1 / 2 ^ 53 : ℚ) ≤ (m : ℚ) / n := by
        have h1 : (1 : ℚ) ≤ m := by exact_mod_cast hpos
        have h2 : (n : ℚ) ≤ 2 ^ 53 := by exact_mod_cast h53
        exact div_le_div₀ (by positivity) h1 h0 h2
      have h1 := roundE_mono (a := .fin (1 / 2 ^ 53)) (b := .fin ((m : ℚ) / n)) (by simpa using hle)
      rw [roundE_fin hrep (by rw [abs_of_nonneg (by norm_num)]; exact lt_trans (by norm_num) limit_big)] at h1
      have h2 := ((LawfulOrder.eq_iff (F := Ext ℚ)).mp h).1
      have h3 := LawfulOrder.le_trans h1 h2
      simp only [Ext.fin_le, decide_eq_true_eq] at h3
      norm_num at h3
    · rintro rfl
      simp
  zero_zero := by
    have h : (F64.ofNat 0 : B64).val = .fin 0 := by rw [ofNat_val]; simp
    have : ((F64.ofNat 0 : B64) /. F64.ofNat 0) = make false .nan := by
      show div _ _ = _
      rw [div, if_pos h, if_pos (.inr h)]
    rw [this]
    rfl

/-- rounding keeps the sign -/
theorem roundE_not_neg {e : Ext ℚ} (h : (e <. F64.zero) = false) : (roundE e <. F64.zero) = false := by
  rw [Ext.not_neg_iff] at *
  rcases h with rfl | rfl | ⟨a, rfl, ha⟩
  · exact .inl rfl
  · exact .inr (.inl rfl)
  · have hr := roundQ_nonneg ha
    simp only [roundE]
    have hp := limit_pos
    split_ifs with h1 h2
    · exact .inr (.inl rfl)
    · exfalso; linarith
    · exact .inr (.inr ⟨_, rfl, hr⟩)

theorem ofNat_not_neg (n : ℕ) : ((F64.ofNat n : B64).val <. F64.zero) = false := by
  rw [ofNat_val]
  exact roundE_not_neg (by simp)

theorem ofNat_sign (n : ℕ) : (F64.ofNat n : B64).sign = false := by
  have h := ofNat_not_neg n
  rw [Ext.not_neg_iff] at h
  have hz : (F64.ofNat n : B64).negZero = false := rfl
  rw [sign, hz]
  rcases h with h | h | ⟨a, h, ha⟩ <;> rw [h] <;> simp; exact ha

theorem sign_of_inf {x : B64} (h : x.val = .posInf) : x.sign = false := by
  have : x.negZero = false := by
    cases hz : x.negZero with
    | false => rfl
    | true => rw [x.only_zero hz] at h; cases h
  rw [sign, h, this]; rfl

theorem sign_of_pos {x : B64} {a : ℚ} (h : x.val = .fin a) (ha : 0 < a) : x.sign = false := by
  have : x.negZero = false := by
    cases hz : x.negZero with
    | false => rfl
    | true => rw [x.only_zero hz] at h; cases h; exact absurd ha (lt_irrefl _)
  rw [sign, h, this]; simp [ha.le]

instance : LawfulSign B64 where
  zero := by rw [lt_val]; simp
  sumStart := by rw [lt_val]; simp
  square x := by
    rw [lt_val, mul_val, zero_val]
    exact roundE_not_neg (LawfulSign.square _)
  add := by
    intro x y hx hy
    rw [lt_val, zero_val] at *
    rw [add_val]
    exact roundE_not_neg (LawfulSign.add hx hy)
  div := by
    intro x n hx
    rw [lt_val, zero_val] at *
    by_cases hz : (F64.ofNat n : B64).val = .fin 0
    · show ((div x (F64.ofNat n)).val <. _) = false
      rw [div, if_pos hz]
      split_ifs with h1 h2
      · rfl
      · exfalso
        rw [ofNat_sign, Bool.xor_false] at h2
        have hx' := (Ext.not_neg_iff (x := x.val)).mp hx
        rcases hx' with h | h | ⟨a, h, ha⟩
        · exact h1 (.inl h)
        · rw [sign_of_inf h] at h2; cases h2
        · rcases ha.eq_or_lt with rfl | ha
          · exact h1 (.inr h)
          · rw [sign_of_pos h ha] at h2; cases h2
      · rfl
    · rw [div_val _ _ hz]
      apply roundE_not_neg
      have hn := (Ext.not_neg_iff (x := (F64.ofNat n : B64).val)).mp (ofNat_not_neg n)
      have hx' := (Ext.not_neg_iff (x := x.val)).mp hx
      rw [Ext.not_neg_iff]
      rcases hx' with h | h | ⟨a, h, ha⟩ <;> rcases hn with h' | h' | ⟨b, h', hb⟩ <;> rw [h, h']
      all_goals try (left; rfl)
      · right; left
        simp [F64.div, Ext.div, hb]
      · right; right
        exact ⟨0, rfl, le_refl _⟩
      · have hb0 : b ≠ 0 := by
          rintro rfl
          exact hz h'
        right; right
        exact ⟨a / b, Ext.fin_div _ _ hb0, div_nonneg ha hb⟩

theorem nonFinite_val {x : B64} : nonFinite x = nonFinite x.val := rfl
theorem posSpecial_val {x : B64} : posSpecial x = posSpecial x.val := rfl
theorem isNaN_val {x : B64} : isNaN x = isNaN x.val := rfl

theorem roundE_nonFinite {e : Ext ℚ} (h : nonFinite e = true) : nonFinite (roundE e) = true := by
  rw [Ext.nonFinite_iff] at h
  rcases h with rfl | rfl | rfl <;> rfl

theorem roundE_posSpecial {e : Ext ℚ} (h : posSpecial e = true) : posSpecial (roundE e) = true := by
  rw [Ext.posSpecial_iff] at h
  rcases h with rfl | rfl <;> rfl

theorem roundE_nan' {e : Ext ℚ} (h : isNaN e = true) : isNaN (roundE e) = true := by
  rw [Ext.isNaN_iff] at h
  subst h
  rfl

instance : LawfulSpecial B64 where
  add_left y h := roundE_nonFinite (LawfulSpecial.add_left (F := Ext ℚ) _ h)
  add_right x _ h := roundE_nonFinite (LawfulSpecial.add_right (F := Ext ℚ) _ h)
  sub_left := by
    intro x y h
    rw [nonFinite_val, sub_val]
    exact roundE_nonFinite (LawfulSpecial.sub_left (F := Ext ℚ) _ h)
  div := by
    intro x n h
    rw [nonFinite_val] at *
    by_cases hz : (F64.ofNat n : B64).val = .fin 0
    · show nonFinite (div x (F64.ofNat n)).val = true
      rw [div, if_pos hz]
      split_ifs <;> rfl
    · rw [div_val _ _ hz]
      apply roundE_nonFinite
      rw [Ext.nonFinite_iff] at *
      rcases h with h | h | h <;> rw [h] <;> rcases hv : (F64.ofNat n : B64).val with _ | _ | b | _
      all_goals simp only [F64.div, Ext.div]
      all_goals first | (split_ifs <;> simp) | simp
  square h := roundE_posSpecial (LawfulSpecial.square (F := Ext ℚ) h)
  pos_add_left := by
    intro x y h hy
    rw [lt_val, zero_val] at hy
    exact roundE_posSpecial (LawfulSpecial.pos_add_left (F := Ext ℚ) h hy)
  pos_add_right := by
    intro x y hx h
    rw [lt_val, zero_val] at hx
    exact roundE_posSpecial (LawfulSpecial.pos_add_right (F := Ext ℚ) hx h)
  ofNat_mul := by
    intro x n h
    rw [posSpecial_val] at *
    rw [mul_val]
    apply roundE_posSpecial
    have hn := (Ext.not_neg_iff (x := (F64.ofNat n : B64).val)).mp (ofNat_not_neg n)
    rw [Ext.posSpecial_iff] at *
    rcases hn with h' | h' | ⟨b, h', hb⟩ <;> rcases h with h | h <;> rw [h, h']
    all_goals simp only [F64.mul, Ext.mul, Ext.signInf]
    all_goals try simp
    rcases hb.eq_or_lt with rfl | hb
    · simp
    · simp [hb]
  sub := by
    intro x y hx hy
    rw [isNaN_val, sub_val]
    exact roundE_nan' (LawfulSpecial.sub (F := Ext ℚ) hx hy)
  nan_add_left y h := roundE_nan' (LawfulSpecial.nan_add_left (F := Ext ℚ) _ h)
  nan_add_right x _ h := roundE_nan' (LawfulSpecial.nan_add_right (F := Ext ℚ) _ h)
  nan_sub_left := by
    intro x y h
    rw [isNaN_val, sub_val]
    exact roundE_nan' (LawfulSpecial.nan_sub_left (F := Ext ℚ) _ h)
  nan_div_left := by
    intro x y h
    rw [isNaN_val] at *
    rw [Ext.isNaN_iff] at *
    by_cases hz : y.val = .fin 0
    · show (div x y).val = .nan
      rw [div, if_pos hz, if_pos (.inl h)]
      rfl
    · rw [div_val _ _ hz, h]
      rfl

end B64

end Verif
