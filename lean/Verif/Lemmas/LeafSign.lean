import Verif.Lemmas.Softmax
import Verif.Lemmas.Leaf
/-!
# The sign of leaf outputs with rounding
-/

set_option linter.unusedSectionVars false

namespace Verif

/-- NaN or not positive -/
def Ext.Low (e : Ext ℚ) : Prop := e = .nan ∨ (e <=. .fin 0) = true

/-- NaN or not negative -/
def Ext.High (e : Ext ℚ) : Prop := e = .nan ∨ (.fin 0 <=. e) = true

namespace Ext

theorem low_add {a b : Ext ℚ} (ha : Low a) (hb : Low b) : Low (a +. b) := by
  cases a <;> cases b <;> simp_all [Low, F64.le, Ext.le, F64.add, Ext.add]
  linarith

theorem high_add {a b : Ext ℚ} (ha : High a) (hb : High b) : High (a +. b) := by
  cases a <;> cases b <;> simp_all [High, F64.le, Ext.le, F64.add, Ext.add]
  linarith

theorem low_mul {a b : Ext ℚ} (ha : Low a) (hb : High b) : Low (a *. b) := by
  cases a <;> cases b <;> simp_all [Low, High, F64.le, Ext.le, F64.mul, Ext.mul, signInf]
  · rename_i x
    have h : ¬ x < 0 := by linarith
    simp only [h, if_false]
    split_ifs <;> simp
  · exact mul_nonpos_of_nonpos_of_nonneg ha hb
  · rename_i x
    have h : ¬ 0 < x := by linarith
    simp only [h, if_false]
    split_ifs <;> simp

theorem high_mul {a b : Ext ℚ} (ha : High a) (hb : High b) : High (a *. b) := by
  cases a <;> cases b <;> simp_all [High, F64.le, Ext.le, F64.mul, Ext.mul, signInf]
  · exact mul_nonneg ha hb
  · rename_i x
    have h : ¬ x < 0 := by linarith
    simp only [h, if_false]
    split_ifs <;> simp
  · rename_i x
    have h : ¬ x < 0 := by linarith
    simp only [h, if_false]
    split_ifs <;> simp

theorem low_div {a b : Ext ℚ} (ha : Low a) (hb : High b) (h0 : b ≠ .fin 0) : Low (a /. b) := by
  cases a <;> cases b <;> simp_all [Low, High, F64.le, Ext.le, F64.div, Ext.div]
  · rename_i x
    have h : ¬ x < 0 := by linarith
    simp [h]
  · exact div_nonpos_of_nonpos_of_nonneg ha hb

theorem high_div {a b : Ext ℚ} (ha : High a) (hb : High b) (h0 : b ≠ .fin 0) : High (a /. b) := by
  cases a <;> cases b <;> simp_all [High, F64.le, Ext.le, F64.div, Ext.div]
  · exact div_nonneg ha hb
  · rename_i x
    have h : ¬ x < 0 := by linarith
    simp [h]

variable [B64Env]

theorem low_round {a : Ext ℚ} (ha : Low a) : Low (roundE a) := by
  rcases ha with rfl | h
  · exact .inl rfl
  · have := B64.roundE_mono h
    rw [B64.roundE_zero] at this
    exact .inr this

theorem high_round {a : Ext ℚ} (ha : High a) : High (roundE a) := by
  rcases ha with rfl | h
  · exact .inl rfl
  · have := B64.roundE_mono h
    rw [B64.roundE_zero] at this
    exact .inr this

end Ext

namespace B64

/-- not negative, and not the negative zero -/
def Plus (x : B64) : Prop := x.negZero = false ∧ Ext.High x.val

theorem Plus.sign {x : B64} (h : Plus x) : x.sign = false := by
  obtain ⟨h1, h2⟩ := h
  rw [B64.sign, h1, Bool.false_or]
  cases hx : x.val <;> rw [hx] at h2 <;> simp_all [Ext.High, F64.le, Ext.le]

variable [B64Env]

theorem Plus.add {x y : B64} (hx : Plus x) (hy : Plus y) : Plus (x +. y) := by
  refine ⟨?_, ?_⟩
  · show ((x.sign && y.sign) && _) = false
    rw [hx.sign]
    rfl
  · rw [add_val]
    exact Ext.high_round (Ext.high_add hx.2 hy.2)

theorem Plus.mul {x y : B64} (hx : Plus x) (hy : Plus y) : Plus (x *. y) := by
  refine ⟨?_, ?_⟩
  · show ((x.sign ^^ y.sign) && _) = false
    rw [hx.sign, hy.sign]
    rfl
  · rw [mul_val]
    exact Ext.high_round (Ext.high_mul hx.2 hy.2)

theorem plus_zero : Plus (F64.zero : B64) := ⟨rfl, by rw [zero_val]; right; simp [F64.le, Ext.le]⟩

/-- from -1 to 1 -/
def Unit (x : B64) : Prop := ∃ a, x.val = .fin a ∧ |a| ≤ 1

/-- `|r| (1 - |r|)` -/
theorem plus_weight {x : B64} (h : Unit x) : Plus (F64.abs x *. (F64.one -. F64.abs x)) := by
  obtain ⟨a, ha, h1⟩ := h
  have habs : (F64.abs x).val = .fin |a| := by
    show roundE (Ext.abs x.val) = _
    rw [ha]
    show roundE (.fin |a|) = _
    have := x.rounded
    rw [ha] at this
    rcases abs_choice a with h | h
    · rw [h, this]
    · rw [h]
      have h2 := roundE_neg (.fin a)
      rw [this] at h2
      exact h2
  apply Plus.mul
  · refine ⟨rfl, ?_⟩
    rw [habs]
    right
    simp [F64.le, Ext.le]
  · refine ⟨?_, ?_⟩
    · show ((B64.sign F64.one && _) && _) = false
      have : B64.sign (F64.one : B64) = false := by
        apply Plus.sign
        exact ⟨rfl, by rw [one_val]; right; simp [F64.le, Ext.le]⟩
      rw [this]
      rfl
    · rw [sub_val, one_val, habs, Ext.fin_sub]
      apply Ext.high_round
      right
      simpa [F64.le, Ext.le] using h1

/-- division by a number that is not negative, and not the negative zero -/
theorem low_div {x y : B64} (hx : Ext.Low x.val) (hy : Plus y) : Ext.Low (x /. y).val := by
  by_cases h0 : y.val = .fin 0
  · show Ext.Low (B64.div x y).val
    rw [B64.div, if_pos h0]
    split_ifs with h1 h2
    · left; rfl
    · right; rfl
    · exfalso
      rw [hy.sign, Bool.xor_false] at h2
      rw [B64.sign] at h2
      push Not at h1
      rcases hx with hx | hx
      · exact h1.1 hx
      · cases hv : x.val with
        | nan => exact h1.1 hv
        | negInf => simp [hv] at h2
        | posInf => simp [hv, F64.le, Ext.le] at hx
        | fin q =>
          simp only [hv, F64.le, Ext.le, decide_eq_true_eq] at hx
          have : q ≠ 0 := by
            rintro rfl
            exact h1.2 hv
          have : q < 0 := _root_.lt_of_le_of_ne hx this
          simp [hv, this] at h2
  · rw [div_val _ _ h0]
    exact Ext.low_round (Ext.low_div hx hy.2 h0)

theorem high_div {x y : B64} (hx : Ext.High x.val) (hy : Plus y) : Ext.High (x /. y).val := by
  by_cases h0 : y.val = .fin 0
  · show Ext.High (B64.div x y).val
    rw [B64.div, if_pos h0]
    split_ifs with h1 h2
    · left; rfl
    · exfalso
      rw [hy.sign, Bool.xor_false] at h2
      rw [B64.sign] at h2
      push Not at h1
      have hz : x.negZero = false := by
        by_contra hne
        exact h1.2 (x.only_zero (by simpa using hne))
      rw [hz, Bool.false_or] at h2
      rcases hx with hx | hx
      · exact h1.1 hx
      · cases hv : x.val <;> simp_all [F64.le, Ext.le]
        linarith
    · right; rfl
  · rw [div_val _ _ h0]
    exact Ext.high_round (Ext.high_div hx hy.2 h0)

/-- the factor `(t - 1)/t` -/
theorem high_scalar {t : Nat} (ht : 1 ≤ t) : Ext.High ((F64.ofNat t -. F64.one) /. F64.ofNat t : B64).val := by
  have h1 : (.fin 1 <=. (F64.ofNat t : B64).val) = true := by
    rw [ofNat_val]
    have : ((.fin 1 : Ext ℚ) <=. .fin (t : ℚ)) = true := by
      have : (1 : ℚ) ≤ t := by exact_mod_cast ht
      simpa [F64.le, Ext.le] using this
    have := roundE_mono this
    rwa [roundE_one] at this
  have hne : (F64.ofNat t : B64).val ≠ .fin 0 := by
    intro h
    rw [h] at h1
    simp only [F64.le, Ext.le, decide_eq_true_eq] at h1
    linarith
  rw [div_val _ _ hne]
  have h0 : Ext.High (F64.ofNat t : B64).val := by
    right
    exact LawfulOrder.le_trans (by simp [F64.le, Ext.le] : ((.fin 0 : Ext ℚ) <=. .fin 1) = true) h1
  refine Ext.high_round (Ext.high_div ?_ h0 hne)
  rw [sub_val, one_val]
  apply Ext.high_round
  revert h1
  generalize (F64.ofNat t : B64).val = e
  intro h1
  cases e <;> simp_all [Ext.High, F64.le, Ext.le, F64.sub, Ext.add, Ext.neg]

theorem plus_weightAt {vs : List (List B64)} {j : Nat} (h : ∀ v ∈ vs, Unit (v.getD j F64.zero)) : Plus (weightAt vs j) := by
  unfold weightAt
  have : ∀ acc : B64, Plus acc → Plus (vs.foldl (fun s v => s +. (F64.abs (v.getD j F64.zero) *. (F64.one -. F64.abs (v.getD j F64.zero)))) acc) := by
    induction vs with
    | nil => intro acc hacc; exact hacc
    | cons v vs ih =>
      intro acc hacc
      rw [List.foldl_cons]
      exact ih (fun w hw => h w (by simp [hw])) _ (hacc.add (plus_weight (h v (by simp))))
  exact this _ plus_zero

theorem low_sumAt {vs : List (List B64)} {j : Nat} (h : ∀ v ∈ vs, Ext.Low (v.getD j F64.zero).val) : Ext.Low (sumAt vs j).val := by
  unfold sumAt
  have : ∀ acc : B64, Ext.Low acc.val → Ext.Low (vs.foldl (fun s v => s +. v.getD j F64.zero) acc).val := by
    induction vs with
    | nil => intro acc hacc; exact hacc
    | cons v vs ih =>
      intro acc hacc
      rw [List.foldl_cons]
      refine ih (fun w hw => h w (by simp [hw])) _ ?_
      rw [add_val]
      exact Ext.low_round (Ext.low_add hacc (h v (by simp)))
  exact this _ (by rw [zero_val]; right; simp [F64.le, Ext.le])

theorem high_sumAt {vs : List (List B64)} {j : Nat} (h : ∀ v ∈ vs, Ext.High (v.getD j F64.zero).val) : Ext.High (sumAt vs j).val := by
  unfold sumAt
  have : ∀ acc : B64, Ext.High acc.val → Ext.High (vs.foldl (fun s v => s +. v.getD j F64.zero) acc).val := by
    induction vs with
    | nil => intro acc hacc; exact hacc
    | cons v vs ih =>
      intro acc hacc
      rw [List.foldl_cons]
      refine ih (fun w hw => h w (by simp [hw])) _ ?_
      rw [add_val]
      exact Ext.high_round (Ext.high_add hacc (h v (by simp)))
  exact this _ (by rw [zero_val]; right; simp [F64.le, Ext.le])

theorem low_newton {t j : Nat} (ht : 1 ≤ t) {vs : List (List B64)} (hu : ∀ v ∈ vs, Unit (v.getD j F64.zero))
    (h : Ext.Low (sumAt vs j).val) : Ext.Low (newtonAt t vs j).val := by
  rw [newtonAt, mul_val]
  exact Ext.low_round (Ext.low_mul (low_div h (plus_weightAt hu)) (high_scalar ht))

theorem high_newton {t j : Nat} (ht : 1 ≤ t) {vs : List (List B64)} (hu : ∀ v ∈ vs, Unit (v.getD j F64.zero))
    (h : Ext.High (sumAt vs j).val) : Ext.High (newtonAt t vs j).val := by
  rw [newtonAt, mul_val]
  exact Ext.high_round (Ext.high_mul (high_div h (plus_weightAt hu)) (high_scalar ht))

end B64

end Verif
