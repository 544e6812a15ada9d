import Verif.Spec.Infinity
import Verif.Lemmas.Poison
/-! # Infinite scores in AMG boosting -/

set_option linter.unusedSectionVars false

namespace Verif

section exact
variable {K : Type} [Field K] [LinearOrder K] [IsStrictOrderedRing K] [FloorSemiring K] [HasExp K]

theorem Ext.eq_inf_iff {x : Ext K} : (x ==. F64.infinity) = true ↔ x = .posInf := by
  cases x <;> simp [F64.eq, Ext.le, F64.infinity]

theorem Ext.eq_negInf_iff {x : Ext K} : (x ==. F64.negInfinity) = true ↔ x = .negInf := by
  cases x <;> simp [F64.eq, Ext.le, F64.negInfinity]

theorem Ext.finite_iff {x : Ext K} : nonFinite x = false ↔ ∃ a, x = .fin a := by
  cases x with
  | fin a => simp [nonFinite, isNaN, F64.eq, Ext.le, F64.infinity, F64.negInfinity]
  | _ => simp [nonFinite, isNaN, F64.eq, Ext.le, F64.infinity, F64.negInfinity]

theorem Ext.pos_iff {x : Ext K} : (F64.zero <. x) = true ↔ x = .posInf ∨ ∃ a, 0 < a ∧ x = .fin a := by
  cases x <;> simp [F64.lt, Ext.le, F64.zero]
  exact le_of_lt

instance : LawfulInfinity (Ext K) where
  pos_absorbs := by
    intro x y h
    rw [Ext.posSpecial_iff] at *
    rcases h with rfl | rfl <;> cases y <;> simp [F64.add, Ext.add]
  add_inf := by
    intro x y hx hy
    rw [Ext.finite_iff, Ext.eq_inf_iff] at hx
    rw [Ext.eq_inf_iff] at *
    subst hy
    rcases hx with ⟨a, rfl⟩ | rfl <;> rfl
  add_negInf := by
    intro x y hx hy
    rw [Ext.finite_iff, Ext.eq_negInf_iff] at hx
    rw [Ext.eq_negInf_iff] at *
    subst hy
    rcases hx with ⟨a, rfl⟩ | rfl <;> rfl
  add_inf_any := by
    intro x y hy
    rw [Ext.eq_inf_iff] at hy
    subst hy
    rw [Ext.posSpecial_iff]
    cases x <;> simp [F64.add, Ext.add]
  add_negInf_any := by
    intro x y hy
    rw [Ext.eq_negInf_iff] at hy
    subst hy
    rw [Ext.isNaN_iff, Ext.eq_negInf_iff]
    cases x <;> simp [F64.add, Ext.add]
  mul_negInf := by
    intro x hx
    rw [Ext.eq_negInf_iff]
    rcases Ext.pos_iff.mp hx with rfl | ⟨a, ha, rfl⟩
    · rfl
    · simp [F64.mul, Ext.mul, Ext.signInf, F64.negInfinity, ha, ha.not_gt]
  mul_share := by
    intro x n hx hn _
    rw [Ext.eq_inf_iff]
    have h1 : (0 : K) < n - 1 := by
      have : (2 : K) ≤ n := by exact_mod_cast hn
      linarith
    have : (F64.neg F64.negInfinity /. (F64.ofNat n -. F64.one) : Ext K) = .posInf := by
      simp only [F64.neg, F64.negInfinity, Ext.neg, F64.ofNat, F64.sub, F64.one, Ext.add, F64.div, Ext.div, ← sub_eq_add_neg]
      exact if_neg h1.not_gt
    rw [this]
    rcases Ext.pos_iff.mp hx with rfl | ⟨a, ha, rfl⟩
    · rfl
    · simp [F64.mul, Ext.mul, Ext.signInf, ha]
  negInf_lt_inf := by simp [F64.lt, Ext.le, F64.negInfinity, F64.infinity]

end exact

namespace B64
variable [B64Env]

theorem inf_val : (F64.infinity : B64).val = .posInf := rfl
theorem negInf_val : (F64.negInfinity : B64).val = .negInf := rfl

theorem eq_inf_iff {x : B64} : (x ==. F64.infinity) = true ↔ x.val = .posInf := by
  rw [← Ext.eq_inf_iff (x := x.val), eq_val, inf_val]; rfl

theorem eq_negInf_iff {x : B64} : (x ==. F64.negInfinity) = true ↔ x.val = .negInf := by
  rw [← Ext.eq_negInf_iff (x := x.val), eq_val, negInf_val]; rfl

instance : LawfulInfinity B64 where
  pos_absorbs := by
    intro x y h
    exact roundE_posSpecial (LawfulInfinity.pos_absorbs (F := Ext ℚ) _ h)
  add_inf := by
    intro x y hx hy
    rw [nonFinite_val, eq_val] at hx
    rw [eq_inf_iff] at *
    have := LawfulInfinity.add_inf (F := Ext ℚ) hx (Ext.eq_inf_iff.mpr hy)
    rw [Ext.eq_inf_iff] at this
    rw [add_val, this]
    rfl
  add_negInf := by
    intro x y hx hy
    rw [nonFinite_val, eq_val] at hx
    rw [eq_negInf_iff] at *
    have := LawfulInfinity.add_negInf (F := Ext ℚ) hx (Ext.eq_negInf_iff.mpr hy)
    rw [Ext.eq_negInf_iff] at this
    rw [add_val, this]
    rfl
  add_inf_any := by
    intro x y hy
    rw [eq_inf_iff, ← Ext.eq_inf_iff] at hy
    exact roundE_posSpecial (LawfulInfinity.add_inf_any (F := Ext ℚ) _ hy)
  add_negInf_any := by
    intro x y hy
    rw [eq_negInf_iff, ← Ext.eq_negInf_iff] at hy
    rw [isNaN_val, eq_negInf_iff, add_val]
    rcases LawfulInfinity.add_negInf_any (F := Ext ℚ) x.val hy with h | h
    · exact .inl (roundE_nan' h)
    · rw [Ext.eq_negInf_iff] at h
      rw [h]
      exact .inr rfl
  mul_negInf := by
    intro x hx
    rw [lt_val, zero_val] at hx
    have := LawfulInfinity.mul_negInf (F := Ext ℚ) hx
    rw [Ext.eq_negInf_iff] at this
    rw [eq_negInf_iff, mul_val, negInf_val]
    exact congrArg roundE this
  mul_share := by
    intro x n hx hn hn'
    rw [lt_val, zero_val] at hx
    have hval : (F64.ofNat n -. F64.one : B64).val = .fin ((n : ℚ) - 1) := by
      obtain ⟨m, rfl⟩ : ∃ m, n = m + 1 := ⟨n - 1, by omega⟩
      rw [sub_val, ofNat_val, roundE_nat hn', one_val, Ext.fin_sub]
      have : ((m + 1 : ℕ) : ℚ) - 1 = (m : ℕ) := by push_cast; ring
      rw [this, roundE_nat (by omega)]
    have h1 : (0 : ℚ) < n - 1 := by
      have : (2 : ℚ) ≤ n := by exact_mod_cast hn
      linarith
    have hd : (F64.neg F64.negInfinity /. (F64.ofNat n -. F64.one) : B64).val = .posInf := by
      rw [div_val _ _ (by rw [hval]; intro h; injection h with h; exact h1.ne' h), hval, neg_val, negInf_val]
      show roundE (if ((n : ℚ) - 1) < 0 then Ext.negInf else Ext.posInf) = Ext.posInf
      rw [if_neg h1.not_gt]
      rfl
    rw [eq_inf_iff, mul_val, hd]
    have := Ext.pos_iff.mp hx
    rcases this with h | ⟨a, ha, h⟩ <;> rw [h]
    · rfl
    · simp [F64.mul, Ext.mul, Ext.signInf, ha]
  negInf_lt_inf := by rw [lt_val, inf_val, negInf_val]; decide +kernel

end B64

end Verif
