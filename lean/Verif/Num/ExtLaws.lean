import Verif.Num.Ext
import Verif.Spec.Score
import Mathlib.Tactic.FieldSimp
import Mathlib.Tactic.Positivity
/-!
# Exact arithmetic satisfies the fraction and sign laws
-/

set_option linter.unusedSectionVars false

namespace Verif

variable {K : Type} [Field K] [LinearOrder K] [IsStrictOrderedRing K] [FloorSemiring K] [HasExp K]

instance : LawfulFraction (Ext K) where
  nonneg := by
    intro m n hn hm _
    have : (n : K) ≠ 0 := by exact_mod_cast hn.ne'
    simp only [Ext.ofNat_def, Ext.zero_def, Ext.fin_div _ _ this, Ext.fin_le, decide_eq_true_eq]
    positivity
  le_one := by
    intro m n hn hm _
    have h0 : (0 : K) < n := by exact_mod_cast hn
    simp only [Ext.ofNat_def, Ext.one_def, Ext.fin_div _ _ h0.ne', Ext.fin_le, decide_eq_true_eq]
    rw [div_le_one h0]
    exact_mod_cast hm
  eq_one := by
    intro m n hn hm _
    have h0 : (0 : K) < n := by exact_mod_cast hn
    simp only [Ext.ofNat_def, Ext.one_def, Ext.fin_div _ _ h0.ne', Ext.fin_eq, decide_eq_true_eq]
    rw [div_eq_one_iff_eq h0.ne']
    exact Nat.cast_inj
  eq_zero := by
    intro m n hn hm _
    have h0 : (0 : K) < n := by exact_mod_cast hn
    simp only [Ext.ofNat_def, Ext.zero_def, Ext.fin_div _ _ h0.ne', Ext.fin_eq, decide_eq_true_eq]
    rw [div_eq_zero_iff]
    simp [h0.ne']
  zero_zero := by
    simp [F64.div, Ext.div, Ext.signInf, isNaN, F64.eq, Ext.le]

namespace Ext

theorem not_neg_iff {x : Ext K} : (x <. F64.zero) = false ↔ x = .nan ∨ x = .posInf ∨ ∃ a, x = .fin a ∧ 0 ≤ a := by
  cases x with
  | nan => simp
  | negInf => simp [F64.lt, Ext.le]
  | posInf => simp
  | fin a => simp

end Ext

instance : LawfulSign (Ext K) where
  zero := by simp
  sumStart := by simp
  square x := by
    rw [Ext.not_neg_iff]
    cases x with
    | fin a => exact .inr (.inr ⟨a * a, rfl, mul_self_nonneg a⟩)
    | nan => exact .inl rfl
    | posInf => exact .inr (.inl rfl)
    | negInf => exact .inr (.inl rfl)
  add := by
    intro x y hx hy
    rw [Ext.not_neg_iff] at *
    rcases hx with rfl | rfl | ⟨a, rfl, ha⟩ <;> rcases hy with rfl | rfl | ⟨b, rfl, hb⟩
    case inr.inr.inr.inr => exact .inr (.inr ⟨a + b, rfl, add_nonneg ha hb⟩)
    all_goals simp [F64.add, Ext.add]
  div := by
    intro x n hx
    rw [Ext.not_neg_iff] at *
    rcases hx with rfl | rfl | ⟨a, rfl, ha⟩
    · exact .inl rfl
    · right; left
      have : ¬ (n : K) < 0 := _root_.not_lt.mpr (Nat.cast_nonneg n)
      simp [F64.div, Ext.div, this]
    · rcases Nat.eq_zero_or_pos n with rfl | hn
      · rcases ha.eq_or_lt with rfl | ha
        · left; simp [F64.div, Ext.div, Ext.signInf]
        · right; left; simp [F64.div, Ext.div, Ext.signInf, ha]
      · have h0 : (0 : K) < n := by exact_mod_cast hn
        exact .inr (.inr ⟨a / n, Ext.fin_div _ _ h0.ne', div_nonneg ha h0.le⟩)

end Verif
