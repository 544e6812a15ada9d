import Verif.Spec.Accuracy
import Verif.Num.B64
import Mathlib.Algebra.BigOperators.Group.Finset.Piecewise
import Verif.Lemmas.Score
import Verif.Lemmas.TreeFacts
/-! # Training accuracy -/

set_option linter.unusedSectionVars false

namespace Verif

section exact
variable {K : Type} [Field K] [LinearOrder K] [IsStrictOrderedRing K] [FloorSemiring K] [HasExp K]

instance : LawfulShare (Ext K) where
  one_eq := by simp [F64.eq, Ext.le, F64.one]
  one_zero := by simp [F64.eq, Ext.le, F64.one, F64.zero]
  zero_one := by simp [F64.eq, Ext.le, F64.one, F64.zero]
  mono := by
    intro a b n hn hab _ _
    have h0 : (0 : K) < n := by exact_mod_cast hn
    simp only [Ext.ofNat_def, Ext.fin_div _ _ h0.ne', Ext.fin_le, decide_eq_true_eq]
    gcongr

end exact

instance [B64Env] : LawfulShare B64 where
  one_eq := by rw [B64.eq_val, B64.one_val]; decide +kernel
  one_zero := by rw [B64.eq_val, B64.one_val, B64.zero_val]; decide +kernel
  zero_one := by rw [B64.eq_val, B64.one_val, B64.zero_val]; decide +kernel
  mono := by
    intro a b n hn hab hb h53
    rw [B64.le_val, B64.div_count hn (hab.trans hb) h53, B64.div_count hn hb h53]
    apply B64.roundE_mono
    have h0 : (0 : ℚ) < n := by exact_mod_cast hn
    simp only [Ext.fin_le, decide_eq_true_eq]
    gcongr

section
variable {F : Type} [F64 F] [LawfulShare F]
open LawfulShare

theorem vecEq_iff : ∀ {v w : List F}, vecEq v w = true ↔ v.length = w.length ∧ ∀ (i : Nat) x y, v[i]? = some x → w[i]? = some y → (x ==. y) = true := by
  intro v
  induction v with
  | nil => intro w; cases w <;> simp [vecEq]
  | cons a v ih =>
    intro w
    cases w with
    | nil => simp [vecEq]
    | cons b w =>
      simp only [vecEq, Bool.and_eq_true, ih, List.length_cons, Nat.add_right_cancel_iff]
      constructor
      · rintro ⟨h1, h2, h3⟩
        refine ⟨h2, ?_⟩
        intro i x y hx hy
        cases i with
        | zero => simp at hx hy; subst hx hy; exact h1
        | succ i => exact h3 i x y (by simpa using hx) (by simpa using hy)
      · rintro ⟨h2, h3⟩
        exact ⟨h3 0 a b rfl rfl, h2, fun i x y hx hy => h3 (i + 1) x y (by simpa using hx) (by simpa using hy)⟩

theorem oneHot_at {t k i : Nat} (hi : i < t) : (oneHot t k : List F)[i]? = some (if i = k then F64.one else F64.zero) := by
  simp [oneHot, hi]

/-- a one-hot vector equals another exactly if the other is one at this class -/
theorem vecEq_oneHot [LawfulOrder F] {t j k : Nat} (hj : j < t) (hk : k < t) :
    vecEq (oneHot t k : List F) (oneHot t j) = isOneAt (oneHot t j : List F) k := by
  rw [isOneAt, oneHot_at hk]
  by_cases h : k = j
  · subst h
    simp only [if_true, one_eq]
    rw [vecEq_iff]
    refine ⟨rfl, ?_⟩
    intro i x y hx hy
    rw [hx] at hy
    cases hy
    have hi : i < t := by
      have := (List.getElem?_eq_some_iff.mp hx).1
      simpa [oneHot] using this
    rw [oneHot_at hi] at hx
    cases hx
    split
    · exact one_eq
    · exact LawfulOrder.zero_eq
  · simp only [h, if_false, zero_one]
    by_contra hv
    rw [Bool.not_eq_false, vecEq_iff] at hv
    have := hv.2 k _ _ (oneHot_at hk) (oneHot_at hk)
    simp [h, one_zero] at this

end

/-- counting group by group -/
theorem countP_groups {α β : Type} [DecidableEq β] (key : α → β) (P : α → Bool) (S : Finset β) : ∀ l : List α, (∀ a ∈ l, key a ∈ S) →
    l.countP P = ∑ b ∈ S, l.countP (fun a => decide (key a = b) && P a) := by
  intro l
  induction l with
  | nil => intro _; simp
  | cons a l ih =>
    intro h
    simp only [List.countP_cons, Finset.sum_add_distrib]
    rw [← ih (fun x hx => h x (by simp [hx]))]
    congr 1
    cases P a with
    | false => simp
    | true =>
      simp only [Bool.and_true, decide_eq_true_eq, if_true]
      rw [Finset.sum_ite_eq S (key a) (fun _ => 1), if_pos (h a (by simp))]

theorem countP_le_of_groups {α β : Type} [DecidableEq β] (key : α → β) {P Q : α → Bool} {l : List α}
    (h : ∀ a ∈ l, l.countP (fun x => decide (key x = key a) && P x) ≤ l.countP (fun x => decide (key x = key a) && Q x)) :
    l.countP P ≤ l.countP Q := by
  have hS : ∀ a ∈ l, key a ∈ (l.map key).toFinset := by
    intro a ha
    rw [List.mem_toFinset]
    exact List.mem_map.mpr ⟨a, ha, rfl⟩
  rw [countP_groups key P _ l hS, countP_groups key Q _ l hS]
  apply Finset.sum_le_sum
  intro b hb
  rw [List.mem_toFinset] at hb
  obtain ⟨a, ha, rfl⟩ := List.mem_map.mp hb
  exact h a ha

/-- a tree cut at depth `k` sends a row along the beginning of its way -/
theorem route_cut {F : Type} [F64 F] [LawfulOrder F] {L : Type} {leafOf : DataSet F → L} {c t : Nat} {row : List F} : ∀ (k m : Nat) (d : DataSet F), k ≤ m →
    (treeOf leafOf c t k d).route row = ((treeOf leafOf c t m d).route row).take k := by
  intro k
  induction k with
  | zero => intro m d _; simp [treeOf, TreeNode.leafNode, TreeNode.route]
  | succ k ih =>
    intro m d hm
    obtain ⟨m, rfl⟩ : ∃ m', m = m' + 1 := ⟨m - 1, by omega⟩
    cases hg : ((splitOf d t).gain ==. F64.zero) with
    | true => simp [treeOf_leaf hg, TreeNode.leafNode, TreeNode.route]
    | false =>
      rw [treeOf_node hg, treeOf_node hg]
      simp only [TreeNode.new, TreeNode.route]
      split
      · simp [ih m _ (by omega)]
      · simp [ih m _ (by omega)]

end Verif
