import Verif.Spec.Poison
import Verif.Num.B64
import Verif.Lemmas.ModelTrees
import Verif.Lemmas.Special
import Verif.Props.RawScore
/-! # NaN in multi-class boosting -/

set_option linter.unusedSectionVars false

namespace Verif

section exact
variable {K : Type} [Field K] [LinearOrder K] [IsStrictOrderedRing K] [FloorSemiring K] [HasExp K]

theorem Ext.eq_zero_iff {x : Ext K} : (x ==. F64.zero) = true ↔ x = .fin 0 := by
  cases x with
  | fin a => simp only [F64.eq, Ext.le, F64.zero, Bool.and_eq_true, decide_eq_true_eq, Ext.fin.injEq]; exact _root_.le_antisymm_iff.symm
  | _ => simp [F64.eq, Ext.le, F64.zero]

instance : LawfulPoison (Ext K) where
  nan_mul_left := by
    intro x y h
    rw [Ext.isNaN_iff] at *
    subst h
    rfl
  nan_mul_right := by
    intro x y h
    rw [Ext.isNaN_iff] at *
    subst h
    cases x <;> rfl
  nan_sub_right := by
    intro x y h
    rw [Ext.isNaN_iff] at *
    subst h
    cases x <;> rfl
  nan_div_right := by
    intro x y h
    rw [Ext.isNaN_iff] at *
    subst h
    cases x <;> rfl
  share := by
    intro x s hs hx
    rw [Ext.nonFinite_iff] at *
    rw [Ext.isNaN_iff]
    rcases hs with rfl | rfl | rfl <;> rcases hx with rfl | rfl | rfl <;> simp [F64.mul, F64.div, Ext.mul, Ext.div, Ext.signInf, F64.one]
  zero_div_zero := by
    intro x y hx hy
    rw [Ext.eq_zero_iff] at *
    subst hx hy
    rw [Ext.isNaN_iff]
    simp [F64.div, Ext.div, Ext.signInf]
  zero_add := by
    intro x y hx hy
    rw [Ext.eq_zero_iff] at *
    subst hx hy
    simp [F64.add, Ext.add]
  zero_weight := by
    intro x hx
    rw [Ext.eq_zero_iff] at *
    subst hx
    simp [F64.mul, F64.sub, F64.abs, F64.one, Ext.mul, Ext.add, Ext.neg, Ext.abs]

end exact

namespace B64
variable [B64Env]

theorem eq_zero_iff {x : B64} : (x ==. F64.zero) = true ↔ x.val = .fin 0 := by
  rw [← Ext.eq_zero_iff (x := x.val), eq_val, zero_val]
  rfl

instance : LawfulPoison B64 where
  nan_mul_left := by
    intro x y h
    rw [isNaN_val, mul_val]
    exact roundE_nan' (LawfulPoison.nan_mul_left (F := Ext ℚ) _ h)
  nan_mul_right := by
    intro x y h
    rw [isNaN_val, mul_val]
    exact roundE_nan' (LawfulPoison.nan_mul_right (F := Ext ℚ) _ h)
  nan_sub_right := by
    intro x y h
    rw [isNaN_val, sub_val]
    exact roundE_nan' (LawfulPoison.nan_sub_right (F := Ext ℚ) _ h)
  nan_div_right := by
    intro x y h
    rw [isNaN_val, Ext.isNaN_iff] at h
    rw [isNaN_val, div_val _ _ (by rw [h]; simp), h]
    exact roundE_nan' (LawfulPoison.nan_div_right (F := Ext ℚ) _ (Ext.isNaN_iff.mpr rfl))
  share := by
    intro x s hs hx
    rw [nonFinite_val] at hs hx
    have h0 : s.val ≠ .fin 0 := by
      intro h
      rw [h, Ext.nonFinite_iff] at hs
      simp at hs
    rw [isNaN_val, mul_val, div_val _ _ h0, one_val]
    apply roundE_nan'
    rw [Ext.nonFinite_iff] at hs hx
    rw [Ext.isNaN_iff]
    rcases hs with h | h | h <;> rcases hx with h' | h' | h' <;> rw [h, h'] <;> decide +kernel
  zero_div_zero := by
    intro x y hx hy
    rw [eq_zero_iff] at *
    rw [isNaN_val, Ext.isNaN_iff]
    show (div x y).val = .nan
    rw [div, if_pos hy, if_pos (.inr hx)]
    rfl
  zero_add := by
    intro x y hx hy
    rw [eq_zero_iff] at *
    rw [add_val, hx, hy]
    decide +kernel
  zero_weight := by
    intro x hx
    rw [eq_zero_iff] at *
    have ha : (F64.abs x).val = .fin 0 := by
      show roundE (Ext.abs x.val) = .fin 0
      rw [hx]
      decide +kernel
    rw [mul_val, sub_val, one_val, ha]
    decide +kernel

end B64

variable {F : Type} [F64 F] [LawfulPoison F]
open LawfulPoison

theorem foldl_nan_at {f : F → List F → F} (hl : ∀ a v, isNaN a = true → isNaN (f a v) = true) {bad : List F → Prop}
    (hr : ∀ a v, bad v → isNaN (f a v) = true) : ∀ (vs : List (List F)) (a : F), (isNaN a = true ∨ ∃ v ∈ vs, bad v) →
    isNaN (vs.foldl f a) = true := by
  intro vs
  induction vs with
  | nil =>
    rintro a (h | ⟨x, hx, _⟩)
    · exact h
    · simp at hx
  | cons y v ih =>
    rintro a (h | ⟨x, hx, hn⟩)
    · exact ih _ (.inl (hl _ _ h))
    · rcases List.mem_cons.mp hx with rfl | hx
      · exact ih _ (.inl (hr _ _ hn))
      · exact ih _ (.inr ⟨x, hx, hn⟩)

/-- a NaN residual of class `j` makes the leaf output of class `j` NaN -/
theorem newtonAt_nan {t j : Nat} {vs : List (List F)} (h : ∃ v ∈ vs, isNaN (v.getD j F64.zero) = true) : isNaN (newtonAt t vs j) = true :=
  nan_mul_left _ (LawfulSpecial.nan_div_left _ (foldl_nan_at (bad := fun v => isNaN (v.getD j F64.zero) = true)
    (fun _ _ ha => LawfulSpecial.nan_add_left _ ha) (fun _ _ hv => LawfulSpecial.nan_add_right _ hv) vs _ (.inr h)))

/-- so do residuals that are all zero -/
theorem newtonAt_zero [LawfulOrder F] {t j : Nat} {vs : List (List F)} (h : ∀ v ∈ vs, (v.getD j F64.zero ==. F64.zero) = true) :
    isNaN (newtonAt t vs j) = true := by
  have key : ∀ (f : F → F) (_ : ∀ x, (x ==. F64.zero) = true → (f x ==. F64.zero) = true) (vs : List (List F)) (a : F),
      (∀ v ∈ vs, (v.getD j F64.zero ==. F64.zero) = true) → (a ==. F64.zero) = true →
      (vs.foldl (fun s v => s +. f (v.getD j F64.zero)) a ==. F64.zero) = true := by
    intro f hf vs
    induction vs with
    | nil => intro a _ ha; exact ha
    | cons v vs ih =>
      intro a hv ha
      exact ih _ (fun w hw => hv w (by simp [hw])) (zero_add ha (hf _ (hv v (by simp))))
  exact nan_mul_left _ (zero_div_zero (key id (fun _ hx => hx) vs _ h LawfulOrder.zero_eq) (key _ (fun _ hx => zero_weight hx) vs _ h LawfulOrder.zero_eq))

theorem fsum_nonFinite {v : List F} (h : ∃ x ∈ v, nonFinite x = true) : nonFinite (fsum v) = true := by
  have key : ∀ (v : List F) (a : F), (nonFinite a = true ∨ ∃ x ∈ v, nonFinite x = true) → nonFinite (v.foldl F64.add a) = true := by
    intro v
    induction v with
    | nil =>
      rintro a (h | ⟨x, hx, _⟩)
      · exact h
      · simp at hx
    | cons y v ih =>
      rintro a (h | ⟨x, hx, hn⟩)
      · exact ih _ (.inl (LawfulSpecial.add_left y h))
      · rcases List.mem_cons.mp hx with rfl | hx
        · exact ih _ (.inl (LawfulSpecial.add_right a hn))
        · exact ih _ (.inr ⟨x, hx, hn⟩)
  exact key v _ (.inr h)

/-- an overflowing score has the probability NaN -/
theorem softmaxOf_nonFinite {v : List F} {j : Nat} {x : F} (hj : v[j]? = some x) (hx : nonFinite (F64.exp x) = true) :
    ∃ y, (softmaxOf v)[j]? = some y ∧ isNaN y = true := by
  refine ⟨F64.exp x *. (F64.one /. fsum (v.map F64.exp)), by simp [softmaxOf, hj], share (fsum_nonFinite ⟨_, ?_, hx⟩) hx⟩
  exact List.mem_map.mpr ⟨x, List.mem_of_getElem? hj, rfl⟩

/-- a NaN score makes all probabilities NaN -/
theorem softmaxOf_nan {v : List F} (h : ∃ x ∈ v, isNaN (F64.exp x) = true) : ∀ y ∈ softmaxOf v, isNaN y = true := by
  intro y hy
  obtain ⟨x, _, rfl⟩ := List.mem_map.mp hy
  obtain ⟨z, hz, hn⟩ := h
  exact nan_mul_right _ (nan_div_right _ (fsum_nan ⟨_, List.mem_map.mpr ⟨z, hz, rfl⟩, hn⟩))

/-- NaN once added to a score stays -/
theorem addUp_nan {g : List F} {lr : F} {j k : Nat} (hj : j < g.length) : ∀ {outs : List (List F)} {o : List F} {x : F}, (∀ o ∈ outs, o.length = g.length) →
    outs[k]? = some o → o[j]? = some x → isNaN x = true → ∃ y, (addUp g lr outs)[j]? = some y ∧ isNaN y = true := by
  intro outs
  induction outs using List.reverseRecOn with
  | nil => intro o x _ h; simp at h
  | append_singleton outs o' ih =>
    intro o x hl hk hx hn
    have hl' : ∀ o ∈ outs, o.length = g.length := fun o ho => hl o (by simp [ho])
    have hlen : (addUp g lr outs).length = g.length := by
      have : ∀ (outs : List (List F)) (a : List F), (∀ o ∈ outs, o.length = g.length) → a.length = g.length →
          (outs.foldl (fun score out => List.zipWith (fun a x => a +. (lr *. x)) score out) a).length = g.length := by
        intro outs
        induction outs with
        | nil => intro a _ ha; exact ha
        | cons o outs ih => intro a h ha; exact ih _ (fun o ho => h o (by simp [ho])) (by simp [ha, h o (by simp)])
      exact this outs g hl' rfl
    have e : addUp g lr (outs ++ [o']) = List.zipWith (fun a x => a +. (lr *. x)) (addUp g lr outs) o' := by simp [addUp]
    have ho' : o'.length = g.length := hl o' (by simp)
    rw [e]
    by_cases hko : k < outs.length
    · rw [List.getElem?_append_left hko] at hk
      obtain ⟨y, hy, hyn⟩ := ih hl' hk hx hn
      refine ⟨y +. (lr *. o'[j]), ?_, LawfulSpecial.nan_add_left _ hyn⟩
      rw [List.getElem?_zipWith, hy, List.getElem?_eq_getElem (by omega)]
    · have : k = outs.length := by
        have := (List.getElem?_eq_some_iff.mp hk).1
        simp at this
        omega
      subst this
      simp at hk
      subst hk
      refine ⟨(addUp g lr outs)[j] +. (lr *. x), ?_, LawfulSpecial.nan_add_right _ (nan_mul_right _ hn)⟩
      rw [List.getElem?_zipWith, hx, List.getElem?_eq_getElem (by omega)]

end Verif
