import Verif.Spec.Special
import Verif.Spec.Score
import Verif.Num.ExtLaws
import Verif.Lemmas.TreeFacts
/-! # NaN and infinite labels -/

set_option linter.unusedSectionVars false

namespace Verif

section exact
variable {K : Type} [Field K] [LinearOrder K] [IsStrictOrderedRing K] [FloorSemiring K] [HasExp K]

theorem Ext.nonFinite_iff {x : Ext K} : nonFinite x = true ↔ x = .nan ∨ x = .posInf ∨ x = .negInf := by
  cases x <;> simp [nonFinite, isNaN, F64.eq, Ext.le, F64.infinity, F64.negInfinity]

theorem Ext.posSpecial_iff {x : Ext K} : posSpecial x = true ↔ x = .nan ∨ x = .posInf := by
  cases x <;> simp [posSpecial, isNaN, F64.eq, Ext.le, F64.infinity]

theorem Ext.isNaN_iff {x : Ext K} : isNaN x = true ↔ x = .nan := by
  cases x <;> simp [isNaN, F64.eq, Ext.le]

instance : LawfulSpecial (Ext K) where
  add_left := by
    intro x y h
    rw [Ext.nonFinite_iff] at *
    rcases h with rfl | rfl | rfl <;> cases y <;> simp [F64.add, Ext.add]
  add_right := by
    intro x y h
    rw [Ext.nonFinite_iff] at *
    rcases h with rfl | rfl | rfl <;> cases x <;> simp [F64.add, Ext.add]
  sub_left := by
    intro x y h
    rw [Ext.nonFinite_iff] at *
    rcases h with rfl | rfl | rfl <;> cases y <;> simp [F64.sub, Ext.add, Ext.neg]
  div := by
    intro x n h
    rw [Ext.nonFinite_iff] at *
    rcases h with rfl | rfl | rfl <;> simp [F64.div, Ext.div]
  square := by
    intro x h
    rw [Ext.nonFinite_iff] at h
    rw [Ext.posSpecial_iff]
    rcases h with rfl | rfl | rfl <;> simp [F64.mul, Ext.mul]
  pos_add_left := by
    intro x y h hy
    rw [Ext.posSpecial_iff] at *
    rw [Ext.not_neg_iff] at hy
    rcases h with rfl | rfl <;> rcases hy with rfl | rfl | ⟨a, rfl, _⟩ <;> simp [F64.add, Ext.add]
  pos_add_right := by
    intro x y hx h
    rw [Ext.posSpecial_iff] at *
    rw [Ext.not_neg_iff] at hx
    rcases h with rfl | rfl <;> rcases hx with rfl | rfl | ⟨a, rfl, _⟩ <;> simp [F64.add, Ext.add]
  ofNat_mul := by
    intro x n h
    rw [Ext.posSpecial_iff] at *
    rcases h with rfl | rfl
    · simp [F64.mul, Ext.mul]
    · have : ¬ (n : K) < 0 := _root_.not_lt.mpr (Nat.cast_nonneg n)
      simp only [Ext.ofNat_def, F64.mul, Ext.mul, Ext.signInf, this, if_false]
      split <;> simp
  sub := by
    intro x y hx hy
    rw [Ext.posSpecial_iff] at *
    rw [Ext.isNaN_iff]
    rcases hx with rfl | rfl <;> rcases hy with rfl | rfl <;> rfl
  nan_add_left := by
    intro x y h
    rw [Ext.isNaN_iff] at *
    subst h
    rfl
  nan_add_right := by
    intro x y h
    rw [Ext.isNaN_iff] at *
    subst h
    cases x <;> rfl
  nan_sub_left := by
    intro x y h
    rw [Ext.isNaN_iff] at *
    subst h
    rfl
  nan_div_left := by
    intro x y h
    rw [Ext.isNaN_iff] at *
    subst h
    rfl

end exact

variable {F : Type} [F64 F] [LawfulSpecial F] {L : Type}
open LawfulSpecial

theorem fsum_nan {v : List F} (h : ∃ x ∈ v, isNaN x = true) : isNaN (fsum v) = true := by
  have key : ∀ (v : List F) (a : F), (isNaN a = true ∨ ∃ x ∈ v, isNaN x = true) → isNaN (v.foldl F64.add a) = true := by
    intro v
    induction v with
    | nil =>
      rintro a (h | ⟨x, hx, _⟩)
      · exact h
      · simp at hx
    | cons y v ih =>
      rintro a (h | ⟨x, hx, hn⟩)
      · exact ih _ (.inl (nan_add_left y h))
      · rcases List.mem_cons.mp hx with rfl | hx
        · exact ih _ (.inl (nan_add_right a hn))
        · exact ih _ (.inr ⟨x, hx, hn⟩)
  exact key v _ (.inr h)

/-- entry `j` of the label sums -/
theorem sumVecs_get {labels : List (List F)} {t j : Nat} (h : ∀ l ∈ labels, l.length = t) (hj : j < t) :
    (sumVecs labels t).1[j]? = some (labels.foldl (fun a l => a +. l.getD j F64.zero) F64.zero) ∧
    (sumVecs labels t).2[j]? = some (labels.foldl (fun a l => a +. l.getD j F64.zero *. l.getD j F64.zero) F64.zero) := by
  have key : ∀ (labels : List (List F)) (acc : List F × List F) (a b : F), (∀ l ∈ labels, l.length = t) → acc.1[j]? = some a → acc.2[j]? = some b →
      (labels.foldl (fun acc l => (List.zipWith F64.add acc.1 l, List.zipWith (fun q x => q +. x *. x) acc.2 l)) acc).1[j]? =
        some (labels.foldl (fun a l => a +. l.getD j F64.zero) a) ∧
      (labels.foldl (fun acc l => (List.zipWith F64.add acc.1 l, List.zipWith (fun q x => q +. x *. x) acc.2 l)) acc).2[j]? =
        some (labels.foldl (fun a l => a +. l.getD j F64.zero *. l.getD j F64.zero) b) := by
    intro labels
    induction labels with
    | nil => intro acc a b _ ha hb; exact ⟨ha, hb⟩
    | cons l labels ih =>
      intro acc a b hl ha hb
      have hlj : j < l.length := by rw [hl l (by simp)]; exact hj
      have e : l[j]? = some (l.getD j F64.zero) := by simp [hlj]
      simp only [List.foldl_cons]
      refine ih _ _ _ (fun x hx => hl x (by simp [hx])) ?_ ?_
      · simp only [List.getElem?_zipWith, ha, e]
      · simp only [List.getElem?_zipWith, hb, e]
  exact key labels _ _ _ h (by simp [hj]) (by simp [hj])

theorem foldl_nonFinite {labels : List (List F)} {j : Nat} (h : ∃ l ∈ labels, nonFinite (l.getD j F64.zero) = true) (a : F) :
    nonFinite (labels.foldl (fun a l => a +. l.getD j F64.zero) a) = true := by
  have key : ∀ (labels : List (List F)) (a : F), (nonFinite a = true ∨ ∃ l ∈ labels, nonFinite (l.getD j F64.zero) = true) →
      nonFinite (labels.foldl (fun a l => a +. l.getD j F64.zero) a) = true := by
    intro v
    induction v with
    | nil =>
      rintro a (h | ⟨x, hx, _⟩)
      · exact h
      · simp at hx
    | cons y v ih =>
      rintro a (h | ⟨x, hx, hn⟩)
      · exact ih _ (.inl (add_left _ h))
      · rcases List.mem_cons.mp hx with rfl | hx
        · exact ih _ (.inl (add_right a hn))
        · exact ih _ (.inr ⟨x, hx, hn⟩)
  exact key labels a (.inr h)

theorem foldl_posSpecial [LawfulSign F] {labels : List (List F)} {j : Nat} (h : ∃ l ∈ labels, nonFinite (l.getD j F64.zero) = true) :
    posSpecial (labels.foldl (fun a l => a +. l.getD j F64.zero *. l.getD j F64.zero) F64.zero) = true := by
  have key : ∀ (labels : List (List F)) (a : F), (a <. F64.zero) = false → (posSpecial a = true ∨ ∃ l ∈ labels, nonFinite (l.getD j F64.zero) = true) →
      posSpecial (labels.foldl (fun a l => a +. l.getD j F64.zero *. l.getD j F64.zero) a) = true := by
    intro v
    induction v with
    | nil =>
      rintro a _ (h | ⟨x, hx, _⟩)
      · exact h
      · simp at hx
    | cons y v ih =>
      rintro a ha (h | ⟨x, hx, hn⟩)
      · exact ih _ (LawfulSign.add ha (LawfulSign.square _)) (.inl (pos_add_left h (LawfulSign.square _)))
      · rcases List.mem_cons.mp hx with rfl | hx
        · exact ih _ (LawfulSign.add ha (LawfulSign.square _)) (.inl (pos_add_right ha (LawfulSpecial.square hn)))
        · exact ih _ (LawfulSign.add ha (LawfulSign.square _)) (.inr ⟨x, hx, hn⟩)
  exact key labels _ LawfulSign.zero (.inr h)

theorem totalVariance_nan [LawfulSign F] {labels : List (List F)} {t : Nat} (h : ∀ l ∈ labels, l.length = t)
    (hn : ∃ l ∈ labels, ∃ x ∈ l, nonFinite x = true) : isNaN (totalVariance labels t) = true := by
  obtain ⟨l, hl, x, hx, hn⟩ := hn
  obtain ⟨j, hj, rfl⟩ := List.getElem_of_mem hx
  have hjt : j < t := by rw [← h l hl]; exact hj
  have hex : ∃ l ∈ labels, nonFinite (l.getD j F64.zero) = true := ⟨l, hl, by simpa [hj] using hn⟩
  obtain ⟨h1, h2⟩ := sumVecs_get h hjt
  apply fsum_nan
  have hmem : (varVec (metricsOf labels t) (F64.ofNat labels.length))[j]? = some (calculateVariance
      (((labels.foldl (fun a l => a +. l.getD j F64.zero) F64.zero) /. F64.ofNat labels.length) *.
        ((labels.foldl (fun a l => a +. l.getD j F64.zero) F64.zero) /. F64.ofNat labels.length))
      (labels.foldl (fun a l => a +. l.getD j F64.zero *. l.getD j F64.zero) F64.zero) (F64.ofNat labels.length)) := by
    simp only [varVec, metricsOf, List.getElem?_zipWith, List.getElem?_map, h1, h2, Option.map_some]
  refine ⟨_, List.mem_of_getElem? hmem, nan_div_left _ ?_⟩
  exact LawfulSpecial.sub (foldl_posSpecial hex) (ofNat_mul _ (LawfulSpecial.square (LawfulSpecial.div _ (foldl_nonFinite hex _))))

theorem bestColumn_nan [LawfulOrder F] {T : F} (h : isNaN T = true) (rs : List (BestThresholdResult F)) :
    bestColumn T rs = { gain := F64.zero, question := { column := 0, value := F64.zero } } := by
  have hlt : ∀ x y : F, (y <. (T -. x)) = false := by
    intro x y
    have hn := nan_sub_left x h
    cases hc : (y <. (T -. x)) with
    | false => rfl
    | true =>
      have := (LawfulOrder.le_nan (lt_le hc)).2
      simp [isNaN, this] at hn
  unfold bestColumn
  generalize rs.zipIdx = ps
  induction ps with
  | nil => rfl
  | cons p ps ih => rw [List.foldl_cons, pickColumn, hlt, if_neg (by simp), ih]

theorem splitOf_nonFinite [LawfulOrder F] [LawfulSign F] {d : DataSet F} {c t : Nat} (h : d.WF c t)
    (hn : ∃ l ∈ d.labels, ∃ x ∈ l, nonFinite x = true) :
    splitOf d t = { gain := F64.zero, question := { column := 0, value := F64.zero } } :=
  bestColumn_nan (totalVariance_nan h.label_len hn) _

theorem treeOf_nonFinite [LawfulOrder F] [LawfulSign F] {leafOf : DataSet F → L} {d : DataSet F} {c t : Nat} (h : d.WF c t)
    (hn : ∃ l ∈ d.labels, ∃ x ∈ l, nonFinite x = true) (m : Nat) :
    treeOf leafOf c t m d = .mk { column := 0, value := F64.zero } none none (some (leafOf d)) := by
  have hs := splitOf_nonFinite h hn
  cases m with
  | zero => simp [treeOf, hs, TreeNode.leafNode]
  | succ m =>
    rw [treeOf_leaf (by rw [hs]; exact LawfulOrder.zero_eq), hs]
    rfl

end Verif
