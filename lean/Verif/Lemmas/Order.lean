import Verif.Lemmas.Basic
import Verif.Model.Common
/-! # Consequences of the comparison laws -/

namespace Verif

variable {F : Type} [F64 F]

/-- the value is not NaN -/
abbrev NN (x : F) : Prop := (x ==. x) = true

theorem nn_of_isNaN_false {x : F} (h : isNaN x = false) : NN x := by
  simpa [isNaN] using h

theorem isNaN_eq_false {x : F} : isNaN x = false ↔ NN x := by
  simp [isNaN]

theorem insertTuple_perm (a : F × Nat) (l : List (F × Nat)) : (insertTuple a l).Perm (a :: l) := by
  induction l with
  | nil => exact .refl _
  | cons b rest ih =>
    unfold insertTuple
    split
    · exact .refl _
    · exact (List.Perm.cons b ih).trans (.swap a b rest)

/-- The sorted tuples (the panic-free part of `sortTuples`). -/
def sorted (v : List (F × Nat)) : List (F × Nat) := v.foldr insertTuple []

theorem sorted_perm (v : List (F × Nat)) : (sorted v).Perm v := by
  induction v with
  | nil => exact .refl _
  | cons a v ih =>
    exact (insertTuple_perm a _).trans (.cons a ih)

section
variable [LawfulOrder F]
open LawfulOrder

theorem le_rfl' {x : F} (h : NN x) : (x <=. x) = true := by
  rcases le_total h h with h | h <;> exact h

theorem nn_left {x y : F} (h : (x <=. y) = true) : NN x := (le_nan h).1
theorem nn_right {x y : F} (h : (x <=. y) = true) : NN y := (le_nan h).2

theorem lt_le {x y : F} (h : (x <. y) = true) : (x <=. y) = true := (lt_iff.mp h).1

theorem lt_irrefl' {x : F} : (x <. x) = false := by
  cases h : (x <. x) with
  | false => rfl
  | true =>
    have := lt_iff.mp h
    rw [this.1] at this; simp at this

theorem lt_trans' {x y z : F} (h1 : (x <. y) = true) (h2 : (y <. z) = true) : (x <. z) = true := by
  rw [lt_iff] at *
  refine ⟨le_trans h1.1 h2.1, ?_⟩
  cases h : (z <=. x) with
  | false => rfl
  | true => exact absurd (le_trans h2.1 h) (by simp [h1.2])

theorem lt_of_lt_of_le {x y z : F} (h1 : (x <. y) = true) (h2 : (y <=. z) = true) : (x <. z) = true := by
  rw [lt_iff] at *
  refine ⟨le_trans h1.1 h2, ?_⟩
  cases h : (z <=. x) with
  | false => rfl
  | true => exact absurd (le_trans h2 h) (by simp [h1.2])

theorem lt_of_le_of_lt {x y z : F} (h1 : (x <=. y) = true) (h2 : (y <. z) = true) : (x <. z) = true := by
  rw [lt_iff] at *
  refine ⟨le_trans h1 h2.1, ?_⟩
  cases h : (z <=. x) with
  | false => rfl
  | true => exact absurd (le_trans h h1) (by simp [h2.2])

theorem not_lt {x y : F} (hx : NN x) (hy : NN y) : (x <. y) = false ↔ (y <=. x) = true := by
  constructor
  · intro h
    rcases le_total hx hy with h1 | h1
    · cases h2 : (y <=. x) with
      | true => rfl
      | false => exact absurd (lt_iff.mpr ⟨h1, h2⟩) (by simp [h])
    · exact h1
  · intro h
    cases h2 : (x <. y) with
    | false => rfl
    | true => rw [(lt_iff.mp h2).2] at h; simp at h

theorem not_le {x y : F} (hx : NN x) (hy : NN y) : (x <=. y) = false ↔ (y <. x) = true := by
  constructor
  · intro h
    rcases le_total hx hy with h1 | h1
    · rw [h] at h1; simp at h1
    · exact lt_iff.mpr ⟨h1, h⟩
  · intro h; exact (lt_iff.mp h).2

theorem eq_symm' {x y : F} (h : (x ==. y) = true) : (y ==. x) = true := by
  rw [eq_iff] at *; exact ⟨h.2, h.1⟩

theorem eq_trans' {x y z : F} (h : (x ==. y) = true) (h2 : (y ==. z) = true) : (x ==. z) = true := by
  rw [eq_iff] at *; exact ⟨le_trans h.1 h2.1, le_trans h2.2 h.2⟩

theorem eq_le {x y : F} (h : (x ==. y) = true) : (x <=. y) = true := (eq_iff.mp h).1

theorem lt_or_eq {x y : F} (h : (x <=. y) = true) : (x <. y) = true ∨ (x ==. y) = true := by
  cases h2 : (y <=. x) with
  | false => exact .inl (lt_iff.mpr ⟨h, h2⟩)
  | true => exact .inr (eq_iff.mpr ⟨h, h2⟩)

theorem lt_ne {x y : F} (h : (x <. y) = true) : (x ==. y) = false := by
  cases h2 : (x ==. y) with
  | false => rfl
  | true =>
    have h3 := (eq_iff.mp h2).2
    rw [(lt_iff.mp h).2] at h3; simp at h3

theorem lt_ne' {x y : F} (h : (x <. y) = true) : (y ==. x) = false := by
  cases h2 : (y ==. x) with
  | false => rfl
  | true => exact absurd (eq_symm' h2) (by simp [lt_ne h])

/-! ## Lexicographic comparison of `(value, index)` -/

theorem tupleLe_le {a b : F × Nat} (h : tupleLe a b = true) : (a.1 <=. b.1) = true := by
  simp only [tupleLe, Bool.or_eq_true, Bool.and_eq_true] at h
  rcases h with h | h
  · exact lt_le h
  · exact eq_le h.1

theorem tupleLe_trans {a b c : F × Nat} (h1 : tupleLe a b = true) (h2 : tupleLe b c = true) :
    tupleLe a c = true := by
  simp only [tupleLe, Bool.or_eq_true, Bool.and_eq_true, decide_eq_true_eq] at *
  rcases h1 with h1 | h1
  · rcases h2 with h2 | h2
    · exact .inl (lt_trans' h1 h2)
    · exact .inl (lt_of_lt_of_le h1 (eq_le h2.1))
  · rcases h2 with h2 | h2
    · exact .inl (lt_of_le_of_lt (eq_le h1.1) h2)
    · exact .inr ⟨eq_trans' h1.1 h2.1, by omega⟩

theorem tupleLe_total {a b : F × Nat} (ha : NN a.1) (hb : NN b.1) (h : tupleLe a b = false) :
    tupleLe b a = true := by
  simp only [tupleLe, Bool.or_eq_false_iff, Bool.and_eq_false_iff, decide_eq_false_iff_not] at h
  simp only [tupleLe, Bool.or_eq_true, Bool.and_eq_true, decide_eq_true_eq]
  have h1 := (not_lt ha hb).mp h.1
  rcases lt_or_eq h1 with h2 | h2
  · exact .inl h2
  · refine .inr ⟨h2, ?_⟩
    rcases h.2 with h3 | h3
    · rw [eq_symm' h2] at h3; simp at h3
    · omega

theorem tupleLe_antisymm {a b : F × Nat} (h1 : tupleLe a b = true) (h2 : tupleLe b a = true) : a.2 = b.2 := by
  simp only [tupleLe, Bool.or_eq_true, Bool.and_eq_true, decide_eq_true_eq] at *
  rcases h1 with h1 | h1
  · rcases h2 with h2 | h2
    · have := lt_trans' h1 h2; rw [lt_irrefl'] at this; simp at this
    · have := lt_ne' h1; rw [h2.1] at this; simp at this
  · rcases h2 with h2 | h2
    · have := lt_ne' h2; rw [h1.1] at this; simp at this
    · omega

/-! ## The sort -/

theorem insertTuple_pairwise {a : F × Nat} {l : List (F × Nat)} (ha : NN a.1) (hl : ∀ p ∈ l, NN p.1)
    (h : l.Pairwise (fun a b => tupleLe a b = true)) :
    (insertTuple a l).Pairwise (fun a b => tupleLe a b = true) := by
  induction l with
  | nil => simp [insertTuple]
  | cons b rest ih =>
    unfold insertTuple
    rw [List.pairwise_cons] at h
    split
    · next hab =>
      rw [List.pairwise_cons, List.pairwise_cons]
      refine ⟨?_, h⟩
      intro p hp
      rcases List.mem_cons.mp hp with rfl | hp
      · exact hab
      · exact tupleLe_trans hab (h.1 p hp)
    · next hab =>
      rw [List.pairwise_cons]
      refine ⟨?_, ih (fun p hp => hl p (by simp [hp])) h.2⟩
      intro p hp
      rcases List.mem_cons.mp ((insertTuple_perm a rest).mem_iff.mp hp) with rfl | hp
      · exact tupleLe_total ha (hl b (by simp)) (by simpa using hab)
      · exact h.1 p hp

theorem sorted_pairwise {v : List (F × Nat)} (h : ∀ p ∈ v, NN p.1) :
    (sorted v).Pairwise (fun a b => tupleLe a b = true) := by
  induction v with
  | nil => simp [sorted]
  | cons a v ih =>
    have hv := ih (fun p hp => h p (by simp [hp]))
    exact insertTuple_pairwise (h a (by simp))
      (fun p hp => h p (by simp [(sorted_perm v).mem_iff.mp hp])) hv

/-- A sorted arrangement of tuples with distinct indices is unique. -/
theorem sorted_unique {l m : List (F × Nat)} (hp : l.Perm m)
    (hinj : ∀ a ∈ l, ∀ b ∈ l, a.2 = b.2 → a = b)
    (hl : l.Pairwise (fun a b => tupleLe a b = true)) (hm : m.Pairwise (fun a b => tupleLe a b = true)) :
    l = m := by
  refine List.Perm.eq_of_pairwise ?_ hl hm hp
  intro a b ha hb h1 h2
  exact hinj a ha b (hp.mem_iff.mpr hb) (tupleLe_antisymm h1 h2)

end

theorem sortTuples_ok {v : List (F × Nat)} (h : ∀ p ∈ v, isNaN p.1 = false) :
    sortTuples v = .ok (v.foldr insertTuple []) := by
  unfold sortTuples
  rw [if_neg]
  rintro ⟨_, h2⟩
  rw [List.any_eq_true] at h2
  obtain ⟨p, hp, hn⟩ := h2
  rw [h p hp] at hn; simp at hn

end Verif
