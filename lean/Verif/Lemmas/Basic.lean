import Mathlib.Data.List.Forall2
import Mathlib.Tactic.Common
import Mathlib.Tactic.Linarith
import Verif.Model.Prelude
/-! # Reasoning about panics, indexing and loops -/

namespace Verif

variable {α β σ : Type}

@[simp] theorem R.pure_eq (a : α) : (pure a : R α) = .ok a := rfl
@[simp] theorem R.ok_bind (a : α) (f : α → R β) : ((Except.ok a : R α) >>= f) = f a := rfl
@[simp] theorem R.error_bind (e : Panic) (f : α → R β) : ((Except.error e : R α) >>= f) = .error e := rfl

theorem R.bind_eq_ok {x : R α} {f : α → R β} {b : β} :
    (x >>= f) = .ok b ↔ ∃ a, x = .ok a ∧ f a = .ok b := by
  cases x <;> simp

/-! ## Indexing -/

theorem idx_lt {v : List α} {i : Nat} (h : i < v.length) : idx v i = .ok v[i] := by
  simp [idx, h]

theorem idx_some {v : List α} {i : Nat} {a : α} (h : v[i]? = some a) : idx v i = .ok a := by
  simp [idx, h]

theorem idx_eq_ok {v : List α} {i : Nat} {a : α} : idx v i = .ok a ↔ v[i]? = some a := by
  unfold idx
  cases h : v[i]? <;> simp

theorem idx_none {v : List α} {i : Nat} (h : v.length ≤ i) : idx v i = .error .index := by
  simp [idx, h]

@[simp] theorem idx_cons_zero {a : α} {v : List α} : idx (a :: v) 0 = .ok a := rfl
@[simp] theorem idx_cons_succ {a : α} {v : List α} {i : Nat} : idx (a :: v) (i + 1) = idx v i := by
  simp [idx]
@[simp] theorem idx_nil {i : Nat} : idx ([] : List α) i = .error .index := rfl

theorem setIdx_lt {v : List α} {i : Nat} {a : α} (h : i < v.length) : setIdx v i a = .ok (v.set i a) := by
  simp [setIdx, h]

theorem setIdx_eq_ok {v w : List α} {i : Nat} {a : α} :
    setIdx v i a = .ok w ↔ i < v.length ∧ w = v.set i a := by
  unfold setIdx
  split
  · simp_all [eq_comm]
  · simp only [reduceCtorEq, false_iff, not_and]; intro h; contradiction

@[simp] theorem assertEq_self (a : Nat) : assertEq a a = .ok () := by simp [assertEq]

theorem assertEq_of_eq {a b : Nat} (h : a = b) : assertEq a b = .ok () := by simp [assertEq, h]

theorem assertEq_eq_ok {a b : Nat} {u : Unit} : assertEq a b = .ok u ↔ a = b := by
  unfold assertEq; split <;> simp_all

theorem castU32_of_lt {n : Nat} (h : n < 2 ^ 32) : castU32 n = n := Nat.mod_eq_of_lt h

/-! ## `mapM` -/

@[simp] theorem mapM_nil_R {f : α → R β} : ([] : List α).mapM f = .ok [] := rfl

theorem mapM_cons_R {f : α → R β} {x : α} {xs : List α} :
    (x :: xs).mapM f = (do let y ← f x; let ys ← xs.mapM f; pure (y :: ys)) := by
  simp [List.mapM_cons]

theorem mapM_ok {f : α → R β} {g : α → β} {l : List α} (h : ∀ x ∈ l, f x = .ok (g x)) :
    l.mapM f = .ok (l.map g) := by
  induction l with
  | nil => rfl
  | cons x xs ih =>
    rw [mapM_cons_R, h x (by simp), ih (fun y hy => h y (by simp [hy]))]
    simp

theorem mapM_eq_ok {f : α → R β} {l : List α} {ys : List β} :
    l.mapM f = .ok ys ↔ List.Forall₂ (fun x y => f x = .ok y) l ys := by
  induction l generalizing ys with
  | nil =>
    constructor
    · intro h; cases h; exact .nil
    · intro h; cases h; rfl
  | cons x xs ih =>
    rw [mapM_cons_R, R.bind_eq_ok]
    constructor
    · rintro ⟨y, hy, h⟩
      rw [R.bind_eq_ok] at h
      obtain ⟨ys', hys, h⟩ := h
      cases h
      exact .cons hy (ih.mp hys)
    · intro h
      cases h with
      | cons hy hys =>
        refine ⟨_, hy, ?_⟩
        rw [ih.mpr hys]; rfl

theorem forall₂_length {r : α → β → Prop} {l : List α} {m : List β} (h : List.Forall₂ r l m) :
    l.length = m.length := by
  induction h with
  | nil => rfl
  | cons _ _ ih => simp [ih]

theorem mapM_length {f : α → R β} {l : List α} {ys : List β} (h : l.mapM f = .ok ys) :
    ys.length = l.length := (forall₂_length (mapM_eq_ok.mp h)).symm

theorem forall₂_get {r : α → β → Prop} {l : List α} {m : List β} (h : List.Forall₂ r l m) {i : Nat} {a : α}
    (ha : l[i]? = some a) : ∃ b, m[i]? = some b ∧ r a b := by
  induction h generalizing i with
  | nil => simp at ha
  | cons h1 _ ih =>
    cases i with
    | zero => simp at ha; subst ha; exact ⟨_, rfl, h1⟩
    | succ i => exact ih (by simpa using ha)

theorem mapM_get {f : α → R β} {l : List α} {ys : List β} (h : l.mapM f = .ok ys) {i : Nat} {a : α}
    (ha : l[i]? = some a) : ∃ b, ys[i]? = some b ∧ f a = .ok b :=
  forall₂_get (mapM_eq_ok.mp h) ha

/-- A `mapM` fails iff some element fails. -/
theorem mapM_error {f : α → R β} {l : List α} {x : α} (hx : x ∈ l) {e : Panic} (h : f x = .error e) :
    ∃ e', l.mapM f = .error e' := by
  cases hl : l.mapM f with
  | error e' => exact ⟨e', rfl⟩
  | ok ys =>
    obtain ⟨i, hi⟩ := List.getElem?_of_mem hx
    obtain ⟨b, _, hb⟩ := mapM_get hl hi
    rw [h] at hb; cases hb

theorem mapM_congr {f g : α → R β} {l : List α} (h : ∀ x ∈ l, f x = g x) : l.mapM f = l.mapM g := by
  induction l with
  | nil => rfl
  | cons x xs ih =>
    rw [mapM_cons_R, mapM_cons_R, h x (by simp), ih (fun y hy => h y (by simp [hy]))]

theorem mapM_append_R {f : α → R β} {l m : List α} :
    (l ++ m).mapM f = (do let ys ← l.mapM f; let zs ← m.mapM f; pure (ys ++ zs)) := by
  simp [List.mapM_append]

theorem mapM_map_R {γ : Type} {f : β → R γ} {g : α → β} {l : List α} :
    (l.map g).mapM f = l.mapM (fun x => f (g x)) := by
  induction l with
  | nil => rfl
  | cons x xs ih => simp only [List.map_cons, mapM_cons_R, ih]

/-! ## `foldlM` -/

@[simp] theorem foldlM_nil_R {f : σ → α → R σ} {s : σ} : ([] : List α).foldlM f s = .ok s := rfl
@[simp] theorem foldlM_cons_R {f : σ → α → R σ} {s : σ} {x : α} {xs : List α} :
    (x :: xs).foldlM f s = (do let s' ← f s x; xs.foldlM f s') := rfl

theorem foldlM_append_R {f : σ → α → R σ} {s : σ} {l m : List α} :
    (l ++ m).foldlM f s = (do let s' ← l.foldlM f s; m.foldlM f s') := by
  simp [List.foldlM_append]

theorem foldlM_ok {f : σ → α → R σ} {g : σ → α → σ} (P : σ → Prop) {l : List α} {s : σ} (hs : P s)
    (h : ∀ s x, P s → x ∈ l → f s x = .ok (g s x) ∧ P (g s x)) :
    l.foldlM f s = .ok (l.foldl g s) ∧ P (l.foldl g s) := by
  induction l generalizing s with
  | nil => exact ⟨rfl, hs⟩
  | cons x xs ih =>
    obtain ⟨h1, h2⟩ := h s x hs (by simp)
    rw [foldlM_cons_R, h1]
    exact ih h2 (fun s y hP hy => h s y hP (by simp [hy]))

theorem foldlM_congr {f g : σ → α → R σ} {l : List α} {s : σ} (h : ∀ s, ∀ x ∈ l, f s x = g s x) :
    l.foldlM f s = l.foldlM g s := by
  induction l generalizing s with
  | nil => rfl
  | cons x xs ih =>
    rw [foldlM_cons_R, foldlM_cons_R, h s x (by simp)]
    congr 1; funext s'
    exact ih (fun s y hy => h s y (by simp [hy]))

/-- Invariant of a successful fold. -/
theorem foldlM_inv {f : σ → α → R σ} (P : σ → Prop) {l : List α} {s s' : σ} (hs : P s)
    (hf : l.foldlM f s = .ok s') (h : ∀ s x s', P s → x ∈ l → f s x = .ok s' → P s') : P s' := by
  induction l generalizing s with
  | nil => cases hf; exact hs
  | cons x xs ih =>
    rw [foldlM_cons_R, R.bind_eq_ok] at hf
    obtain ⟨s1, h1, h2⟩ := hf
    exact ih (h s x s1 hs (by simp) h1) h2 (fun s y s' hP hy => h s y s' hP (by simp [hy]))

/-! ## `for` loops -/

theorem forRange_succ {n : Nat} {body : Nat → σ → R σ} {s : σ} :
    forRange (n + 1) body s = (do let s' ← forRange n body s; body n s') := by
  simp only [forRange, List.range_succ, foldlM_append_R]
  congr 1; funext s'
  simp only [foldlM_cons_R, foldlM_nil_R]
  cases body n s' <;> rfl

@[simp] theorem forRange_zero {body : Nat → σ → R σ} {s : σ} : forRange 0 body s = .ok s := rfl

/-- A loop that never panics and keeps an invariant. -/
theorem forRange_ok {n : Nat} {body : Nat → σ → R σ} {s : σ} (P : Nat → σ → Prop) (h0 : P 0 s)
    (h : ∀ i s, i < n → P i s → ∃ s', body i s = .ok s' ∧ P (i + 1) s') :
    ∃ s', forRange n body s = .ok s' ∧ P n s' := by
  induction n with
  | zero => exact ⟨s, rfl, h0⟩
  | succ n ih =>
    obtain ⟨s1, h1, hP⟩ := ih (fun i s hi => h i s (by omega))
    obtain ⟨s2, h2, hP2⟩ := h n s1 (by omega) hP
    exact ⟨s2, by rw [forRange_succ, h1]; simpa using h2, hP2⟩

/-- Invariant of a successful loop. -/
theorem forRange_inv {n : Nat} {body : Nat → σ → R σ} {s s' : σ} (P : Nat → σ → Prop) (h0 : P 0 s)
    (hf : forRange n body s = .ok s')
    (h : ∀ i s s', i < n → P i s → body i s = .ok s' → P (i + 1) s') : P n s' := by
  induction n generalizing s' with
  | zero => cases hf; exact h0
  | succ n ih =>
    rw [forRange_succ, R.bind_eq_ok] at hf
    obtain ⟨s1, h1, h2⟩ := hf
    exact h n s1 s' (by omega) (ih h1 (fun i s s' hi => h i s s' (by omega))) h2

theorem forRange_congr {n : Nat} {f g : Nat → σ → R σ} {s : σ} (h : ∀ i s, i < n → f i s = g i s) :
    forRange n f s = forRange n g s := by
  unfold forRange
  exact foldlM_congr (fun s i hi => h i s (List.mem_range.mp hi))

/-- A loop over the positions of a list is a loop over the list. -/
theorem forRange_idx {v : List α} {body : Nat → α → σ → R σ} {s : σ} :
    forRange v.length (fun i s => do let a ← idx v i; body i a s) s =
      v.zipIdx.foldlM (fun s p => body p.2 p.1 s) s := by
  have key : ∀ (w u : List α), v = u ++ w →
      (List.range' u.length w.length).foldlM (fun s i => (do let a ← idx v i; body i a s : R σ)) s =
        (w.zipIdx u.length).foldlM (fun s p => body p.2 p.1 s) s := by
    intro w
    induction w generalizing s with
    | nil => intro u _; rfl
    | cons a w ih =>
      intro u hv
      simp only [List.length_cons, List.range'_succ, List.zipIdx_cons, foldlM_cons_R]
      have : idx v u.length = .ok a := idx_some (by simp [hv])
      rw [this]
      simp only [R.ok_bind]
      congr 1; funext s'
      have := ih (s := s') (u ++ [a]) (by simp [hv])
      simpa using this
  have := key v [] rfl
  simpa [forRange, List.range_eq_range'] using this

/-- The in-place update of every element of a vector. -/
theorem forRange_update {body : Nat → List α → R (List α)} {g : Nat → α → α} {v : List α}
    (h : ∀ i (hi : i < v.length) (w : List α), w.length = v.length → w[i]? = v[i]? →
      body i w = .ok (w.set i (g i v[i]))) :
    forRange v.length body v = .ok (v.mapIdx g) := by
  obtain ⟨s', h1, h2⟩ := forRange_ok (body := body) (n := v.length) (s := v)
    (P := fun k w => w = v.mapIdx (fun i a => if i < k then g i a else a))
    (by apply List.ext_getElem?; intro i; simp) (by
      intro i w hi hw
      subst hw
      refine ⟨_, h i hi _ (by simp) (by simp), ?_⟩
      apply List.ext_getElem?
      intro j
      rw [List.getElem?_set]
      by_cases hij : i = j
      · subst hij; simp [hi]
      · simp only [hij, if_false, List.getElem?_mapIdx]
        have : j < i + 1 ↔ j < i := by omega
        simp [this])
  rw [h1, h2]
  congr 1
  apply List.ext_getElem?
  intro i
  simp only [List.getElem?_mapIdx]
  cases h : v[i]? with
  | none => rfl
  | some a =>
    have hi : i < v.length := by
      by_contra hc
      simp [List.getElem?_eq_none (by omega : v.length ≤ i)] at h
    simp [hi]

theorem mapIdx_zipWith {γ : Type} {f : α → β → γ} {g : Nat → α → γ} {v : List α} {w : List β}
    (hl : v.length = w.length) (h : ∀ i a b, v[i]? = some a → w[i]? = some b → g i a = f a b) :
    v.mapIdx g = List.zipWith f v w := by
  apply List.ext_getElem?
  intro i
  rw [List.getElem?_mapIdx, List.getElem?_zipWith]
  cases hv : v[i]? with
  | none => simp
  | some a =>
    cases hw : w[i]? with
    | none =>
      rw [List.getElem?_eq_none_iff] at hw
      have := (List.getElem?_eq_some_iff.mp hv).1
      omega
    | some b => simp [h i a b hv hw]

theorem R.ok_or_error (x : R α) : (∃ a, x = .ok a) ∨ ∃ e, x = .error e := by
  cases x with
  | ok a => exact .inl ⟨a, rfl⟩
  | error e => exact .inr ⟨e, rfl⟩

theorem R.error_iff {x : R α} : (∃ e, x = .error e) ↔ ¬ ∃ a, x = .ok a := by
  cases x <;> simp

theorem mapM_ok_iff {f : α → R β} {l : List α} : (∃ ys, l.mapM f = .ok ys) ↔ ∀ x ∈ l, ∃ y, f x = .ok y := by
  constructor
  · rintro ⟨ys, h⟩ x hx
    rcases R.ok_or_error (f x) with ⟨y, hy⟩ | ⟨e, he⟩
    · exact ⟨y, hy⟩
    · obtain ⟨e', he'⟩ := mapM_error hx he
      rw [he'] at h; cases h
  · intro h
    induction l with
    | nil => exact ⟨[], rfl⟩
    | cons x xs ih =>
      obtain ⟨y, hy⟩ := h x (by simp)
      obtain ⟨ys, hys⟩ := ih (fun z hz => h z (by simp [hz]))
      exact ⟨y :: ys, by rw [mapM_cons_R, hy, hys]; rfl⟩

theorem foldlM_error {f : σ → α → R σ} {l : List α} {s : σ} {x : α} (hx : x ∈ l)
    (h : ∀ s, ∃ e, f s x = .error e) : ∃ e, l.foldlM f s = .error e := by
  induction l generalizing s with
  | nil => cases hx
  | cons y ys ih =>
    rw [foldlM_cons_R]
    rcases R.ok_or_error (f s y) with ⟨s', hs'⟩ | ⟨e, he⟩
    · rw [hs', R.ok_bind]
      rcases List.mem_cons.mp hx with rfl | hx
      · obtain ⟨e, he⟩ := h s
        rw [he] at hs'; cases hs'
      · exact ih hx
    · exact ⟨e, by rw [he]; rfl⟩

end Verif
