import Verif.Props.Mse
/-!
# C71: the vector arithmetic of the `common` crate (any arithmetic)
-/

set_option linter.unusedSectionVars false

namespace Verif

variable {F : Type} [F64 F]

open Sample

theorem zipWith_iff {α : Type} {op : α → α → α} {a b v : List α} (hl : a.length = b.length) :
    v = List.zipWith op a b ↔ v.length = a.length ∧ ∀ (j : Nat) (x y : α), a[j]? = some x → b[j]? = some y → v[j]? = some (op x y) := by
  constructor
  · rintro rfl
    refine ⟨by simp [hl], ?_⟩
    intro j x y hx hy
    simp [List.getElem?_zipWith, hx, hy]
  · rintro ⟨h1, h2⟩
    apply List.ext_getElem?
    intro j
    rcases Nat.lt_or_ge j a.length with hj | hj
    · rw [h2 j a[j] b[j] (by simp [hj]) (by simp [hl ▸ hj])]
      simp [hj, hl ▸ hj]
    · simp [h1, hj, ← hl]

/-- **C71** (element-wise operations).  Adding, subtracting, multiplying and dividing slices returns a vector exactly if the slices have
the same length, and then it has that length and combines the entries at the same position. -/
theorem C71_elementwise (a b v : List F) :
    (addSlices a b = .ok v ↔ a.length = b.length ∧ v.length = a.length ∧
      ∀ (j : Nat) x y, a[j]? = some x → b[j]? = some y → v[j]? = some (x +. y)) ∧
    (subtractSlices a b = .ok v ↔ a.length = b.length ∧ v.length = a.length ∧
      ∀ (j : Nat) x y, a[j]? = some x → b[j]? = some y → v[j]? = some (x -. y)) ∧
    (multiplySlices a b = .ok v ↔ a.length = b.length ∧ v.length = a.length ∧
      ∀ (j : Nat) x y, a[j]? = some x → b[j]? = some y → v[j]? = some (x *. y)) ∧
    (divideSlices a b = .ok v ↔ a.length = b.length ∧ v.length = a.length ∧
      ∀ (j : Nat) x y, a[j]? = some x → b[j]? = some y → v[j]? = some (x /. y)) := by
  have key : ∀ op : F → F → F, (do assertEq a.length b.length; pure (List.zipWith op a b) : R (List F)) = .ok v ↔
      a.length = b.length ∧ v.length = a.length ∧ ∀ (j : Nat) x y, a[j]? = some x → b[j]? = some y → v[j]? = some (op x y) := by
    intro op
    simp only [R.bind_eq_ok, assertEq_eq_ok, R.pure_eq, exists_const, Except.ok.injEq]
    exact and_congr_right (fun hl => by rw [eq_comm]; exact zipWith_iff hl)
  exact ⟨key _, key _, key _, key _⟩

/-- **C71** (scalar).  Multiplying by a scalar multiplies every entry, and never panics. -/
theorem C71_scalar (s : F) (v : List F) :
    (multiplyByScalar s v).length = v.length ∧ ∀ (j : Nat) x, v[j]? = some x → (multiplyByScalar s v)[j]? = some (x *. s) := by
  refine ⟨by simp [multiplyByScalar], ?_⟩
  intro j x hx
  simp [multiplyByScalar, hx]

/-- **C71** (squared differences).  The mean of the squared differences is returned exactly if the slices have the same length. -/
theorem C71_squared_differences (a b : List F) (e : F) :
    meanSumOfSquaredDifferences a b = .ok e ↔ a.length = b.length ∧ e = squaredError F64.sumStart a b :=
  meanSumOfSquaredDifferences_iff

theorem foldlM_add_inv {vs : List (List F)} {a s : List F} (h : vs.foldlM (fun s v => addSlices s v) a = .ok s) :
    ∀ v ∈ vs, v.length = a.length := by
  induction vs generalizing a with
  | nil => simp
  | cons v vs ih =>
    rw [foldlM_cons_R, R.bind_eq_ok] at h
    obtain ⟨s1, h1, h2⟩ := h
    obtain ⟨h3, h4, _⟩ := (C71_elementwise a v s1).1.mp h1
    intro w hw
    rcases List.mem_cons.mp hw with rfl | hw
    · exact h3.symm
    · rw [ih h2 w hw, h4]

/-- **C71** (sum of vectors).  The sum is returned exactly if there is a vector and all have the same length; entry `j` is the sum of the
`j`-th entries in order. -/
theorem C71_sum (vv : List (List F)) (s : List F) :
    sumOfVectors vv = .ok s ↔ ∃ t, vv ≠ [] ∧ (∀ v ∈ vv, v.length = t) ∧ s.length = t ∧ ∀ j < t, s[j]? = some (sumAt vv j) := by
  constructor
  · intro h
    cases vv with
    | nil => cases h
    | cons v0 rest =>
      have hl : ∀ v ∈ v0 :: rest, v.length = v0.length := by
        unfold sumOfVectors at h
        rw [idx_cons_zero, R.ok_bind] at h
        have := foldlM_add_inv h
        simpa using this
      rw [sumOfVectors_ok (by simp) hl, vecSum_range hl] at h
      cases h
      refine ⟨v0.length, by simp, hl, by simp, ?_⟩
      intro j hj
      simp [hj]
  · rintro ⟨t, h1, h2, h3, h4⟩
    rw [sumOfVectors_ok h1 h2, vecSum_range h2]
    congr 1
    apply List.ext_getElem?
    intro j
    rcases Nat.lt_or_ge j t with hj | hj
    · rw [h4 j hj]; simp [hj]
    · simp [h3, hj]

theorem average_inner {vv : List (List F)} {t i : Nat} (ht : ∀ (h : i < vv.length), t ≤ vv[i].length) (hi : i < vv.length) {a : List F} :
    forRange t (fun j average => do
      let cur ← idx average j
      let x ← idx (← idx vv i) j
      setIdx average j (cur +. x)) a =
    forRange t (fun j average => do
      let cur ← idx average j
      let x ← idx (← idx (vv.map (List.take t)) i) j
      setIdx average j (cur +. x)) a := by
  apply forRange_congr
  intro j s hj
  have h1 : j < vv[i].length := by have := ht hi; omega
  congr 1
  funext cur
  rw [idx_lt hi, R.ok_bind, idx_lt h1, R.ok_bind, idx_lt (by simpa using hi), R.ok_bind, idx_lt (by simp; omega), R.ok_bind]
  simp

/-- **C71** (average).  The average is returned exactly if there is a vector and none is shorter than the first; additional entries of
later vectors are not looked at.  Entry `j` is the sum of the `j`-th entries in order, divided by the number of vectors. -/
theorem C71_average (vv : List (List F)) (a : List F) :
    calculateAverageVector vv = .ok a ↔ ∃ v0 rest, vv = v0 :: rest ∧ (∀ v ∈ vv, v0.length ≤ v.length) ∧ a.length = v0.length ∧
      ∀ j < v0.length, a[j]? = some (averageAt vv j) := by
  cases vv with
  | nil =>
    constructor
    · intro h; cases h
    · rintro ⟨v0, rest, h, _⟩; cases h
  | cons v0 rest =>
    generalize hvv : v0 :: rest = vv
    have hpos : 0 < vv.length := by rw [← hvv]; simp
    have h0 : idx vv 0 = .ok v0 := by rw [← hvv]; rfl
    -- on vectors that are long enough
    have hok : (∀ v ∈ vv, v0.length ≤ v.length) → calculateAverageVector vv = .ok ((List.range v0.length).map (averageAt vv)) := by
      intro hlen
      have hw : ∀ v ∈ vv.map (List.take v0.length), v.length = v0.length := by
        intro v hv
        obtain ⟨w, hw, rfl⟩ := List.mem_map.mp hv
        have := hlen w hw
        simp [this]
      have h1 : calculateAverageVector vv = calculateAverageVector (vv.map (List.take v0.length)) := by
        unfold calculateAverageVector
        have h0' : idx (vv.map (List.take v0.length)) 0 = .ok v0 := by rw [← hvv]; simp
        rw [h0, h0', R.ok_bind, R.ok_bind, List.length_map]
        dsimp only
        congr 1
        apply forRange_congr
        intro i s hi
        exact average_inner (fun h => hlen _ (List.getElem_mem h)) hi
      rw [h1, calculateAverageVector_ok (by rw [← hvv]; simp) hw, avgVec_range hw]
      congr 1
      apply List.map_congr_left
      intro j hj
      rw [List.mem_range] at hj
      rw [averageAt, averageAt, List.length_map, sumAt, sumAt, List.foldl_map]
      congr 1
      simp [List.getD, hj]
    constructor
    · intro h
      have hlen : ∀ v ∈ vv, v0.length ≤ v.length := by
        have h' := h
        unfold calculateAverageVector at h'
        rw [h0, R.ok_bind, R.bind_eq_ok] at h'
        obtain ⟨s, h1, _⟩ := h'
        intro v hv
        obtain ⟨i, hi, rfl⟩ := List.getElem_of_mem hv
        refine forRange_inv (P := fun k (_ : List F) => ∀ (i : Nat) (hi : i < vv.length), i < k → v0.length ≤ vv[i].length)
          (by intro i _ h; omega) h1 ?_ i hi hi
        intro k s1 s2 hk ih hb i hi hik
        rcases Nat.lt_or_ge i k with hlt | hge
        · exact ih i hi hlt
        · have : i = k := by omega
          subst this
          by_contra hshort
          push Not at hshort
          refine absurd (forRange_inv (P := fun j (_ : List F) => j ≤ vv[i].length) (Nat.zero_le _) hb ?_) (by omega)
          intro j s3 s4 hj hle hb2
          simp only [R.bind_eq_ok, idx_eq_ok] at hb2
          obtain ⟨_, _, w, hw, x, hx, _⟩ := hb2
          rw [List.getElem?_eq_getElem hi, Option.some.injEq] at hw
          subst hw
          exact (List.getElem?_eq_some_iff.mp hx).1
      rw [hok hlen] at h
      cases h
      refine ⟨v0, rest, hvv.symm, hlen, by simp, ?_⟩
      intro j hj
      simp [hj]
    · rintro ⟨v0', rest', h1, h2, h3, h4⟩
      rw [← hvv] at h1
      cases h1
      rw [hok h2]
      congr 1
      apply List.ext_getElem?
      intro j
      rcases Nat.lt_or_ge j v0.length with hj | hj
      · rw [h4 j hj]; simp [hj]
      · simp [h3, hj]

-- equal and different lengths; the average ignores the surplus entry of the second vector, the sum rejects it
example : multiplySlices [2, 3] [(5 : E), 7] = .ok [10, 21] ∧ divideSlices [2, 3] [(4 : E), 0] = .ok [.fin (1 / 2), .posInf] ∧
    subtractSlices [2, 3] [(4 : E)] = .error .assertion ∧ addSlices [2, 3] [(4 : E), 1] = .ok [6, 4] := by decide +kernel
example : calculateAverageVector [[1, 2], [3, 6, (9 : E)]] = .ok [2, 4] ∧ calculateAverageVector [[1, 2, 3], [3, (6 : E)]] = .error .index ∧
    sumOfVectors [[1, 2], [3, 6, (9 : E)]] = .error .assertion ∧ sumOfVectors [[1, 2], [3, (6 : E)]] = .ok [4, 8] := by decide +kernel

end Verif
