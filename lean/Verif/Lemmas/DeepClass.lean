import Verif.Spec.DeepClass
import Verif.Lemmas.ExactAmg
import Verif.Lemmas.FullFit
/-! # Classification boosting when every leaf holds one kind of example -/

set_option linter.unusedSectionVars false

namespace Verif

variable {K : Type} [Field K] [LinearOrder K] [IsStrictOrderedRing K] [FloorSemiring K] [HasExp K]

theorem hitMiss_length (t k : Nat) (a b : K) : (hitMiss t k a b).length = t := by simp [hitMiss]

theorem hitMiss_getD {t k j : Nat} (hj : j < t) (a b : K) : (hitMiss t k a b).getD j 0 = if j = k then a else b := getD_range hj _ _

theorem hitMiss_sum {t k : Nat} (hk : k < t) (a b : K) : (hitMiss t k a b).sum = a + ((t : K) - 1) * b := by
  have h1 : hitMiss t k a b = (List.range t).map (fun j => b + (a - b) * (if j = k then 1 else 0)) := by
    apply List.map_congr_left
    intro j _
    split <;> ring
  have h2 := hot_sum (K := K) hk
  rw [hot] at h2
  rw [h1, List.sum_map_add, List.sum_map_mul_left, h2]
  simp
  ring

theorem hitMiss_map {t k : Nat} (f : K → K) (a b : K) : (hitMiss t k a b).map f = hitMiss t k (f a) (f b) := by
  rw [hitMiss, hitMiss, List.map_map]
  apply List.map_congr_left
  intro j _
  simp only [Function.comp_apply]
  split <;> rfl

theorem hitMiss_zip {t k : Nat} (f : K → K → K) (a b a' b' : K) :
    List.zipWith f (hitMiss t k a b) (hitMiss t k a' b') = hitMiss t k (f a a') (f b b') := by
  rw [hitMiss, hitMiss, zipWith_range_range, hitMiss]
  apply List.map_congr_left
  intro j _
  split <;> rfl

theorem hot_eq_hitMiss (t k : Nat) : (hot t k : List K) = hitMiss t k 1 0 := rfl

theorem hitMiss_const {t k : Nat} (a : K) : hitMiss t k a a = List.replicate t a := by
  rw [List.eq_replicate_iff]
  refine ⟨hitMiss_length _ _ _ _, ?_⟩
  intro x hx
  obtain ⟨j, _, rfl⟩ := List.mem_map.mp hx
  split <;> rfl

/-! ## the shares -/

theorem shares {t : Nat} (h2 : 2 ≤ t) (s : K × K) :
    0 < hitShare t s ∧ hitShare t s < 1 ∧ 0 < missShare t s ∧ missShare t s < 1 := by
  have ht : (2 : K) ≤ t := by exact_mod_cast h2
  have ha := HasExp.exp_pos s.1
  have hb := HasExp.exp_pos s.2
  have hb2 : HasExp.exp s.2 ≤ ((t : K) - 1) * HasExp.exp s.2 := by
    have := mul_le_mul_of_nonneg_right (show (1 : K) ≤ t - 1 by linarith) hb.le
    rwa [one_mul] at this
  have hpos : 0 < HasExp.exp s.1 + ((t : K) - 1) * HasExp.exp s.2 := by linarith
  refine ⟨div_pos ha hpos, ?_, div_pos hb hpos, ?_⟩
  · rw [hitShare, div_lt_one hpos]; linarith
  · rw [missShare, div_lt_one hpos]; linarith

theorem softmax_hitMiss {t k : Nat} (hk : k < t) (s : K × K) :
    softmax (hitMiss t k s.1 s.2) = hitMiss t k (hitShare t s) (missShare t s) := by
  have : ((hitMiss t k s.1 s.2).map HasExp.exp).sum = HasExp.exp s.1 + ((t : K) - 1) * HasExp.exp s.2 := by
    rw [hitMiss_map, hitMiss_sum hk]
  rw [softmax, this, hitMiss_map (fun x => HasExp.exp x / (HasExp.exp s.1 + ((t : K) - 1) * HasExp.exp s.2))]
  rfl

/-- the residual of such a row -/
theorem resid_hitMiss {t k : Nat} (hk : k < t) (s : K × K) :
    List.zipWith (· - ·) (hot t k) (softmax (hitMiss t k s.1 s.2)) = hitMiss t k (1 - hitShare t s) (-missShare t s) := by
  rw [softmax_hitMiss hk, hot_eq_hitMiss, hitMiss_zip, zero_sub]

/-- the value of a leaf whose residuals are all the same -/
theorem classLeaf_pure {t k : Nat} {ms : List (List K)} (hne : ms ≠ []) {p q : K} (hp0 : 0 < p) (hp1 : p < 1) (hq0 : 0 < q)
    (hq1 : q < 1) (hms : ∀ r ∈ ms, r = hitMiss t k (1 - p) (-q)) :
    classLeaf t ms = hitMiss t k (((t : K) - 1) / t / p) (-(((t : K) - 1) / t / (1 - q))) := by
  have hn := length_cast_ne (K := K) hne
  rw [classLeaf, hitMiss]
  apply List.map_congr_left
  intro j hj
  rw [List.mem_range] at hj
  have ht : target ms j = List.replicate ms.length (if j = k then 1 - p else -q) := by
    rw [List.eq_replicate_iff]
    refine ⟨by simp [target], ?_⟩
    intro x hx
    obtain ⟨v, hv, rfl⟩ := List.mem_map.mp hx
    rw [hms v hv, hitMiss_getD hj]
  rw [ht, List.map_replicate, List.sum_replicate, List.sum_replicate, nsmul_eq_mul, nsmul_eq_mul]
  split
  · rw [abs_of_pos (by linarith)]
    have h1 : (1 - p) ≠ 0 := by linarith
    rw [show (1 : K) - (1 - p) = p by ring]
    field_simp
  · rw [abs_neg, abs_of_pos hq0]
    have h1 : (1 - q) ≠ 0 := by linarith
    field_simp

theorem keepTop_hitMiss {t k : Nat} (hk : k < t) {a b : K} (hab : b < a) :
    keepTop t (hitMiss t k a b) = hitMiss t k a (-a / ((t : K) - 1)) := by
  have hne : hitMiss t k a b ≠ [] := by
    intro h0
    have := congrArg List.length h0
    rw [hitMiss_length] at this
    simp at this
    omega
  have htop : FirstTop (hitMiss t k a b) k := by
    refine ⟨by rw [hitMiss_length]; exact hk, ?_, ?_⟩
    · intro j hj
      rw [hitMiss_length] at hj
      rw [hitMiss_getD hj, hitMiss_getD hk, if_pos rfl]
      split
      · exact le_rfl
      · exact hab.le
    · intro j hj
      rw [hitMiss_getD (by omega), hitMiss_getD hk, if_pos rfl, if_neg (by omega)]
      exact hab
  have hidx := (findMax_top hne).unique htop
  rw [keepTop, hidx, hitMiss_getD hk, if_pos rfl]
  rw [eq_range_getD (amgField_length t a k) 0, hitMiss]
  apply List.map_congr_left
  intro j hj
  rw [List.mem_range] at hj
  exact amgField_getD a hj

/-! ## one iteration -/

section step
variable {d : DataSet (Ext K)} {c t : Nat} {ks : List Nat}

/-- the scores of all rows, from the classes of the rows -/
abbrev hitRows (t : Nat) (ks : List Nat) (s : K × K) : List (List K) := ks.map (fun k => hitMiss t k s.1 s.2)

theorem hitRows_resid (hk : ∀ k ∈ ks, k < t) (s : K × K) :
    probResid (ks.map (hot t)) (hitRows t ks s) = hitRows t ks (1 - hitShare t s, -missShare t s) := by
  rw [probResid, hitRows, List.zipWith_map, List.zipWith_self]
  apply List.map_congr_left
  intro k hkm
  exact resid_hitMiss (hk k hkm) s

theorem hitRows_width (s : K × K) : ∀ p ∈ hitRows t ks s, p.length = t := by
  intro p hp
  obtain ⟨k, _, rfl⟩ := List.mem_map.mp hp
  exact hitMiss_length _ _ _ _

/-- whatever is computed from the classes of the rows, the tree sorts the training rows by it -/
def SortsRows {L : Type} (leafOf : DataSet (Ext K) → L) (c t m : Nat) (d : DataSet (Ext K)) (ks : List Nat) : Prop :=
  ∀ φ : Nat → List K, (withLabels d (ks.map φ)).WF c t → ∀ e ∈ d.featureRows.zip (ks.map φ),
    ∀ v ∈ mates (treeOf leafOf c t m (withLabels d (ks.map φ))) (d.featureRows.zip (ks.map φ)) e.1, v = e.2

theorem sortsRows_deep {L : Type} {leafOf : DataSet (Ext K) → L} (hd : NoContradictions d.featureRows ks) {m : Nat}
    (hm : d.featureRows.length ≤ m + 1) : SortsRows leafOf c t m d ks :=
  fun φ hw => treeOf_alone (leafOf := leafOf) hw rfl ((hd.map φ).map liftV) hm

/-- the leaf of the `i`-th row -/
theorem leaf_hitRows {L : Type} {leafOf : DataSet (Ext K) → L} (h2 : 2 ≤ t) (hks : ks.length = d.featureRows.length)
    (s : K × K) (hw : (withLabels d (hitRows t ks (1 - hitShare t s, -missShare t s))).WF c t)
    {m : Nat} (hd : SortsRows leafOf c t m d ks) {i : Nat} (hi : i < d.featureRows.length) :
    classLeaf t (mates (treeOf leafOf c t m (withLabels d (hitRows t ks (1 - hitShare t s, -missShare t s))))
      (d.featureRows.zip (hitRows t ks (1 - hitShare t s, -missShare t s))) d.featureRows[i]) =
      hitMiss t (ks[i]'(by omega)) (((t : K) - 1) / t / hitShare t s) (-(((t : K) - 1) / t / (1 - missShare t s))) := by
  obtain ⟨h3, h4, h5, h6⟩ := shares h2 s
  have hmem : (d.featureRows[i], hitMiss t (ks[i]'(by omega)) (1 - hitShare t s) (-missShare t s)) ∈
      d.featureRows.zip (hitRows t ks (1 - hitShare t s, -missShare t s)) := by
    rw [List.mem_iff_getElem]
    exact ⟨i, by simp [hi, hks], by simp⟩
  refine classLeaf_pure ?_ h3 h4 h5 h6 ?_
  · apply List.ne_nil_of_mem (a := hitMiss t (ks[i]'(by omega)) (1 - hitShare t s) (-missShare t s))
    simp only [mates, List.mem_map, List.mem_filter, decide_eq_true_eq]
    exact ⟨_, ⟨hmem, rfl⟩, rfl⟩
  · exact hd _ hw _ hmem

theorem updated_hitRows (hks : ks.length = d.featureRows.length) {lr : K} {o : List (Ext K) → List K} {a b : K}
    (ho : ∀ (i : Nat) (hi : i < d.featureRows.length), o d.featureRows[i] = hitMiss t (ks[i]'(by omega)) a b) (s : K × K) :
    updated lr o (hitRows t ks s) d.featureRows = hitRows t ks (s.1 + lr * a, s.2 + lr * b) := by
  apply List.ext_getElem (by simp [updated, hks])
  intro i h1 h3
  simp only [List.length_map] at h3
  simp only [updated, List.getElem_zipWith, List.getElem_map]
  rw [ho i (by omega), hitMiss_map (fun x => lr * x), hitMiss_zip]

end step

end Verif
