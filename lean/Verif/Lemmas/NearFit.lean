import Verif.Spec.NearFit
import Verif.Lemmas.SameInt
import Verif.Lemmas.NearLeaf
import Verif.Lemmas.FullFit
import Mathlib.Algebra.Ring.Subring.Basic
import Mathlib.Algebra.Group.Submonoid.BigOperators
/-!
# Integer labels: a gain that is not zero is large enough to survive rounding
-/

set_option linter.unusedSectionVars false

namespace Verif

open B64 LawfulOrder

/-! ## the variances of integers are multiples of a fraction -/

/-- the integers among the rational numbers -/
abbrev Zq : Subring ℚ := (Int.castRingHom ℚ).range

theorem natCast_zq (n : ℕ) : (n : ℚ) ∈ Zq := ⟨n, by simp⟩

theorem varOf_zq {xs : List ℚ} (h : ∀ x ∈ xs, x ∈ Zq) : (xs.length : ℚ) ^ 2 * varOf xs ∈ Zq := by
  rcases eq_or_ne xs [] with rfl | hne
  · simp
  have h0 : (xs.length : ℚ) ≠ 0 := length_cast_ne hne
  have e : (xs.length : ℚ) ^ 2 * varOf xs = xs.length * (xs.map (fun x => x ^ 2)).sum - xs.sum ^ 2 := by
    rw [varOf, sqDev_eq, meanOf]
    field_simp
    ring
  rw [e]
  refine Zq.sub_mem (Zq.mul_mem (natCast_zq _) (list_sum_mem ?_)) (pow_mem (list_sum_mem h) 2)
  intro x hx
  obtain ⟨y, hy, rfl⟩ := List.mem_map.mp hx
  exact pow_mem (h y hy) 2

/-- all entries are integers -/
def Whole (ls : List (List ℚ)) : Prop := ∀ v ∈ ls, ∀ x ∈ v, x ∈ Zq

theorem Whole.target {ls : List (List ℚ)} (h : Whole ls) (j : ℕ) : ∀ x ∈ target ls j, x ∈ Zq := by
  intro x hx
  obtain ⟨v, hv, rfl⟩ := List.mem_map.mp hx
  rw [List.getD]
  cases hj : v[j]? with
  | none => exact Zq.zero_mem
  | some y => exact h v hv y (List.mem_of_getElem? hj)

theorem totalVar_zq {t : ℕ} {ls : List (List ℚ)} (h : Whole ls) : (ls.length : ℚ) ^ 2 * totalVar t ls ∈ Zq := by
  rw [totalVar, ← List.sum_map_mul_left]
  refine list_sum_mem ?_
  intro x hx
  obtain ⟨j, _, rfl⟩ := List.mem_map.mp hx
  have := varOf_zq (h.target j)
  rwa [target_length] at this

/-- a gain of integer labels that is positive is at least `4 / n^4` -/
theorem reduction_whole {t : ℕ} {a b : List (List ℚ)} (ha : a ≠ []) (hb : b ≠ []) (hwa : Whole a) (hwb : Whole b)
    (hpos : 0 < totalVar t (a ++ b) - splitVar t a b) : 4 ≤ ((a ++ b).length : ℚ) ^ 4 * (totalVar t (a ++ b) - splitVar t a b) := by
  have ha0 : (0 : ℚ) < a.length := by exact_mod_cast List.length_pos_of_ne_nil ha
  have hb0 : (0 : ℚ) < b.length := by exact_mod_cast List.length_pos_of_ne_nil hb
  have hw : Whole (a ++ b) := by
    intro v hv
    rcases List.mem_append.mp hv with hv | hv
    · exact hwa v hv
    · exact hwb v hv
  have hlen : ((a ++ b).length : ℚ) = a.length + b.length := by simp
  set n : ℚ := ((a ++ b).length : ℚ) with hn
  have hn0 : 0 < n := by rw [hlen]; linarith
  have hs : n * splitVar t a b = a.length * totalVar t a + b.length * totalVar t b := by
    rw [splitVar, ← hlen]
    field_simp
  have e : n ^ 2 * (a.length * b.length) * (totalVar t (a ++ b) - splitVar t a b) =
      a.length * b.length * (n ^ 2 * totalVar t (a ++ b)) -
        n * (b.length * ((a.length : ℚ) ^ 2 * totalVar t a) + a.length * ((b.length : ℚ) ^ 2 * totalVar t b)) := by
    linear_combination (-n * a.length * b.length) * hs
  have hz : n ^ 2 * (a.length * b.length) * (totalVar t (a ++ b) - splitVar t a b) ∈ Zq := by
    rw [e]
    refine Zq.sub_mem (Zq.mul_mem (Zq.mul_mem (natCast_zq _) (natCast_zq _)) (totalVar_zq hw)) (Zq.mul_mem (natCast_zq _) ?_)
    exact Zq.add_mem (Zq.mul_mem (natCast_zq _) (totalVar_zq hwa)) (Zq.mul_mem (natCast_zq _) (totalVar_zq hwb))
  have hab : 0 < (a.length : ℚ) * b.length := mul_pos ha0 hb0
  obtain ⟨z, hz⟩ := hz
  have hz' : (z : ℚ) = n ^ 2 * (a.length * b.length) * (totalVar t (a ++ b) - splitVar t a b) := by simpa using hz
  have h1 : (1 : ℚ) ≤ z := by
    have : (0 : ℚ) < z := by rw [hz']; positivity
    have : 0 < z := by exact_mod_cast this
    exact_mod_cast this
  rw [hz'] at h1
  have h4 : 4 * ((a.length : ℚ) * b.length) ≤ n ^ 2 := by
    rw [hlen]
    nlinarith [sq_nonneg ((a.length : ℚ) - b.length)]
  have h5 : n ^ 2 * (4 * ((a.length : ℚ) * b.length)) * (totalVar t (a ++ b) - splitVar t a b) ≤
      n ^ 2 * n ^ 2 * (totalVar t (a ++ b) - splitVar t a b) :=
    mul_le_mul_of_nonneg_right (mul_le_mul_of_nonneg_left h4 (by positivity)) hpos.le
  nlinarith

/-! ## the split search -/

variable [B64Env]

section
variable {t : ℕ} {B : ℚ} {ls : List (List ℚ)} (hS : Scale ls.length B) (ht1 : 1 ≤ t) (ht2 : t ≤ 2 ^ 24)
include hS ht1 ht2

/-- if no gain is computed, no cut considered gains more than the tolerance -/
theorem no_gain_near {d : DataSet B64} {c : ℕ} (h : d.WF c t) (hls : d.exact.labels = lift ls) (hB : AtMost B ls)
    (hg : ((splitOf d t).gain ==. F64.zero) = true) {j : ℕ} (hj : j < c) {k : ℕ} {w m : Ext ℚ}
    (hk : ((eseq ls (column d.exact.featureRows j)).map Prod.fst)[k]? = some w)
    (hm : ((eseq ls (column d.exact.featureRows j)).map Prod.fst)[0]? = some m) (hw : (w ==. m) = false) :
    totalVar t ls - candAt t (eseq ls (column d.exact.featureRows j)) k ≤ splitTolerance ls.length t B := by
  have hE := h.exact
  have hlen : ls.length = d.exact.featureRows.length := by rw [← hE.label_count, hls, lift_length]
  have hlen' : ls.length = d.featureRows.length := by rw [hlen]; simp [DataSet.exact]
  have hne : ls ≠ [] := by
    rintro rfl
    exact hE.rows_ne (List.eq_nil_of_length_eq_zero hlen.symm)
  have hn1 : 1 ≤ ls.length := List.length_pos_of_ne_nil hne
  have ht : ∀ v ∈ ls, v.length = t := lift_width hls hE.label_len
  have hcl : ls.length = (column d.featureRows j).length := by rw [column_length, hlen']
  have hcv : (column d.featureRows j).map B64.val = column d.exact.featureRows j := column_val _ j
  have hcl' : ls.length = (column d.exact.featureRows j).length := by rw [column_length, hlen]
  have htl := totalVar_le hS ht1 ht2 hB
  have htot : Near (totalVariance d.labels t) (totalVar t ls) ((88 * ls.length + 2 * t) * (t * (u * (B * B)))) := by
    have hr := metricsOf_near hS hls ht hB le_rfl
    have := totalVar_near hS ht1 ht2 hn1 hr (by omega) rfl hB
    exact this
  rcases colResult_near hS ht1 ht2 hls hcl ht hne hB (h.col_nan hj) with
    ⟨_, hconst⟩ | ⟨i, v, m', L, _, hi, _, hm', _, hL, hLe, hmin⟩
  · exfalso
    have hmem : ∀ x ∈ (eseq ls (column d.exact.featureRows j)).map Prod.fst, x ∈ column d.exact.featureRows j := by
      intro x hx
      obtain ⟨p, hp, rfl⟩ := List.mem_map.mp hx
      exact (List.of_mem_zip ((eseq_perm hcl').mem_iff.mp hp)).1
    rw [hcv] at hconst
    rw [hconst w (hmem w (List.mem_of_getElem? hk)) m (hmem m (List.mem_of_getElem? hm))] at hw
    simp at hw
  · rw [hcv] at hm' hmin hLe
    rw [hm] at hm'
    simp only [Option.some.injEq] at hm'
    subst hm'
    obtain ⟨hx0, hxt⟩ := candAt_bounds (t := t) hcl' hi
    obtain ⟨g, hg', hge⟩ := gain_near hS ht1 ht2 hn1 htot hL hLe hx0 hxt htl
    have h1 := hmin k w hk hw
    have h2 := (abs_le.mp hge).1
    have hcol : colResult d.labels t (column d.featureRows j) ∈ d.featureColumns.map (colResult d.labels t) := by
      rw [h.cols, columnsOf, List.map_map]
      exact List.mem_map.mpr ⟨j, List.mem_range.mpr hj, rfl⟩
    have hg0 : g ≤ 0 := by
      unfold splitOf at hg
      rcases bestColumn_spec (totalVariance d.labels t) (d.featureColumns.map (colResult d.labels t)) with
        ⟨_, h5⟩ | ⟨i, r, _, h4, h5, h6, _⟩
      · have := h5 _ hcol
        have hg'' : (gainOf (totalVariance d.labels t) (colResult d.labels t (column d.featureRows j))).val = .fin g := hg'
        rw [lt_val, hg'', zero_val] at this
        simpa using this
      · exfalso
        rw [h4] at hg
        have := lt_ne' h5
        rw [show (gainOf (totalVariance d.labels t) r ==. F64.zero) = true from hg] at this
        simp at this
    linarith

/-- integer labels: if no gain is computed, there is none -/
theorem no_gain_whole {d : DataSet B64} {c : ℕ} (h : d.WF c t) (hls : d.exact.labels = lift ls) (hB : AtMost B ls) (hw : Whole ls)
    (hsz : (ls.length : ℚ) ^ 4 * splitTolerance ls.length t B < 4) (hg : ((splitOf d t).gain ==. F64.zero) = true) :
    ((splitOf d.exact t).gain ==. F64.zero) = true := by
  have hE := h.exact
  obtain ⟨g, h1, _, h3⟩ := splitOf_cut hE hls
  have hlen : ls.length = d.exact.featureRows.length := by rw [← hE.label_count, hls, lift_length]
  rcases h3 with ⟨h3, _⟩ | ⟨hpos, hj, r, hcut, _, he, _⟩
  · rw [h1, h3]; simp
  exfalso
  set j := (splitOf d.exact t).question.column with hjdef
  have hn := hE.col_nan hj
  have hcl : ls.length = (column d.exact.featureRows j).length := by rw [column_length, hlen]
  have hperm := labs_perm hcl
  obtain ⟨i, hi⟩ := row_position (j := j) hcut.1
  have e := candAt_cut (t := t) (ls := ls) hn hi
  simp only at e
  have hfst : ∀ i : ℕ, ((eseq ls (column d.exact.featureRows j)).map Prod.fst)[i]? =
      ((sorted (column d.exact.featureRows j).zipIdx)[i]?).map Prod.fst := by
    intro i
    simp [eseq, Function.comp_def]
  have hil : i < ls.length := by
    have := (List.getElem?_eq_some_iff.mp hi).1
    rw [(sorted_perm _).length_eq, List.length_zipIdx, ← hcl] at this
    exact this
  -- the smallest value comes first
  obtain ⟨hrl, a, ha, hlt⟩ := hcut
  obtain ⟨k, hk⟩ := row_position (j := j) ha
  have h0l : 0 < (sorted (column d.exact.featureRows j).zipIdx).length := by
    rw [(sorted_perm _).length_eq, List.length_zipIdx, ← hcl]; omega
  have h0 : (sorted (column d.exact.featureRows j).zipIdx)[0]? = some (sorted (column d.exact.featureRows j).zipIdx)[0] :=
    List.getElem?_eq_getElem h0l
  set m := (sorted (column d.exact.featureRows j).zipIdx)[0] with hmdef
  have hms := mem_sorted (List.mem_of_getElem? h0)
  have nn : ∀ i < d.exact.featureRows.length, NN ((column d.exact.featureRows j).getD i F64.zero) := fun i hi => by
    have hi' : i < (column d.exact.featureRows j).length := by rwa [column_length]
    rw [List.getD, List.getElem?_eq_getElem hi']
    exact nn_of_isNaN_false (hn _ (List.getElem_mem hi'))
  have hm2 : m.2 < d.exact.featureRows.length := by simpa only [column_length] using hms.1
  have hle : (m.1 <=. (column d.exact.featureRows j).getD a F64.zero) = true := by
    have hb := (sorted_before hn hk h0).not
    simp only [Bool.not_eq_true] at hb
    have hb := hb.mpr (by omega)
    rw [comesBefore, Bool.or_eq_false_iff] at hb
    rw [hms.2]
    exact (not_lt (nn a ha) (nn _ hm2)).mp hb.1
  have hne : ((column d.exact.featureRows j).getD r F64.zero ==. m.1) = false := by
    have h5 : (m.1 <. (column d.exact.featureRows j).getD r F64.zero) = true := lt_of_le_of_lt hle hlt
    cases hc : ((column d.exact.featureRows j).getD r F64.zero ==. m.1) with
    | false => rfl
    | true =>
      have := lt_ne' h5
      rw [hc] at this
      simp at this
  have hi0 : 0 < i := by
    rcases Nat.eq_zero_or_pos i with rfl | h0'
    · exfalso
      rw [hi] at h0
      have h0 := Option.some.inj h0
      rw [← h0] at hne
      have := nn r hrl
      rw [show ((column d.exact.featureRows j).getD r F64.zero ==. (column d.exact.featureRows j).getD r F64.zero) = true from this] at hne
      simp at hne
    · exact h0'
  have hnear := no_gain_near hS ht1 ht2 h hls hB hg hj (k := i) (by rw [hfst, hi]; rfl) (by rw [hfst, h0]; rfl) hne
  rw [e, ← he] at hnear
  -- but the gain is a multiple of a fraction
  have hwl : Whole (labs (eseq ls (column d.exact.featureRows j))) := fun v hv => hw v (hperm.mem_iff.mp hv)
  have hgr := reduction_whole (t := t) (a := (labs (eseq ls (column d.exact.featureRows j))).take i)
    (b := (labs (eseq ls (column d.exact.featureRows j))).drop i)
    (by
      intro h0
      have := congrArg List.length h0
      rw [List.length_take, hperm.length_eq, List.length_nil] at this
      omega)
    (by
      intro h0
      have := congrArg List.length h0
      rw [List.length_drop, hperm.length_eq, List.length_nil] at this
      omega)
    (fun v hv => hwl v (List.mem_of_mem_take hv)) (fun v hv => hwl v (List.mem_of_mem_drop hv))
  rw [List.take_append_drop, totalVar_perm hperm, hperm.length_eq] at hgr
  have e' : totalVar t ls - splitVar t ((labs (eseq ls (column d.exact.featureRows j))).take i)
      ((labs (eseq ls (column d.exact.featureRows j))).drop i) = g := by
    rw [he, ← e]; rfl
  rw [e'] at hgr
  have := hgr hpos
  have h6 : (ls.length : ℚ) ^ 4 * g ≤ (ls.length : ℚ) ^ 4 * splitTolerance ls.length t B :=
    mul_le_mul_of_nonneg_left hnear (by positivity)
  linarith

end


/-! ## few integers -/

/-- what makes sums of equal integer labels exact -/
structure SumsFit (n t b : ℕ) : Prop where
  target : 1 ≤ t
  rows : n ≤ 2 ^ 24
  targets : t ≤ 2 ^ 24 ∨ n = 0
  square : n * b ^ 2 ≤ 2 ^ 53

theorem SumsFit.fewer {n t b m : ℕ} (h : SumsFit n t b) (h0 : n ≠ 0) (hm : m ≤ n) : SumsFit m t b :=
  ⟨h.target, hm.trans h.rows, .inl (h.targets.resolve_right h0), (Nat.mul_le_mul_right _ hm).trans h.square⟩

theorem SumsFit.small {n t b : ℕ} (h : SumsFit n t b) {x : ℤ} (hx : |x| ≤ b) : SmallInt n x := by
  refine ⟨by have := h.rows; omega, ?_⟩
  have h1 : x ^ 2 ≤ (b : ℤ) ^ 2 := by
    rw [← sq_abs]
    exact pow_le_pow_left₀ (abs_nonneg _) hx 2
  have h2 : ((n * b ^ 2 : ℕ) : ℤ) ≤ ((2 ^ 53 : ℕ) : ℤ) := by exact_mod_cast h.square
  push_cast at h2
  have h3 : (n : ℤ) * x ^ 2 ≤ n * (b : ℤ) ^ 2 := mul_le_mul_of_nonneg_left h1 (by positivity)
  linarith

namespace FewInts
variable {n t b : ℕ} (h : FewInts n t b)
include h

theorem fewer {m : ℕ} (hm : m ≤ n) : FewInts m t b := by
  refine ⟨h.target, h.bound, Nat.lt_of_le_of_lt ?_ h.size⟩
  gcongr

theorem targets : t ≤ 2 ^ 24 ∨ n = 0 := by
  rcases Nat.eq_zero_or_pos n with h0 | h0
  · exact .inr h0
  left
  by_contra hc
  have h1 : 1 ≤ n ^ 4 := Nat.one_le_pow _ _ h0
  have h2 : 1 ≤ b ^ 2 := Nat.one_le_pow _ _ h.bound
  have h3 : t * t ≤ n ^ 4 * t * (n + t) * b ^ 2 := by
    calc t * t ≤ 1 * t * (n + t) * 1 := by nlinarith
      _ ≤ n ^ 4 * t * (n + t) * b ^ 2 := by gcongr
  have h4 := h.size
  nlinarith

theorem square : n * b ^ 2 ≤ 2 ^ 46 := by
  rcases Nat.eq_zero_or_pos n with rfl | h0
  · simp
  have h1 : n ^ 1 ≤ n ^ 4 := Nat.pow_le_pow_right h0 (by omega)
  have h2 := h.target
  refine Nat.le_trans ?_ h.size.le
  calc n * b ^ 2 = n ^ 1 * 1 * 1 * b ^ 2 := by ring
    _ ≤ n ^ 4 * t * (n + t) * b ^ 2 := by gcongr; omega

theorem rows : n ≤ 2 ^ 24 := by
  rcases Nat.eq_zero_or_pos n with rfl | h0
  · simp
  by_contra hc
  have h2 := h.target
  have h3 : n ^ 4 ≤ n ^ 4 * t * (n + t) * b ^ 2 := by
    have h4 : 1 ≤ b ^ 2 := Nat.one_le_pow _ _ h.bound
    calc n ^ 4 = n ^ 4 * 1 * 1 * 1 := by ring
      _ ≤ n ^ 4 * t * (n + t) * b ^ 2 := by gcongr; omega
  have h5 : (2 ^ 24) ^ 4 ≤ n ^ 4 := Nat.pow_le_pow_left (by omega) 4
  have := h.size
  omega

theorem scale (h0 : n ≠ 0) : Scale n (b : ℚ) := by
  have h1 : (1 : ℚ) ≤ b := by exact_mod_cast h.bound
  refine ⟨h.rows, ?_, ?_⟩
  · refine _root_.le_trans ?_ h1
    rw [div_le_one (by positivity)]
    exact one_le_pow₀ (by norm_num)
  · have h2 := h.square
    have h3 : b ≤ 2 ^ 46 := by
      refine Nat.le_trans ?_ h2
      have := h.bound
      have : 1 ≤ n := Nat.pos_of_ne_zero h0
      nlinarith
    have h4 : (b : ℚ) ≤ 2 ^ 46 := by exact_mod_cast h3
    exact h4.trans (pow_le_pow_right₀ (by norm_num) (by norm_num))

theorem tolerance : (n : ℚ) ^ 4 * splitTolerance n t b < 4 := by
  have h1 : ((n ^ 4 * t * (n + t) * b ^ 2 : ℕ) : ℚ) < ((2 ^ 46 : ℕ) : ℚ) := by exact_mod_cast h.size
  push_cast at h1
  unfold splitTolerance
  rw [← mul_div_assoc, div_lt_iff₀ (by positivity)]
  linarith

theorem fits : SumsFit n t b := ⟨h.target, h.rows, h.targets, h.square.trans (by norm_num)⟩

end FewInts

/-- the exact labels -/
theorem IntLabels.exact {b : ℕ} {labels : List (List B64)} (h : IntLabels b labels) :
    ∃ ls, labels.map (List.map B64.val) = lift ls ∧ AtMost (b : ℚ) ls ∧ Whole ls := by
  induction labels with
  | nil => exact ⟨[], rfl, by simp [AtMost], by simp [Whole]⟩
  | cons l labels ih =>
    obtain ⟨ls, h1, h2, h3⟩ := ih (fun l hl => h l (by simp [hl]))
    obtain ⟨v, hv, hb⟩ := h l (by simp)
    refine ⟨v.map (fun x : ℤ => (x : ℚ)) :: ls, by rw [List.map_cons, h1, hv]; rfl, ?_, ?_⟩
    · intro w hw x hx
      rcases List.mem_cons.mp hw with rfl | hw
      · obtain ⟨y, hy, rfl⟩ := List.mem_map.mp hx
        have := hb y hy
        exact_mod_cast this
      · exact h2 w hw x hx
    · intro w hw x hx
      rcases List.mem_cons.mp hw with rfl | hw
      · obtain ⟨y, _, rfl⟩ := List.mem_map.mp hx
        exact ⟨y, by simp⟩
      · exact h3 w hw x hx

/-- few integer labels without contradictions: no gain means one label -/
theorem const_of_no_gain {d : DataSet B64} {c t b : ℕ} (h : d.WF c t) (hI : IntLabels b d.labels) (hf : FewInts d.labels.length t b)
    (hd : NoContradictions d.exact.featureRows d.exact.labels) (hg : ((splitOf d t).gain ==. F64.zero) = true) :
    ∀ l ∈ d.labels, ∀ l' ∈ d.labels, l.map B64.val = l'.map B64.val := by
  obtain ⟨ls, hls, hB, hw⟩ := hI.exact
  have hls : d.exact.labels = lift ls := hls
  have hlen : ls.length = d.labels.length := by
    have := congrArg List.length hls
    simpa [DataSet.exact, lift] using this.symm
  have h0 : d.labels.length ≠ 0 := by
    have := List.length_pos_of_ne_nil h.labels_ne
    omega
  have ht2 : t ≤ 2 ^ 24 := hf.targets.resolve_right h0
  have hz := no_gain_whole (B := b) (by rw [hlen]; exact hf.scale h0) hf.target ht2 h hls hB hw (by rw [hlen]; exact hf.tolerance) hg
  have hp := pure_of_no_gain h.exact hls (NoContradictions.unlift (hls ▸ hd)) hz
  intro l hl l' hl'
  have m1 : l.map B64.val ∈ lift ls := by rw [← hls]; exact List.mem_map_of_mem hl
  have m2 : l'.map B64.val ∈ lift ls := by rw [← hls]; exact List.mem_map_of_mem hl'
  obtain ⟨v, hv, e1⟩ := mem_lift.mp m1
  obtain ⟨v', hv', e2⟩ := mem_lift.mp m2
  rw [← e1, ← e2, hp v hv v' hv']

/-- and the other way round -/
theorem no_gain_of_const {d : DataSet B64} {c t b : ℕ} (h : d.WF c t) (hI : IntLabels b d.labels) (hf : SumsFit d.labels.length t b)
    (hc : ∀ l ∈ d.labels, ∀ l' ∈ d.labels, l.map B64.val = l'.map B64.val) : ((splitOf d t).gain ==. F64.zero) = true := by
  obtain ⟨l, hl⟩ := List.exists_mem_of_ne_nil _ h.labels_ne
  obtain ⟨v, hv, hb⟩ := hI l hl
  have hvl : v.length = t := by
    have := valV_length hv
    rw [h.label_len l hl, List.length_map] at this
    exact this.symm
  have hz := splitOf_same (n := d.labels.length) hvl (by
    intro j hj
    have : j < v.length := by omega
    exact hf.small (hb _ (by simp [List.getD, this]))) (by have := hf.rows; omega) h (fun l' hl' => (hc l' hl' l hl).trans hv) le_rfl
  rw [eq_val, hz, zero_val]; simp

/-- the average of equal integer labels is that label -/
theorem avgVec_same {t n : ℕ} {v : List ℤ} (hv : v.length = t) (hI : ∀ j < t, SmallInt n (v.getD j 0)) (hn : n ≤ 2 ^ 53)
    {labels : List (List B64)} (hl : ∀ l ∈ labels, l.map B64.val = ofInts v) (hk : labels.length ≤ n) (hne : labels ≠ []) :
    (avgVec t labels).map B64.val = ofInts v := by
  have h := foldl_same hv hI hn labels 0 _ leftStart_same hl (by omega)
  simp only [Nat.zero_add] at h
  have hvl : (vecSum t labels).length = t := by rw [vecSum_foldl]; exact h.shape.sums
  have hk0 : labels.length ≠ 0 := by simpa using hne
  have hkq : (labels.length : ℚ) ≠ 0 := by exact_mod_cast hk0
  have hcnt : (F64.ofNat labels.length : B64).val = .fin (labels.length : ℚ) := by
    have := roundE_nat (n := labels.length) (by omega)
    simpa using this
  have hc0 : (F64.ofNat labels.length : B64).val ≠ .fin 0 := by
    rw [hcnt]
    intro h0
    simp only [Ext.fin.injEq] at h0
    exact hkq h0
  apply List.ext_getElem (by simp [avgVec, hvl, ofInts, liftV, hv])
  intro j h1 h2
  simp only [avgVec, List.length_map, hvl] at h1
  have hjv : j < v.length := by omega
  have e0 : ((avgVec t labels).map B64.val)[j]'(by simpa [avgVec, hvl] using h1) =
      ((vecSum t labels).getD j F64.zero /. F64.ofNat labels.length).val := by
    simp [avgVec, List.getD, hvl, h1]
  have h3 := roundE_int ((hI j h1).lin (k := 1) (by omega))
  push_cast at h3
  rw [one_mul] at h3
  rw [e0, vecSum_foldl, div_val _ _ hc0, h.sums j h1, hcnt, Ext.fin_div _ _ hkq]
  push_cast
  rw [mul_div_cancel_left₀ _ hkq, h3]
  simp [ofInts, liftV, List.getD, hjv]

end Verif
