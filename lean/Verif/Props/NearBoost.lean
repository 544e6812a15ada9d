import Verif.Lemmas.NearBoost
import Verif.Props.NearScore
/-!
# C78: regression boosting with rounding errors

C35 says that with exact arithmetic one more iteration never increases the error on the training set.  Here is what remains of this
with binary64 numbers.
-/

set_option linter.unusedSectionVars false

namespace Verif

open B64 Sample

section
variable [B64Env]

/-- the numbers as vectors -/
def matrix (N t : ℕ) (P : ℕ → ℕ → ℚ) : List (List ℚ) := (List.range N).map (fun i => (List.range t).map (P i))

theorem matrix_length (N t : ℕ) (P : ℕ → ℕ → ℚ) : (matrix N t P).length = N := by simp [matrix]

theorem matrix_width {N t : ℕ} {P : ℕ → ℕ → ℚ} : ∀ p ∈ matrix N t P, p.length = t := by
  intro p hp
  obtain ⟨i, _, rfl⟩ := List.mem_map.mp hp
  simp

theorem mse_matrix {N t : ℕ} {L : List (List ℚ)} {P : ℕ → ℕ → ℚ} (hl : L.length = N) (hw : ∀ l ∈ L, l.length = t) :
    mseOf L (matrix N t P) = energy N t (fun i j => (L.getD i []).getD j 0) P / t / N := by
  rw [mseOf_resid hw matrix_width, hl]
  congr 2
  rw [sse, energy]
  congr 1
  apply List.ext_getElem
  · simp [resid, matrix, hl]
  intro i h1 h2
  simp only [List.length_map, List.length_range] at h2
  have hi : i < L.length := by omega
  have b1 := hw _ (List.getElem_mem hi)
  simp only [List.getElem_map, List.getElem_range, resid, List.getElem_zipWith, matrix]
  congr 1
  apply List.map_congr_left
  intro j hj
  rw [List.mem_range] at hj
  rw [zipWith_getD b1 (by simp : ((List.range t).map (P i)).length = t) 0 0, getD_range hj, getD_range hj,
    List.getD_eq_getElem?_getD (l := L), List.getElem?_eq_getElem hi]
  rfl

theorem preds_of_numbers {d : DataSet B64} {t k : ℕ} {m : BoostModel B64 (GradBoostLeaf B64)} {P : ℕ → ℕ → ℚ} (h : PredNumbers d t m k P) :
    ∃ preds, d.featureRows.mapM (regressionPredict { m with trees := m.trees.take k }) = .ok preds ∧
      preds.map (List.map B64.val) = lift (matrix d.featureRows.length t P) := by
  have hv : ∀ i < d.featureRows.length, ∃ v, predictInstance (d.featureRows.getD i []) (m.trees.take k) m.initialGuess m.learningRate = .ok v ∧
      v.length = t ∧ ∀ j < t, (v.getD j F64.zero).val = .fin (P i j) := by
    intro i hi
    exact h i _ (by rw [List.getD_eq_getElem?_getD, List.getElem?_eq_getElem hi]; rfl)
  choose! V hV1 hV2 hV3 using hv
  refine ⟨(List.range d.featureRows.length).map V, ?_, ?_⟩
  · rw [mapM_eq_ok, List.forall₂_iff_get]
    refine ⟨by simp, ?_⟩
    intro i h1 h2
    have := hV1 i h1
    rw [List.getD_eq_getElem?_getD, List.getElem?_eq_getElem h1] at this
    simpa [regressionPredict] using this
  · rw [lift, matrix, List.map_map, List.map_map]
    apply List.map_congr_left
    intro i hi
    rw [List.mem_range] at hi
    apply List.ext_getElem
    · simp [hV2 i hi, liftV]
    intro j h1 h2
    simp only [Function.comp, List.length_map] at h1
    have := hV3 i hi j (by rw [← hV2 i hi]; exact h1)
    rw [List.getD_eq_getElem?_getD, List.getElem?_eq_getElem h1] at this
    simpa [liftV] using this

/-- a bound for the residuals -/
theorem exists_bound {N t k : ℕ} {B : ℚ} (hN : 1 ≤ N) (hS : BoostScale N t k B) :
    ∃ D, Scale N D ∧ Scale N B ∧ B ≤ D ∧ 32 * (N * t * B ^ 2) ≤ D ^ 2 ∧ D ^ 2 ≤ 64 * (N * t * B ^ 2) := by
  have hB : 0 < B := _root_.lt_of_lt_of_le (by positivity) hS.lower
  have hS2 : Scale N B := ⟨hS.rows, hS.lower, hS.upper.trans (pow_le_pow_right₀ (by norm_num) (by norm_num))⟩
  set M := 32 * (N * t) with hM
  have hM1 : 32 ≤ M := by
    have : 1 ≤ N * t := Nat.mul_pos hN hS.target
    omega
  have hM2 : M ≤ 2 ^ 53 := by
    have := Nat.mul_le_mul hS.rows hS.targets
    omega
  set s := Nat.sqrt M with hs
  have a1 : s * s ≤ M := Nat.sqrt_le M
  have a2 : M < (s + 1) * (s + 1) := Nat.lt_succ_sqrt M
  have a3 : 5 ≤ s := by
    by_contra h5
    have : s + 1 ≤ 5 := by omega
    have := Nat.mul_le_mul this this
    omega
  have a4 : s < 2 ^ 27 := by
    by_contra h5
    have : 2 ^ 27 ≤ s := by omega
    have := Nat.mul_le_mul this this
    omega
  have a5 : (s + 1) * (s + 1) ≤ 2 * M := by nlinarith
  have b1 : (M : ℚ) = 32 * (N * t) := by rw [hM]; push_cast; ring
  have b2 : (M : ℚ) ≤ ((s + 1) * (s + 1) : ℕ) := by exact_mod_cast a2.le
  have b3 : (((s + 1) * (s + 1) : ℕ) : ℚ) ≤ 2 * M := by exact_mod_cast a5
  have hs0 : (1 : ℚ) ≤ (s + 1 : ℕ) := by exact_mod_cast (by omega : 1 ≤ s + 1)
  have hB2 : 0 ≤ B ^ 2 := sq_nonneg B
  have hBD : B ≤ (s + 1 : ℕ) * B := by
    have := mul_le_mul_of_nonneg_right hs0 hB.le
    linarith
  refine ⟨(s + 1 : ℕ) * B, ⟨hS.rows, hS.lower.trans hBD, ?_⟩, hS2, hBD, ?_, ?_⟩
  · have h1 : ((s + 1 : ℕ) : ℚ) ≤ 2 ^ 30 := by
      have : s + 1 ≤ 2 ^ 30 := by omega
      exact_mod_cast this
    refine (mul_le_mul h1 hS.upper hB.le (by positivity)).trans ?_
    rw [← pow_add]
  · have := mul_le_mul_of_nonneg_right b2 hB2
    rw [b1] at this
    push_cast at this ⊢
    linarith
  · have := mul_le_mul_of_nonneg_right b3 hB2
    rw [b1] at this
    push_cast at this ⊢
    linarith

/-- two consecutive models -/
theorem regression_near {d : DataSet B64} {c t : ℕ} (h : d.WF c t) {L : List (List ℚ)} (hL : d.exact.labels = lift L) {B : ℚ} (hB : AtMost B L)
    {cfg : TreeConfig} (hc : cfg.numberOfClasses = t) {n : ℕ} (hS : BoostScale d.featureRows.length t (n + 1) B) {lr : B64} {r : ℚ}
    (hlr : lr.val = .fin r) (h0 : 0 ≤ r) (h2 : r ≤ 2) :
    ∃ m m' preds preds' P P' D, regressionTrain d cfg n lr = .ok m ∧ regressionTrain d cfg (n + 1) lr = .ok m' ∧
      d.featureRows.mapM (regressionPredict m) = .ok preds ∧ d.featureRows.mapM (regressionPredict m') = .ok preds' ∧
      preds.map (List.map B64.val) = lift P ∧ preds'.map (List.map B64.val) = lift P' ∧ Scale d.featureRows.length D ∧ B ≤ D ∧
      D ^ 2 ≤ 64 * (d.featureRows.length * t * B ^ 2) ∧ P.length = d.featureRows.length ∧ P'.length = d.featureRows.length ∧
      (∀ p ∈ P, p.length = t) ∧ (∀ p ∈ P', p.length = t) ∧ AtMost D P ∧ AtMost D P' ∧ mseOf L P ≤ D ^ 2 / 4 ∧ mseOf L P' ≤ D ^ 2 / 4 ∧
      mseOf L P' ≤ mseOf L P + d.featureRows.length * D ^ 2 / 2 ^ 45 := by
  set N := d.featureRows.length with hN
  have hN1 : 1 ≤ N := List.length_pos_of_ne_nil h.rows_ne
  have hNq : (1 : ℚ) ≤ N := by exact_mod_cast hN1
  have htq : (1 : ℚ) ≤ t := by exact_mod_cast hS.target
  have hNt : (1 : ℚ) ≤ N * t := by nlinarith
  obtain ⟨D, hSD, hSB, hBD, hD1, hD2⟩ := exists_bound hN1 hS
  obtain ⟨m', hm', _⟩ := C42_regression d c t h cfg hc (n + 1) lr
  have hm := C32_regression d cfg n (n + 1) (by omega) lr m' hm'
  obtain ⟨P, a1, a2, a3⟩ := regression_numbers h hS.target hc hlr h0 h2 hm' hSD hSB hD1 hL hB hS.iterations n (by omega)
  obtain ⟨_, P', b1, b2⟩ := regression_step_near h hc hlr h0 h2 hm' (by omega : n < n + 1) hSD
    (L := fun i j => (L.getD i []).getD j 0) (fun i l hl j hj => exact_entry h hL hl hj) a1 a3
  rw [← hN] at a2 a3 b2
  have hE : (N : ℚ) * (t * (205 * N * (u * D * D))) = stepEnergy N t D := rfl
  rw [hE] at b2
  have hb := stepEnergy_le (N := N) (t := t) (k := n + 1) (D := D) hS.iterations
  have ha := stepEnergy_le (N := N) (t := t) (k := n) (D := D) ((Nat.mul_le_mul_left _ (by omega)).trans hS.iterations)
  push_cast at hb
  have hDD : 0 ≤ D ^ 2 := sq_nonneg D
  have e1 : energy N t (fun i j => (L.getD i []).getD j 0) P ≤ D ^ 2 / 4 := by linarith
  have e2 : energy N t (fun i j => (L.getD i []).getD j 0) P' ≤ D ^ 2 / 4 := by linarith
  obtain ⟨hll, hLt⟩ := exact_labels_shape h hL
  have hLB : ∀ i < N, ∀ j < t, |(L.getD i []).getD j 0| ≤ B := by
    intro i hi j hj
    have h1 : L.getD i [] ∈ L := by rw [List.getD_eq_getElem?_getD, List.getElem?_eq_getElem (by omega)]; exact List.getElem_mem _
    have h3 := hLt _ h1
    rw [List.getD_eq_getElem?_getD, List.getElem?_eq_getElem (by omega)]
    exact hB _ h1 _ (List.getElem_mem _)
  have hBD1 : 32 * B ^ 2 ≤ D ^ 2 := by
    have := mul_le_mul_of_nonneg_right hNt (sq_nonneg B)
    linarith
  have hmse : ∀ Q, energy N t (fun i j => (L.getD i []).getD j 0) Q ≤ D ^ 2 / 4 → mseOf L (matrix N t Q) ≤ D ^ 2 / 4 := by
    intro Q hQ
    rw [mse_matrix hll hLt, div_div, div_le_iff₀ (by positivity)]
    refine hQ.trans ?_
    have := mul_le_mul_of_nonneg_left hNt (by linarith : 0 ≤ D ^ 2 / 4)
    linarith
  have hat : ∀ Q, energy N t (fun i j => (L.getD i []).getD j 0) Q ≤ D ^ 2 / 4 → AtMost D (matrix N t Q) := by
    intro Q hQ v hv x hx
    obtain ⟨i, hi, rfl⟩ := List.mem_map.mp hv
    obtain ⟨j, hj, rfl⟩ := List.mem_map.mp hx
    exact (residual_bounds (L := fun i j => (L.getD i []).getD j 0) hSD.pos hBD1 hLB hQ (by simpa using hi) (by simpa using hj)).2
  obtain ⟨preds, p1, p2⟩ := preds_of_numbers a1
  obtain ⟨preds', p1', p2'⟩ := preds_of_numbers b1
  have htake : m'.trees.take (n + 1) = m'.trees := List.take_of_length_le (by rw [(C31_regression d cfg (n + 1) lr m' hm').1])
  rw [htake] at p1'
  refine ⟨_, m', preds, preds', _, _, D, hm, hm', p1, p1', p2, p2', hSD, hBD, hD2, matrix_length _ _ _, matrix_length _ _ _, matrix_width, matrix_width,
    hat _ e1, hat _ e2, hmse _ e1, hmse _ e2, ?_⟩
  rw [← hN, mse_matrix hll hLt, mse_matrix hll hLt, div_div, div_div, ← sub_le_iff_le_add', ← sub_div, div_le_iff₀ (by positivity)]
  have hs : stepEnergy N t D ≤ N * D ^ 2 / 2 ^ 45 * (t * N) := by
    have : (0 : ℚ) ≤ N * D ^ 2 * (t * N) := by positivity
    rw [stepEnergy, u]
    have e : (N : ℚ) * (t * (205 * N * (1 / 2 ^ 53 * D * D))) = N * D ^ 2 * (t * N) * (205 / 2 ^ 53) := by ring
    rw [e]
    norm_num
    linarith
  linarith

/-- **C78**.  With a learning rate between 0 and 2, the mean squared error of the predictions for the training set grows by at most
`2^-39 * n^2 * t * B^2` in one more iteration, for `n` rows, `t` targets and labels up to `B`. -/
theorem C78_training_error (d : DataSet B64) (c t : ℕ) (h : d.WF c t) (L : List (List ℚ)) (hL : d.exact.labels = lift L) (B : ℚ) (hB : AtMost B L)
    (cfg : TreeConfig) (hc : cfg.numberOfClasses = t) (n : ℕ) (hS : BoostScale d.featureRows.length t (n + 1) B) (lr : B64) (r : ℚ)
    (hlr : lr.val = .fin r) (h0 : 0 ≤ r) (h2 : r ≤ 2) :
    ∃ m m' preds preds' P P', regressionTrain d cfg n lr = .ok m ∧ regressionTrain d cfg (n + 1) lr = .ok m' ∧
      d.featureRows.mapM (regressionPredict m) = .ok preds ∧ d.featureRows.mapM (regressionPredict m') = .ok preds' ∧
      preds.map (List.map B64.val) = lift P ∧ preds'.map (List.map B64.val) = lift P' ∧
      mseOf L P' ≤ mseOf L P + boostTolerance d.featureRows.length t B := by
  obtain ⟨m, m', preds, preds', P, P', D, a1, a2, a3, a4, a5, a6, _, _, a8, _, _, _, _, _, _, _, _, a9⟩ := regression_near h hL hB hc hS hlr h0 h2
  refine ⟨m, m', preds, preds', P, P', a1, a2, a3, a4, a5, a6, a9.trans ?_⟩
  have := mul_le_mul_of_nonneg_left a8 (Nat.cast_nonneg (α := ℚ) d.featureRows.length)
  rw [boostTolerance]
  norm_num
  linarith

/-- **C78**.  The computed score on the training set grows by at most `2^-38 * n * t * (n + t) * B^2` in one more iteration. -/
theorem C78_score (d : DataSet B64) (c t : ℕ) (h : d.WF c t) (L : List (List ℚ)) (hL : d.exact.labels = lift L) (B : ℚ) (hB : AtMost B L)
    (cfg : TreeConfig) (hc : cfg.numberOfClasses = t) (n : ℕ) (hS : BoostScale d.featureRows.length t (n + 1) B) (lr : B64) (r : ℚ)
    (hlr : lr.val = .fin r) (h0 : 0 ≤ r) (h2 : r ≤ 2) :
    ∃ m m' a a' v v', regressionTrain d cfg n lr = .ok m ∧ regressionTrain d cfg (n + 1) lr = .ok m' ∧
      regressionScore m d = .ok a ∧ regressionScore m' d = .ok a' ∧ a.val = .fin v ∧ a'.val = .fin v' ∧
      v' ≤ v + boostScoreTolerance d.featureRows.length t B := by
  obtain ⟨m, m', preds, preds', P, P', D, a1, a2, a3, a4, a5, a6, hSD, hBD, hD2, l1, l2, w1, w2, b1, b2, s1, s2, a9⟩ :=
    regression_near h hL hB hc hS hlr h0 h2
  obtain ⟨hll, hLt⟩ := exact_labels_shape h hL
  have hne : L ≠ [] := by
    intro h0
    rw [h0] at hll
    exact h.rows_ne (List.length_eq_zero_iff.mp hll.symm)
  have hBL : AtMost D L := fun v hv x hx => (hB v hv x hx).trans hBD
  obtain ⟨a, v, c1, c2, c3⟩ := C69_ensemble_score m d preds t L P D a3 a5 hL hne (by omega) hLt w1 hS.target hS.targets (by rw [hll]; exact hS.rows)
    hBL b1 hSD.upper
  obtain ⟨a', v', d1, d2, d3⟩ := C69_ensemble_score m' d preds' t L P' D a4 a6 hL hne (by omega) hLt w2 hS.target hS.targets (by rw [hll]; exact hS.rows)
    hBL b2 hSD.upper
  refine ⟨m, m', a, a', v, v', a1, a2, c1, d1, c2, d2, ?_⟩
  set N := d.featureRows.length with hN
  have hN1 : 1 ≤ N := List.length_pos_of_ne_nil h.rows_ne
  have hNq : (1 : ℚ) ≤ N := by exact_mod_cast hN1
  have htq : (1 : ℚ) ≤ t := by exact_mod_cast hS.target
  rw [hll] at c3 d3
  -- the smallest numbers
  have hsmall : (D + 1) / 2 ^ 1065 ≤ D ^ 2 / 2 ^ 60 := by
    have hD := hSD.pos
    have hl := hSD.lower
    have k1 : (1 : ℚ) / 2 ^ 1065 ≤ 1 / 2 ^ 400 * (1 / 2 ^ 400) / 2 ^ 61 := by
      rw [div_mul_div_comm, one_mul, ← pow_add, div_div, ← pow_add]
      exact one_div_le_one_div_of_le (by positivity) (pow_le_pow_right₀ (by norm_num) (by norm_num))
    have k2 : (1 : ℚ) / 2 ^ 400 * (1 / 2 ^ 400) ≤ D * D := mul_le_mul hl hl (by positivity) hD.le
    have k3 : D / 2 ^ 1065 ≤ D * (1 / 2 ^ 400) / 2 ^ 61 := by
      rw [mul_one_div, div_div, ← pow_add]
      exact div_le_div_of_nonneg_left hD.le (by positivity) (pow_le_pow_right₀ (by norm_num) (by norm_num))
    have k4 : D * (1 / 2 ^ 400) ≤ D * D := mul_le_mul_of_nonneg_left hl hD.le
    rw [add_div]
    generalize (1 : ℚ) / 2 ^ 400 = e at *
    generalize (2 : ℚ) ^ 1065 = M at *
    norm_num at *
    linarith
  have hst : ∀ q, q ≤ D ^ 2 / 4 → scoreTolerance N t D q ≤ (N + t + 5) * D ^ 2 / 2 ^ 54 + D ^ 2 / 2 ^ 60 := by
    intro q hq
    rw [scoreTolerance]
    have : ((N : ℚ) + t + 4) * q ≤ (N + t + 4) * (D ^ 2 / 4) := mul_le_mul_of_nonneg_left hq (by positivity)
    have hDD : 0 ≤ D ^ 2 := sq_nonneg D
    generalize (D + 1) / 2 ^ 1065 = z at *
    norm_num at *
    linarith
  have t1 := hst _ s1
  have t2 := hst _ s2
  have u1 := abs_le.mp (c3.trans t1)
  have u2 := abs_le.mp (d3.trans t2)
  have hDD : 0 ≤ D ^ 2 := sq_nonneg D
  have hx : D ^ 2 ≤ N * D ^ 2 := by
    have := mul_le_mul_of_nonneg_right hNq hDD
    linarith
  have hy : D ^ 2 ≤ t * D ^ 2 := by
    have := mul_le_mul_of_nonneg_right htq hDD
    linarith
  have hfin : v' ≤ v + (N + t) * D ^ 2 / 2 ^ 44 := by
    norm_num at *
    linarith [u1.1, u1.2, u2.1, u2.2]
  refine hfin.trans ?_
  rw [boostScoreTolerance]
  have := mul_le_mul_of_nonneg_left hD2 (by positivity : (0 : ℚ) ≤ N + t)
  norm_num
  linarith

/-- adding one more tree to a number that is at most `b` -/
theorem update_bound {N : ℕ} {D : ℚ} (hS : Scale N D) {x lr a : B64} {p r q b : ℚ} (hx : x.val = .fin p) (hlr : lr.val = .fin r) (h0 : 0 ≤ r)
    (h2 : r ≤ 2) (ha : a.val = .fin q) (hq : |q| ≤ 2 * D) (hp : |p| ≤ b) (hb : b ≤ 2 ^ 50 * D) :
    ∃ z, (x +. (lr *. a)).val = .fin z ∧ |z| ≤ b + 6 * D := by
  have hu := u_pos
  have hD := hS.pos
  have htl := hS.tiny_lin
  have hbl := hS.lin_big
  have ht0 := tiny_pos
  have huD1 : u * D ≤ 1 / 1024 * D := mul_le_mul_of_nonneg_right u_le hD.le
  norm_num at htl hbl hb
  have huD : 0 < u * D := mul_pos hu hD
  have hr : |r| ≤ 2 := by rw [abs_of_nonneg h0]; exact h2
  have hra : |r * q| ≤ 4 * D := by
    rw [abs_mul]
    have := mul_le_mul hr hq (abs_nonneg _) (by norm_num)
    linarith
  obtain ⟨w, hw1, hw2⟩ := mul_err hlr ha (by linarith)
  have hw3 : |w - r * q| ≤ 5 * (u * D) := by
    have := mul_le_mul_of_nonneg_left hra hu.le
    linarith
  have hw4 : |w| ≤ 41 / 10 * D := by
    have := abs_near hw3
    linarith
  have hs : |p + w| ≤ b + 41 / 10 * D := (abs_add_le _ _).trans (by linarith)
  obtain ⟨z, hz1, hz2⟩ := add_err hx hw1 (by linarith)
  refine ⟨z, hz1, ?_⟩
  have hs2 : u * |p + w| ≤ D / 8 + 5 * (u * D) := by
    have h3 := mul_le_mul_of_nonneg_left hs hu.le
    have h4 := mul_le_mul_of_nonneg_left hb hu.le
    have h5 : u * (1125899906842624 * D) = D / 8 := by unfold u; norm_num; ring
    linarith
  have := abs_near hz2
  linarith

/-- **C78**.  Every prediction, for any row with enough features, is a number: regression boosting does not overflow and does not
produce NaN, and the predictions after `k` iterations are at most `48 * (k + 1) * sqrt (n * t) * B`. -/
theorem C78_finite (d : DataSet B64) (c t : ℕ) (h : d.WF c t) (L : List (List ℚ)) (hL : d.exact.labels = lift L) (B : ℚ) (hB : AtMost B L)
    (cfg : TreeConfig) (hc : cfg.numberOfClasses = t) (k : ℕ) (hS : BoostScale d.featureRows.length t k B) (lr : B64) (r : ℚ)
    (hlr : lr.val = .fin r) (h0 : 0 ≤ r) (h2 : r ≤ 2) :
    ∃ m, regressionTrain d cfg k lr = .ok m ∧ ∀ row : List B64, c ≤ row.length → ∃ p : List B64, regressionPredict m row = .ok p ∧ p.length = t ∧
      ∀ x ∈ p, ∃ q : ℚ, x.val = .fin q ∧ q ^ 2 ≤ (48 * (k + 1)) ^ 2 * (d.featureRows.length * t * B ^ 2) := by
  set N := d.featureRows.length with hN
  have hN1 : 1 ≤ N := List.length_pos_of_ne_nil h.rows_ne
  obtain ⟨D, hSD, hSB, hBD, hD1, hD2⟩ := exists_bound hN1 hS
  obtain ⟨m, hm, _⟩ := C42_regression d c t h cfg hc k lr
  obtain ⟨s1, s2⟩ := regression_start_near h hm hSB hL hB
  have hlen : m.trees.length = k := (C31_regression d cfg k lr m hm).1
  have hmlr : m.learningRate = lr := (C31_regression d cfg k lr m hm).2.1
  have hk41 : k ≤ 2 ^ 41 := by
    have h3 := hS.iterations
    have : 1 ≤ N ^ 2 * t := Nat.mul_pos (pow_pos hN1 2) hS.target
    exact (Nat.le_mul_of_pos_left k this).trans h3
  refine ⟨m, hm, fun row hrow => ?_⟩
  have key : ∀ n ≤ k, ∃ v, predictInstance row (m.trees.take n) m.initialGuess m.learningRate = .ok v ∧ v.length = t ∧
      ∀ j < t, ∃ q, (v.getD j F64.zero).val = .fin q ∧ |q| ≤ (6 * n + 2) * D := by
    intro n
    induction n with
    | zero =>
      intro _
      refine ⟨m.initialGuess, by rw [predictInstance_eq, List.take_zero]; rfl, s1, fun j hj => ?_⟩
      obtain ⟨q, hq1, hq2⟩ := s2 j hj
      refine ⟨q, hq1, ?_⟩
      have := hSB.pos
      push_cast
      linarith
    | succ n ih =>
      intro hn
      obtain ⟨v, hv1, hv2, hv3⟩ := ih (by omega)
      have hkl : n < m.trees.length := by omega
      obtain ⟨P, a1, a2, a3⟩ := regression_numbers h hS.target hc hlr h0 h2 hm hSD hSB hD1 hL hB hS.iterations n (by omega)
      obtain ⟨hout, _⟩ := regression_step_near h hc hlr h0 h2 hm (by omega : n < k) hSD
        (L := fun i j => (L.getD i []).getD j 0) (fun i l hl j hj => exact_entry h hL hl hj) a1 a3
      obtain ⟨o, ho1, ho2, ho3⟩ := hout _ (List.getElem?_eq_getElem hkl) row hrow
      have htake : m.trees.take (n + 1) = m.trees.take n ++ [m.trees[n]] := by
        rw [List.take_add_one, List.getElem?_eq_getElem hkl]; rfl
      rw [predictInstance_eq] at hv1
      have := rawScore_snoc hv1 ho1 (by omega)
      refine ⟨_, by rw [predictInstance_eq, htake]; exact this, by simp [hv2, ho2], ?_⟩
      intro j hj
      have e : (List.zipWith F64.add v (o.map (fun x => m.learningRate *. x))).getD j F64.zero = v.getD j F64.zero +. (lr *. o.getD j F64.zero) := by
        rw [hmlr, List.getD_eq_getElem?_getD, List.getD_eq_getElem?_getD, List.getD_eq_getElem?_getD, List.getElem?_zipWith, List.getElem?_map,
          List.getElem?_eq_getElem (by omega), List.getElem?_eq_getElem (by omega)]
        rfl
      rw [e]
      obtain ⟨q, hq1, hq2⟩ := hv3 j hj
      obtain ⟨q', hq1', hq2'⟩ := ho3 j hj
      have hnq : 6 * (n : ℚ) + 2 ≤ 2 ^ 50 := by exact_mod_cast (by omega : 6 * n + 2 ≤ 2 ^ 50)
      obtain ⟨z, hz1, hz2⟩ := update_bound hSD hq1 hlr h0 h2 hq1' hq2' hq2 (mul_le_mul_of_nonneg_right hnq hSD.pos.le)
      refine ⟨z, hz1, hz2.trans (le_of_eq ?_)⟩
      push_cast
      ring
  obtain ⟨v, hv1, hv2, hv3⟩ := key k le_rfl
  rw [List.take_of_length_le (by omega)] at hv1
  refine ⟨v, hv1, hv2, ?_⟩
  intro x hx
  obtain ⟨j, hj, rfl⟩ := List.getElem_of_mem hx
  obtain ⟨q, hq1, hq2⟩ := hv3 j (by omega)
  rw [List.getD_eq_getElem?_getD, List.getElem?_eq_getElem hj, Option.getD_some] at hq1
  refine ⟨q, hq1, ?_⟩
  have hD := hSD.pos
  have hk0 : (0 : ℚ) ≤ k := Nat.cast_nonneg k
  have h3 : q ^ 2 ≤ ((6 * (k + 1)) * D) ^ 2 := by
    rw [← sq_abs q]
    refine pow_le_pow_left₀ (abs_nonneg _) (hq2.trans ?_) 2
    exact mul_le_mul_of_nonneg_right (by linarith) hD.le
  refine h3.trans ?_
  rw [mul_pow]
  have := mul_le_mul_of_nonneg_left hD2 (by positivity : (0 : ℚ) ≤ (6 * (k + 1)) ^ 2)
  linarith

end

/-! ## cases that meet the hypotheses, and cases outside -/

theorem rough4_boostScale : BoostScale rough4.featureRows.length 1 1000 1 := by
  refine ⟨by decide, by decide, by decide, by decide, ?_, ?_⟩
  · rw [div_le_one (by positivity)]
    exact one_le_pow₀ (by norm_num)
  · exact one_le_pow₀ (by norm_num)

-- the hypotheses hold for up to 1000 iterations on `rough4`
example (negZero : Bool) (n : ℕ) (hn : n < 1000) : let _ := env negZero
    ∃ m m' a a' v v', regressionTrain rough4 (exCfg 1) n (b64 0.3) = .ok m ∧ regressionTrain rough4 (exCfg 1) (n + 1) (b64 0.3) = .ok m' ∧
      regressionScore m rough4 = .ok a ∧ regressionScore m' rough4 = .ok a' ∧ a.val = .fin v ∧ a'.val = .fin v' ∧
      v' ≤ v + boostScoreTolerance 4 1 1 := by
  intro _
  have hS := rough4_boostScale
  refine C78_score rough4 2 1 (rough4_wf negZero) rough4Labels rough4_labels 1 rough4_scale.2 (exCfg 1) rfl n
    ⟨hS.rows, hS.target, hS.targets, (Nat.mul_le_mul_left _ hn).trans hS.iterations, hS.lower, hS.upper⟩ (b64 0.3) (5404319552844595 / 18014398509481984)
    (by decide +kernel) (by norm_num) (by norm_num)

-- the score falls
example : ∀ negZero : Bool, let _ := env negZero
    (do
      let m0 ← regressionTrain rough4 (exCfg 1) 0 (b64 0.3)
      let m1 ← regressionTrain rough4 (exCfg 1) 1 (b64 0.3)
      let m2 ← regressionTrain rough4 (exCfg 1) 2 (b64 0.3)
      pure (F64.lt (← regressionScore m1 rough4) (← regressionScore m0 rough4), F64.lt (← regressionScore m2 rough4) (← regressionScore m1 rough4))) =
    (.ok (true, true) : R (Bool × Bool)) := by decide +kernel

/-- three rows with the same feature -/
def Sample.alike3 : DataSet B64 :=
  { featureRows := [[b64 1], [b64 1], [b64 1]], labels := [[b64 0], [b64 8.6], [b64 3]], featureColumns := [[b64 1, b64 1, b64 1]] }

/-- **C78** (limit).  Without the tolerance the statement is false: on three rows with the same feature the first iteration increases
the score. -/
theorem C78_violated_without_tolerance : ∀ negZero : Bool, let _ := env negZero
    (do
      let m0 ← regressionTrain Sample.alike3 (exCfg 1) 0 (b64 1)
      let m1 ← regressionTrain Sample.alike3 (exCfg 1) 1 (b64 1)
      pure (F64.lt (← regressionScore m0 Sample.alike3) (← regressionScore m1 Sample.alike3))) = (.ok true : R Bool) := by decide +kernel

end Verif
