import Verif.Props.Interact
import Verif.Props.NearLinear
/-!
# C109 in binary64: joint effects of more than `max_levels` features are rounding errors
-/

set_option linter.unusedSectionVars false

namespace Verif

open Sample
open B64

variable [B64Env]

omit [B64Env] in
theorem jointEffect_near {F : Type} {P : List F → Prop} (hP : ∀ row j v, P row → P (row.set j v)) {f g : List F → ℚ} {ε : ℚ}
    (h : ∀ row, P row → |f row - g row| ≤ ε) (s : List (Nat × F)) (row : List F) (hr : P row) :
    |jointEffect f s row - jointEffect g s row| ≤ 2 ^ s.length * ε := by
  induction s generalizing row with
  | nil => simpa [jointEffect] using h row hr
  | cons a s ih =>
    have h1 := abs_le.mp (ih row hr)
    have h2 := abs_le.mp (ih _ (hP row a.1 a.2 hr))
    rw [jointEffect, jointEffect, List.length_cons, pow_succ, abs_le]
    constructor <;> linarith [h1.1, h1.2, h2.1, h2.2]

/-- adding the output of one more tree, and the error -/
theorem update_error {N : ℕ} {D : ℚ} (hS : Scale N D) {x lr a : B64} {p r q b : ℚ} (hx : x.val = .fin p) (hlr : lr.val = .fin r) (h0 : 0 ≤ r)
    (h2 : r ≤ 2) (ha : a.val = .fin q) (hq : |q| ≤ 2 * D) (hp : |p| ≤ b) (hb : b ≤ 2 ^ 50 * D) :
    ∃ z, (x +. (lr *. a)).val = .fin z ∧ |z| ≤ b + 6 * D ∧ |z - (p + r * q)| ≤ u * (b + 10 * D) := by
  have hu := u_pos
  have hD := hS.pos
  have htl := hS.tiny_lin
  have hbl := hS.lin_big
  have ht0 := tiny_pos
  have huD1 : u * D ≤ 1 / 1024 * D := mul_le_mul_of_nonneg_right u_le hD.le
  norm_num at htl hbl hb
  have huD : 0 < u * D := mul_pos hu hD
  have hr : |r| ≤ 2 := by rw [abs_of_nonneg h0]; exact h2
  have hra : |r * q| ≤ 4 * D := by
    rw [abs_mul]
    have := mul_le_mul hr hq (abs_nonneg _) (by norm_num)
    linarith
  obtain ⟨w, hw1, hw2⟩ := mul_err hlr ha (by linarith)
  have hw3 : |w - r * q| ≤ 5 * (u * D) := by
    have := mul_le_mul_of_nonneg_left hra hu.le
    linarith
  have hw4 : |w| ≤ 41 / 10 * D := by
    have := abs_near hw3
    linarith
  have hs : |p + w| ≤ b + 41 / 10 * D := (abs_add_le _ _).trans (by linarith)
  obtain ⟨z, hz1, hz2⟩ := add_err hx hw1 (by linarith)
  have hs1 := mul_le_mul_of_nonneg_left hs hu.le
  have hs2 : u * |p + w| ≤ D / 8 + 5 * (u * D) := by
    have h4 := mul_le_mul_of_nonneg_left hb hu.le
    have h5 : u * (1125899906842624 * D) = D / 8 := by unfold u; norm_num; ring
    linarith
  refine ⟨z, hz1, ?_, ?_⟩
  · have := abs_near hz2
    linarith
  · have e : z - (p + r * q) = (z - (p + w)) + (w - r * q) := by ring
    rw [e]
    refine (abs_add_le _ _).trans ?_
    linarith

/-- the number in entry `j` of a returned vector -/
def number (v : R (List B64)) (j : Nat) : ℚ :=
  match v with
  | .ok v => rat (v.getD j F64.zero)
  | .error _ => 0

/-- **C109** (binary64).  With a learning rate between 0 and 2, the joint effect of `s > max_levels` different features on the predictions of a
regression ensemble is at most `2^s` times `2^-46 * (k + 1)^2 * n * t * B`, for `k` iterations, `n` rows, `t` targets and labels up to `B`. -/
theorem C109_rounded (d : DataSet B64) (c t : ℕ) (h : d.WF c t) (L : List (List ℚ)) (hL : d.exact.labels = lift L) (B : ℚ) (hB : AtMost B L)
    (cfg : TreeConfig) (hc : cfg.numberOfClasses = t) (k : ℕ) (hS : BoostScale d.featureRows.length t k B) (lr : B64) (r : ℚ)
    (hlr : lr.val = .fin r) (h0 : 0 ≤ r) (h2 : r ≤ 2) :
    ∃ m, ∃ p : List B64 → List ℚ, regressionTrain d cfg k lr = .ok m ∧
      (∀ row : List B64, c ≤ row.length → ∃ v, regressionPredict m row = .ok v ∧ v.map B64.val = liftV (p row) ∧ (p row).length = t) ∧
      ∀ j < t, ∀ (changes : List (Nat × B64)) (row : List B64), DifferentFeatures changes → cfg.maxLevels < changes.length → c ≤ row.length →
        |jointEffect (fun row => (p row).getD j 0) changes row| ≤ 2 ^ changes.length * sumTolerance d.featureRows.length t k B := by
  obtain ⟨m, D, T, hNt, hBp, hD2⟩ := near_training h hL hB hc hS hlr h0 h2
  set N := d.featureRows.length with hN
  have hN1 : 1 ≤ N := List.length_pos_of_ne_nil h.rows_ne
  have hSD := T.scaleD
  have hD := hSD.pos
  have hm := T.train
  obtain ⟨s1, s2⟩ := regression_start_near h hm T.scaleB hL hB
  have hlen : m.trees.length = k := (C31_regression d cfg k lr m hm).1
  have hmlr : m.learningRate = lr := (C31_regression d cfg k lr m hm).2.1
  have hk41 : k ≤ 2 ^ 41 := by
    have h3 := hS.iterations
    have : 1 ≤ N ^ 2 * t := Nat.mul_pos (pow_pos hN1 2) hS.target
    exact (Nat.le_mul_of_pos_left k this).trans h3
  have key : ∀ row : List B64, c ≤ row.length → ∀ n ≤ k, ∃ v, predictInstance row (m.trees.take n) m.initialGuess m.learningRate = .ok v ∧ v.length = t ∧
      ∀ j < t, ∃ q, (v.getD j F64.zero).val = .fin q ∧ |q| ≤ (6 * n + 2) * D ∧
        |q - (rat (m.initialGuess.getD j F64.zero) + r * ((m.trees.take n).map (fun tree => number (gradOut row tree) j)).sum)| ≤
          (3 * n ^ 2 + 9 * n) * (u * D) := by
    intro row hrow n
    induction n with
    | zero =>
      intro _
      refine ⟨m.initialGuess, by rw [predictInstance_eq, List.take_zero]; rfl, s1, fun j hj => ?_⟩
      obtain ⟨q, hq1, hq2⟩ := s2 j hj
      refine ⟨q, hq1, ?_, ?_⟩
      · have := T.scaleB.pos
        have := T.le
        push_cast
        linarith
      · rw [rat_eq hq1]
        simp
    | succ n ih =>
      intro hn
      obtain ⟨v, hv1, hv2, hv3⟩ := ih (by omega)
      have hkl : n < m.trees.length := by omega
      obtain ⟨P, a1, a2, a3⟩ := regression_numbers h hS.target hc hlr h0 h2 hm hSD T.scaleB T.bound hL hB hS.iterations n (by omega)
      obtain ⟨hout, _⟩ := regression_step_near h hc hlr h0 h2 hm (by omega : n < k) hSD
        (L := fun i j => (L.getD i []).getD j 0) (fun i l hl j hj => exact_entry h hL hl hj) a1 a3
      obtain ⟨o, ho1, ho2, ho3⟩ := hout _ (List.getElem?_eq_getElem hkl) row hrow
      have htake : m.trees.take (n + 1) = m.trees.take n ++ [m.trees[n]] := by
        rw [List.take_add_one, List.getElem?_eq_getElem hkl]; rfl
      rw [predictInstance_eq] at hv1
      have := rawScore_snoc hv1 ho1 (by omega)
      refine ⟨_, by rw [predictInstance_eq, htake]; exact this, by simp [hv2, ho2], ?_⟩
      intro j hj
      have e : (List.zipWith F64.add v (o.map (fun x => m.learningRate *. x))).getD j F64.zero = v.getD j F64.zero +. (lr *. o.getD j F64.zero) := by
        rw [hmlr, List.getD_eq_getElem?_getD, List.getD_eq_getElem?_getD, List.getD_eq_getElem?_getD, List.getElem?_zipWith, List.getElem?_map,
          List.getElem?_eq_getElem (by omega), List.getElem?_eq_getElem (by omega)]
        rfl
      rw [e]
      obtain ⟨q, hq1, hq2, hq3⟩ := hv3 j hj
      obtain ⟨q', hq1', hq2'⟩ := ho3 j hj
      have hnq : 6 * (n : ℚ) + 2 ≤ 2 ^ 50 := by exact_mod_cast (by omega : 6 * n + 2 ≤ 2 ^ 50)
      obtain ⟨z, hz1, hz2, hz3⟩ := update_error hSD hq1 hlr h0 h2 hq1' hq2' hq2 (mul_le_mul_of_nonneg_right hnq hD.le)
      refine ⟨z, hz1, hz2.trans (le_of_eq ?_), ?_⟩
      · push_cast
        ring
      · rw [htake, List.map_append, List.sum_append]
        have en : number (gradOut row m.trees[n]) j = q' := by
          rw [ho1]
          exact rat_eq hq1'
        simp only [List.map_cons, List.map_nil, List.sum_cons, List.sum_nil, add_zero, en]
        set S := ((m.trees.take n).map (fun tree => number (gradOut row tree) j)).sum
        have e2 : z - (rat (m.initialGuess.getD j F64.zero) + r * (S + q')) =
            (z - (q + r * q')) + (q - (rat (m.initialGuess.getD j F64.zero) + r * S)) := by ring
        rw [e2]
        refine (abs_add_le _ _).trans ((add_le_add hz3 hq3).trans (le_of_eq ?_))
        push_cast
        ring
  have hpred : ∀ row : List B64, c ≤ row.length → ∃ v, regressionPredict m row = .ok v ∧ v.length = t ∧
      ∀ j < t, ∃ q, (v.getD j F64.zero).val = .fin q ∧
        |q - (rat (m.initialGuess.getD j F64.zero) + r * (m.trees.map (fun tree => number (gradOut row tree) j)).sum)| ≤
          sumTolerance N t k B := by
    intro row hrow
    obtain ⟨v, a1, a2, a3⟩ := key row hrow k le_rfl
    rw [List.take_of_length_le (by omega)] at a1 a3
    refine ⟨v, a1, a2, fun j hj => ?_⟩
    obtain ⟨q, b1, _, b2⟩ := a3 j hj
    refine ⟨q, b1, b2.trans ?_⟩
    have hu := u_pos
    have k1 : 5 * B ≤ D := by
      by_contra hcon
      rw [_root_.not_le] at hcon
      have k2 := mul_self_lt_mul_self hD.le hcon
      have k3 := T.bound
      have k4 := mul_le_mul_of_nonneg_right hNt (sq_nonneg B)
      nlinarith
    have k2 : D ≤ 64 / 5 * (N * t * B) := by
      have k3 : 5 * B * D ≤ 64 * (N * t * B ^ 2) := (mul_le_mul_of_nonneg_right k1 hD.le).trans (by rw [← pow_two]; exact hD2)
      have k4 : 5 * B * D ≤ 5 * B * (64 / 5 * (N * t * B)) := k3.trans (le_of_eq (by ring))
      exact le_of_mul_le_mul_left k4 (by positivity)
    have k3 : (3 * (k : ℚ) ^ 2 + 9 * k) ≤ 6 * (k + 1) ^ 2 := by
      have : (0 : ℚ) ≤ k := Nat.cast_nonneg k
      nlinarith
    have k4 := mul_le_mul k3 (mul_le_mul_of_nonneg_left k2 hu.le) (by positivity) (by positivity)
    refine k4.trans ?_
    rw [sumTolerance]
    have e : 6 * ((k : ℚ) + 1) ^ 2 * (u * (64 / 5 * (N * t * B))) = (k + 1) ^ 2 * N * t * B * (6 * u * (64 / 5)) := by ring
    have hu' : 6 * u * (64 / 5) ≤ 1 / 2 ^ 46 := by unfold u; norm_num
    rw [e]
    exact (mul_le_mul_of_nonneg_left hu' (by positivity)).trans (le_of_eq (by ring))
  set p : List B64 → List ℚ := fun row => (List.range t).map (fun j => number (regressionPredict m row) j) with hp
  have hpj : ∀ (row : List B64) (j : ℕ), j < t → (p row).getD j 0 = number (regressionPredict m row) j := by
    intro row j hj
    rw [hp, List.getD_eq_getElem?_getD, List.getElem?_map, List.getElem?_range hj]
    rfl
  refine ⟨m, p, hm, ?_, ?_⟩
  · intro row hrow
    obtain ⟨v, a1, a2, a3⟩ := hpred row hrow
    refine ⟨v, a1, ?_, by simp [hp]⟩
    apply List.ext_getElem
    · simp [liftV, a2, hp]
    intro j h1 h3
    have hj : j < t := by simpa [liftV, hp] using h3
    obtain ⟨q, b1, _⟩ := a3 j hj
    have b2 : number (regressionPredict m row) j = q := by
      rw [a1]
      exact rat_eq b1
    rw [List.getD_eq_getElem?_getD, List.getElem?_eq_getElem (by omega), Option.getD_some] at b1
    simp [liftV, hp, b2, b1]
  · intro j hj changes row hd hl hrow
    simp only [hpj _ j hj]
    have hne : changes ≠ [] := List.ne_nil_of_length_pos (by omega)
    have hz : jointEffect (fun row : List B64 => rat (m.initialGuess.getD j F64.zero) + r * (m.trees.map (fun tree => number (gradOut row tree) j)).sum)
        changes row = 0 := by
      rw [jointEffect_add, jointEffect_const _ changes hne, zero_add]
      have := jointEffect_hom (AddMonoidHom.mulLeft r) (fun row : List B64 => (m.trees.map (fun tree => number (gradOut row tree) j)).sum) changes row
      simp only [AddMonoidHom.coe_mulLeft] at this
      rw [this, jointEffect_sum m.trees (fun tree row => number (gradOut row tree) j) changes hne row, mul_zero]
      intro tree htree
      obtain ⟨rr, hw, he⟩ := regression_trees_of h hc hm tree htree
      exact effect_lookup (G := ℚ) (he ▸ treeOf_proper _ _) (fun p q hq => (treeOf_questions _ _ hw p q (he ▸ hq)).1) (he ▸ treeOf_depth_le _ _)
        (fun o => number (do let leaf ← o; unwrap leaf.leafOutput) j) changes hd hl row hrow
    have := jointEffect_near (P := fun row : List B64 => c ≤ row.length) (fun row j v h => by simpa using h)
      (f := fun row => number (regressionPredict m row) j)
      (g := fun row => rat (m.initialGuess.getD j F64.zero) + r * (m.trees.map (fun tree => number (gradOut row tree) j)).sum)
      (ε := sumTolerance N t k B) (by
        intro row hrow
        obtain ⟨v, a1, a2, a3⟩ := hpred row hrow
        obtain ⟨q, b1, b2⟩ := a3 j hj
        have b3 : number (regressionPredict m row) j = q := by
          rw [a1]
          exact rat_eq b1
        simp only [b3]
        exact b2) changes row hrow
    rw [hz, sub_zero] at this
    exact this

/-! ## cases that meet the hypotheses -/

example (negZero : Bool) (k : ℕ) (hk : k ≤ 1000) : let _ := env negZero
    ∃ m, ∃ p : List B64 → List ℚ, regressionTrain rough4 (exCfg 1) k (b64 0.3) = .ok m ∧
      (∀ row : List B64, 2 ≤ row.length → ∃ v, regressionPredict m row = .ok v ∧ v.map B64.val = liftV (p row) ∧ (p row).length = 1) ∧
      ∀ j < 1, ∀ (changes : List (Nat × B64)) (row : List B64), DifferentFeatures changes → 1 < changes.length → 2 ≤ row.length →
        |jointEffect (fun row => (p row).getD j 0) changes row| ≤ 2 ^ changes.length * sumTolerance 4 1 k 1 := by
  intro _
  have hS := rough4_boostScale
  exact C109_rounded rough4 2 1 (rough4_wf negZero) rough4Labels rough4_labels 1 rough4_scale.2 (exCfg 1) rfl k
    ⟨hS.rows, hS.target, hS.targets, (Nat.mul_le_mul_left _ hk).trans hS.iterations, hS.lower, hS.upper⟩ (b64 0.3) (5404319552844595 / 18014398509481984)
    (by decide +kernel) (by norm_num) (by norm_num)

-- after 100 iterations the joint effect of two features on `rough4` is below 0.00000001
example : 2 ^ 2 * sumTolerance 4 1 100 1 ≤ 1 / 100000000 := by
  rw [sumTolerance]
  norm_num

/-- the four corners of a square -/
def Sample.corners4 : DataSet B64 :=
  { featureRows := [[b64 0, b64 0], [b64 0, b64 1], [b64 1, b64 0], [b64 1, b64 1]], labels := [[b64 0.1], [b64 0.4], [b64 0.5], [b64 0.9]],
    featureColumns := [[b64 0, b64 0, b64 1, b64 1], [b64 0, b64 1, b64 0, b64 1]] }

/-- **C109** (limit).  Without the tolerance the statement is false: two trees with one question each on the corners of a square give
predictions on which the two features have a joint effect, of `2^-54`. -/
theorem C109_violated_without_tolerance : ∀ negZero : Bool, let _ := env negZero
    (do
      let m ← regressionTrain Sample.corners4 (exCfg 1) 2 (b64 1)
      let p ← Sample.corners4.featureRows.mapM (regressionPredict m)
      let q := p.map (fun v => rat (v.getD 0 F64.zero))
      pure (q.getD 3 0 - q.getD 2 0 - q.getD 1 0 + q.getD 0 0)) = (.ok (1 / 2 ^ 54) : R ℚ) := by decide +kernel

end Verif
