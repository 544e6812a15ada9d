import Verif.Props.NearRaw
import Verif.Props.Hull
import Verif.Lemmas.ExactBoost
/-! # Rounding errors of one iteration of regression boosting -/

set_option linter.unusedSectionVars false

namespace Verif

open B64

/-! ## the exact step -/

/-- within groups of equal key, subtracting a part of the mean does not increase the sum of squares -/
theorem group_energy {κ : Type} [DecidableEq κ] (key : ℕ → κ) (x : ℕ → ℚ) {r : ℚ} (h0 : 0 ≤ r) (h2 : r ≤ 2) (l : List ℕ) :
    (l.map (fun i => (x i - r * meanOf ((l.filter (fun b => decide (key b = key i))).map x)) ^ 2)).sum ≤ (l.map (fun i => x i ^ 2)).sum := by
  refine group_le key (fun i s => (x i - r * meanOf (s.map x)) ^ 2) (fun i _ => x i ^ 2) _ l le_rfl ?_
  intro s hs _ _
  have hsum : ∀ f : ℚ → ℚ, (s.map (fun i => f (x i))).sum = ((s.map x).map f).sum := by
    intro f
    rw [List.map_map]; rfl
  set xs := s.map x with hxs
  have hn : (0 : ℚ) < xs.length := by
    rw [hxs, List.length_map]; exact_mod_cast List.length_pos_of_ne_nil hs
  have e1 := hsum (fun x => (x - r * meanOf xs) ^ 2)
  have e2 := hsum (fun x => x ^ 2)
  rw [e1, e2]
  have := sqDev_eq (r * meanOf xs) xs
  rw [sqDev] at this
  rw [this, meanOf]
  have hid : 2 * (r * (xs.sum / xs.length)) * xs.sum - xs.length * (r * (xs.sum / xs.length)) ^ 2 =
      r * (2 - r) * (xs.sum ^ 2 / xs.length) := by field_simp
  have : 0 ≤ r * (2 - r) * (xs.sum ^ 2 / xs.length) := by
    apply mul_nonneg (mul_nonneg h0 (by linarith)) (by positivity)
  linarith

theorem abs_meanOf_le {xs : List ℚ} (hne : xs ≠ []) {b : ℚ} (h : ∀ x ∈ xs, |x| ≤ b) : |meanOf xs| ≤ b := by
  have hn : (0 : ℚ) < xs.length := by exact_mod_cast List.length_pos_of_ne_nil hne
  have key : ∀ ys : List ℚ, (∀ x ∈ ys, |x| ≤ b) → |ys.sum| ≤ ys.length * b := by
    intro ys
    induction ys with
    | nil => simp
    | cons y ys ih =>
      intro hy
      have h1 := ih (fun x hx => hy x (by simp [hx]))
      have h2 := hy y (by simp)
      have h3 := abs_add_le y ys.sum
      simp only [List.sum_cons, List.length_cons, Nat.cast_add, Nat.cast_one]
      linarith
  rw [meanOf, abs_div, abs_of_pos hn, div_le_iff₀ hn]
  have := key xs h
  linarith

/-! ## the errors of one iteration for one entry -/

section
variable [B64Env]

/-- the value of a finite number -/
def rat (x : B64) : ℚ := match x.val with | .fin q => q | _ => 0

theorem rat_eq {x : B64} {q : ℚ} (h : x.val = .fin q) : rat x = q := by rw [rat, h]

theorem Near.rat {x : B64} {q e : ℚ} (h : Near x q e) : x.val = .fin (rat x) ∧ |rat x - q| ≤ e := by
  obtain ⟨v, h1, h2⟩ := h
  rw [rat_eq h1]
  exact ⟨h1, h2⟩

theorem residual_near {N : ℕ} {D : ℚ} (hS : Scale N D) {x y : B64} {l p : ℚ} (hx : x.val = .fin l) (hy : y.val = .fin p) (h : |l - p| ≤ D / 2) :
    Near (x -. y) (l - p) (u * D) := by
  have hu := u_pos
  have hD := hS.pos
  have htl := hS.tiny_lin
  have hbl := hS.lin_big
  have ht0 := tiny_pos
  norm_num at htl hbl
  obtain ⟨v, h1, h2⟩ := sub_err hx hy (by linarith)
  refine ⟨v, h1, h2.trans ?_⟩
  have := mul_le_mul_of_nonneg_left h hu.le
  linarith

/-- the new prediction: `p + lr * a` where `a` is close to `mu` -/
theorem update_near {N : ℕ} (hN : 1 ≤ N) {D : ℚ} (hS : Scale N D) {x lr a : B64} {p r mu : ℚ} (hx : x.val = .fin p) (hlr : lr.val = .fin r) (h0 : 0 ≤ r) (h2 : r ≤ 2)
    (ha : Near a mu (8 * N * (u * D))) (hp : |p| ≤ D) (hmu : |mu| ≤ D) :
    Near (x +. (lr *. a)) (p + r * mu) (28 * N * (u * D)) := by
  have hu := u_pos
  have hD := hS.pos
  have htl := hS.tiny_lin
  have hbl := hS.lin_big
  have hnq := hS.rows_q
  have ht0 := tiny_pos
  norm_num at htl hbl
  have huD : 0 < u * D := mul_pos hu hD
  have hN1 : (1 : ℚ) ≤ N := by exact_mod_cast hN
  have hNu : (N : ℚ) * (u * D) ≤ 1 / 1024 * D := by
    have h1 : (N : ℚ) * u ≤ 1 / 1024 := by
      refine (mul_le_mul_of_nonneg_right hnq hu.le).trans ?_
      unfold u; norm_num
    have := mul_le_mul_of_nonneg_right h1 hD.le
    linarith
  have hNu1 : u * D ≤ N * (u * D) := by
    have := mul_le_mul_of_nonneg_right hN1 huD.le
    linarith
  obtain ⟨av, ha1, ha2⟩ := ha
  have hav : |av| ≤ 2 * D := by
    have := abs_near ha2
    linarith
  have hr : |r| ≤ 2 := by rw [abs_of_nonneg h0]; exact h2
  have hra : |r * av| ≤ 4 * D := by
    rw [abs_mul]
    have := mul_le_mul hr hav (abs_nonneg _) (by norm_num)
    linarith
  obtain ⟨w, hw1, hw2⟩ := mul_err hlr ha1 (by linarith)
  have hw3 : |w - r * av| ≤ 5 * (u * D) := by
    have := mul_le_mul_of_nonneg_left hra hu.le
    linarith
  have hd : |r * av - r * mu| ≤ 16 * N * (u * D) := by
    rw [← mul_sub, abs_mul]
    have := mul_le_mul hr ha2 (abs_nonneg _) (by norm_num)
    linarith
  have hw4 : |w| ≤ 5 * D := by
    have := abs_near hw3
    linarith
  have hs : |p + w| ≤ 6 * D := (abs_add_le _ _).trans (by linarith)
  obtain ⟨z, hz1, hz2⟩ := add_err hx hw1 (by linarith)
  refine ⟨z, hz1, ?_⟩
  have hz3 : |z - (p + w)| ≤ 7 * (u * D) := by
    have := mul_le_mul_of_nonneg_left hs hu.le
    linarith
  have e : z - (p + r * mu) = (z - (p + w)) + ((w - r * av) + (r * av - r * mu)) := by ring
  rw [e]
  have h4 := abs_add_le (z - (p + w)) ((w - r * av) + (r * av - r * mu))
  have h5 := abs_add_le (w - r * av) (r * av - r * mu)
  linarith

/-- how much the square of one residual grows because of rounding -/
theorem entry_energy {N : ℕ} (hN : 1 ≤ N) {D : ℚ} (hS : Scale N D) {l p p' R r mu : ℚ} (h0 : 0 ≤ r) (h2 : r ≤ 2) (hres : |l - p| ≤ D / 2)
    (hR : |R - (l - p)| ≤ u * D) (hmu : |mu| ≤ D) (hp' : |p' - (p + r * mu)| ≤ 28 * N * (u * D)) :
    (l - p') ^ 2 ≤ (R - r * mu) ^ 2 + 203 * N * (u * D * D) ∧ R ^ 2 ≤ (l - p) ^ 2 + 2 * N * (u * D * D) := by
  have hu := u_pos
  have hul := u_le
  have hD := hS.pos
  have hnq := hS.rows_q
  have huD : 0 < u * D := mul_pos hu hD
  have huDD : 0 < u * D * D := mul_pos huD hD
  have hN1 : (1 : ℚ) ≤ N := by exact_mod_cast hN
  have hNu1 : u * D ≤ N * (u * D) := by
    have := mul_le_mul_of_nonneg_right hN1 huD.le
    linarith
  have hNu2 : u * D * D ≤ N * (u * D * D) := by
    have := mul_le_mul_of_nonneg_right hN1 huDD.le
    linarith
  have huD1 : u * D ≤ 1 / 1024 * D := mul_le_mul_of_nonneg_right hul hD.le
  have hNu : (29 * N) * (u * D) ≤ D := by
    have h1 : (N : ℚ) * u ≤ 1 / 1024 := by
      refine (mul_le_mul_of_nonneg_right hnq hu.le).trans ?_
      unfold u; norm_num
    have := mul_le_mul_of_nonneg_right h1 hD.le
    linarith
  constructor
  · set e := (l - p') - (R - r * mu) with he
    have hee : |e| ≤ 29 * N * (u * D) := by
      have e1 : e = -(R - (l - p)) + -(p' - (p + r * mu)) := by rw [he]; ring
      rw [e1]
      refine (abs_add_le _ _).trans ?_
      rw [abs_neg, abs_neg]
      linarith
    have h1 : (l - p') ^ 2 = (R - r * mu) ^ 2 + (2 * ((R - r * mu) * e) + e * e) := by
      have : l - p' = (R - r * mu) + e := by rw [he]; ring
      rw [this]; ring
    have h3 : (R - r * mu) * e ≤ (3 * D) * (29 * N * (u * D)) := by
      refine (le_abs_self _).trans ?_
      rw [abs_mul]
      refine mul_le_mul ?_ hee (abs_nonneg _) (by linarith)
      have h1 : |R| ≤ D / 2 + u * D := by
        have := abs_near hR
        linarith
      have h3 : |r * mu| ≤ 2 * D := by
        rw [abs_mul, abs_of_nonneg h0]
        exact mul_le_mul h2 hmu (abs_nonneg _) (by norm_num)
      have := abs_sub R (r * mu)
      linarith
    have h4 : e * e ≤ D * (29 * N * (u * D)) := by
      refine (le_abs_self _).trans ?_
      rw [abs_mul]
      exact mul_le_mul (hee.trans hNu) hee (abs_nonneg _) hD.le
    rw [h1]
    nlinarith
  · set e := R - (l - p) with he
    have h1 : R ^ 2 = (l - p) ^ 2 + (2 * ((l - p) * e) + e * e) := by
      have : R = (l - p) + e := by rw [he]; ring
      rw [this]; ring
    have h3 : (l - p) * e ≤ (D / 2) * (u * D) := by
      refine (le_abs_self _).trans ?_
      rw [abs_mul]
      exact mul_le_mul hres hR (abs_nonneg _) (by linarith)
    have h4 : e * e ≤ D * (u * D) := by
      refine (le_abs_self _).trans ?_
      rw [abs_mul]
      exact mul_le_mul (hR.trans (by linarith)) hR (abs_nonneg _) hD.le
    rw [h1]
    nlinarith

/-! ## one iteration on all training rows -/

/-- The predictions of the first `k` trees for the training rows are the numbers `P i j`. -/
def PredNumbers (d : DataSet B64) (t : ℕ) (m : BoostModel B64 (GradBoostLeaf B64)) (k : ℕ) (P : ℕ → ℕ → ℚ) : Prop :=
  ∀ i row, d.featureRows[i]? = some row → ∃ v, predictInstance row (m.trees.take k) m.initialGuess m.learningRate = .ok v ∧ v.length = t ∧
    ∀ j < t, (v.getD j F64.zero).val = .fin (P i j)

/-- the sum of the squared residuals -/
def energy (N t : ℕ) (L P : ℕ → ℕ → ℚ) : ℚ := ((List.range N).map (fun i => ((List.range t).map (fun j => (L i j - P i j) ^ 2)).sum)).sum

theorem energy_entry {N t : ℕ} {L P : ℕ → ℕ → ℚ} {i j : ℕ} (hi : i < N) (hj : j < t) : (L i j - P i j) ^ 2 ≤ energy N t L P := by
  have h1 : (L i j - P i j) ^ 2 ≤ ((List.range t).map (fun j => (L i j - P i j) ^ 2)).sum :=
    List.single_le_sum (by simp; intros; positivity) _ (List.mem_map.mpr ⟨j, by simpa using hj, rfl⟩)
  refine h1.trans ?_
  refine List.single_le_sum ?_ _ (List.mem_map.mpr ⟨i, by simpa using hi, rfl⟩)
  intro x hx
  obtain ⟨a, _, rfl⟩ := List.mem_map.mp hx
  apply List.sum_nonneg
  intro y hy
  obtain ⟨b, _, rfl⟩ := List.mem_map.mp hy
  positivity

theorem list_sum_add_const {l : List ℕ} {f g : ℕ → ℚ} {c : ℚ} (h : ∀ i ∈ l, f i ≤ g i + c) : (l.map f).sum ≤ (l.map g).sum + l.length * c := by
  induction l with
  | nil => simp
  | cons a l ih =>
    have h1 := ih (fun i hi => h i (by simp [hi]))
    have h2 := h a (by simp)
    simp only [List.map_cons, List.sum_cons, List.length_cons, Nat.cast_add, Nat.cast_one]
    linarith

/-- what one iteration computes: residuals `R`, leaf outputs close to the means of the residuals, new predictions `P'` -/
theorem regression_step_parts {d : DataSet B64} {c t : ℕ} (h : d.WF c t) {cfg : TreeConfig} (hc : cfg.numberOfClasses = t) {n : ℕ} {lr : B64} {r : ℚ}
    (hlr : lr.val = .fin r) (h0 : 0 ≤ r) (h2 : r ≤ 2) {m : BoostModel B64 (GradBoostLeaf B64)} (hm : regressionTrain d cfg n lr = .ok m) {k : ℕ} (hk : k < n)
    {D : ℚ} (hS : Scale d.featureRows.length D) {L P : ℕ → ℕ → ℚ}
    (hL : ∀ (i : ℕ) (l : List B64), d.labels[i]? = some l → ∀ j < t, (l.getD j F64.zero).val = .fin (L i j)) (hP : PredNumbers d t m k P)
    (hres : ∀ i < d.featureRows.length, ∀ j < t, |L i j - P i j| ≤ D / 2 ∧ |P i j| ≤ D) :
    ∃ (tree : TreeNode B64 (GradBoostLeaf B64)) (R P' : ℕ → ℕ → ℚ) (mu : List Bool → ℕ → ℚ) (key : ℕ → List Bool), m.trees[k]? = some tree ∧
      (∀ i, key i = tree.route (d.featureRows.getD i [])) ∧
      (∀ i < d.featureRows.length, ∀ j < t, |R i j - (L i j - P i j)| ≤ u * D ∧ |R i j| ≤ D) ∧
      (∀ p j, mu p j = meanOf (((List.range d.featureRows.length).filter (fun b => decide (key b = p))).map (fun b => R b j))) ∧
      (∀ row : List B64, c ≤ row.length → ((List.range d.featureRows.length).filter (fun b => decide (key b = tree.route row))) ≠ [] ∧
        ∃ o, gradOut row tree = .ok o ∧ o.length = t ∧
        (∀ j < t, Near (o.getD j F64.zero) (mu (tree.route row) j) (8 * d.featureRows.length * (u * D))) ∧ ∀ j < t, |mu (tree.route row) j| ≤ D) ∧
      PredNumbers d t m (k + 1) P' ∧
      (∀ i < d.featureRows.length, ∀ j < t, |P' i j - (P i j + r * mu (key i) j)| ≤ 28 * d.featureRows.length * (u * D)) := by
  set N := d.featureRows.length with hN
  have hN1 : 1 ≤ N := List.length_pos_of_ne_nil h.rows_ne
  have hkl : k < m.trees.length := by rw [(C31_regression d cfg n lr m hm).1]; exact hk
  have hmlr : m.learningRate = lr := (C31_regression d cfg n lr m hm).2.1
  obtain ⟨preds, g1, g2, g3⟩ := C33_regression_residual_tree d h.label_count.symm cfg n lr m hm k _ (List.getElem?_eq_getElem hkl)
  have hw := residual_labels_wf h (f := id) (fun _ => rfl) g2
  simp only [id] at hw
  rw [gradBoostTreeNew_ok hw hc] at g3
  have g3 := Except.ok.inj g3
  set res := List.zipWith (List.zipWith F64.sub) d.labels preds with hresdef
  have hreslen : res.length = N := by rw [hw.label_count]
  set tree := m.trees[k] with htree
  -- the residuals
  let R : ℕ → ℕ → ℚ := fun i j => rat ((res.getD i []).getD j F64.zero)
  have hpr : ∀ i < N, ∃ v, preds[i]? = some v ∧ predictInstance (d.featureRows.getD i []) (m.trees.take k) m.initialGuess m.learningRate = .ok v ∧
      v.length = t ∧ ∀ j < t, (v.getD j F64.zero).val = .fin (P i j) := by
    intro i hi
    have hrow : d.featureRows[i]? = some (d.featureRows.getD i []) := by simp [List.getD, hi, ← hN]
    obtain ⟨v, hv1, hv2, hv3⟩ := hP i _ hrow
    obtain ⟨v', hv', hv''⟩ := mapM_get g1 hrow
    rw [regressionPredict, hv1] at hv''
    cases hv''
    exact ⟨v, hv', hv1, hv2, hv3⟩
  have hR : ∀ i < N, ∀ j < t, Near ((res.getD i []).getD j F64.zero) (L i j - P i j) (u * D) := by
    intro i hi j hj
    obtain ⟨v, hv, _, hvl, hv3⟩ := hpr i hi
    have hil : i < d.labels.length := by rw [h.label_count]; exact hi
    have hlab : d.labels[i]? = some d.labels[i] := List.getElem?_eq_getElem hil
    have hll : (d.labels[i]).length = t := h.label_len _ (List.getElem_mem _)
    have e : (res.getD i []).getD j F64.zero = (d.labels[i]).getD j F64.zero -. v.getD j F64.zero := by
      have e1 : res[i]? = some (List.zipWith F64.sub d.labels[i] v) := by
        rw [hresdef, List.getElem?_zipWith, hlab, hv]
      rw [List.getD_eq_getElem?_getD (l := res), e1, Option.getD_some]
      rw [List.getD_eq_getElem?_getD, List.getD_eq_getElem?_getD, List.getD_eq_getElem?_getD, List.getElem?_zipWith,
        List.getElem?_eq_getElem (by omega), List.getElem?_eq_getElem (by omega)]
      rfl
    rw [e]
    exact residual_near hS (hL i _ hlab j hj) (hv3 j hj) (hres i hi j hj).1
  have hRabs : ∀ i < N, ∀ j < t, |R i j| ≤ D := by
    intro i hi j hj
    have h1 := abs_near (hR i hi j hj).rat.2
    have h3 := (hres i hi j hj).1
    have h4 : u * D ≤ 1 / 1024 * D := mul_le_mul_of_nonneg_right u_le hS.pos.le
    have hD := hS.pos
    linarith
  -- the leaf of a row
  let key : ℕ → List Bool := fun i => tree.route (d.featureRows.getD i [])
  let mu : List Bool → ℕ → ℚ := fun p j => meanOf (((List.range N).filter (fun b => decide (key b = p))).map (fun b => R b j))
  have hleaf : ∀ row : List B64, c ≤ row.length → ((List.range N).filter (fun b => decide (key b = tree.route row))) ≠ [] ∧ ∃ o, gradOut row tree = .ok o ∧ o.length = t ∧
      (∀ j < t, Near (o.getD j F64.zero) (mu (tree.route row) j) (8 * N * (u * D))) ∧ ∀ j < t, |mu (tree.route row) j| ≤ D := by
    intro row hrow
    obtain ⟨dd, hdd, ho, hex⟩ := gradOut_ok .regression cfg.maxLevels hw hrow
    rw [g3] at ho hex
    have hexr : ({ d with labels := res } : DataSet B64).examples = (List.range N).map (fun b => (d.featureRows.getD b [], res.getD b [])) := by
      rw [DataSet.examples]
      apply List.ext_getElem
      · simp [hreslen, hN]
      · intro b h1 h3
        have hb1 : b < d.featureRows.length := by simp at h1; omega
        have hb2 : b < res.length := by simp at h1; omega
        simp [List.getD, hb1, hb2]
    have hlabs : dd.labels = ((List.range N).filter (fun b => decide (key b = tree.route row))).map (fun b => res.getD b []) := by
      rw [← examples_snd hdd, hex, hexr, List.filter_map, List.map_map]
      rfl
    have hne : ((List.range N).filter (fun b => decide (key b = tree.route row))).map (fun b => (res.getD b []).map rat) ≠ [] := by
      intro h0
      apply hdd.labels_ne
      rw [hlabs, List.map_eq_nil_iff.mp h0]; rfl
    have hfin : dd.labels.map (List.map B64.val) = lift (((List.range N).filter (fun b => decide (key b = tree.route row))).map (fun b => (res.getD b []).map rat)) := by
      rw [hlabs, lift, List.map_map, List.map_map]
      apply List.map_congr_left
      intro b hb
      rw [List.mem_filter, List.mem_range] at hb
      have hbl : (res.getD b []).length = t := hw.label_len _ (by
        show res.getD b [] ∈ res
        rw [List.getD_eq_getElem?_getD, List.getElem?_eq_getElem (by omega)]; exact List.getElem_mem _)
      simp only [Function.comp, liftV, List.map_map]
      apply List.map_congr_left
      intro x hx
      obtain ⟨j, hj, rfl⟩ := List.getElem_of_mem hx
      have := (hR b hb.1 j (by omega)).rat.1
      rwa [List.getD_eq_getElem?_getD (l := res.getD b []), List.getElem?_eq_getElem hj, Option.getD_some] at this
    obtain ⟨a, ha1, ha2, ha3⟩ := C62_average_accurate dd.labels t _ D hfin (by
        intro v hv
        obtain ⟨b, hb, rfl⟩ := List.mem_map.mp hv
        rw [List.mem_filter, List.mem_range] at hb
        rw [List.length_map]
        exact hw.label_len _ (by
          show res.getD b [] ∈ res
          rw [List.getD_eq_getElem?_getD, List.getElem?_eq_getElem (by omega)]; exact List.getElem_mem _))
      hne (hS.fewer (by
        rw [List.length_map]
        exact (List.length_filter_le _ _).trans (by simp))) (by
        intro v hv x hx
        obtain ⟨b, hb, rfl⟩ := List.mem_map.mp hv
        rw [List.mem_filter, List.mem_range] at hb
        obtain ⟨y, hy, rfl⟩ := List.mem_map.mp hx
        obtain ⟨j, hj, rfl⟩ := List.getElem_of_mem hy
        have hbl : (res.getD b []).length = t := hw.label_len _ (by
          show res.getD b [] ∈ res
          rw [List.getD_eq_getElem?_getD, List.getElem?_eq_getElem (by omega)]; exact List.getElem_mem _)
        have := hRabs b hb.1 j (by omega)
        simp only [R] at this
        rwa [List.getD_eq_getElem?_getD (l := res.getD b []), List.getElem?_eq_getElem hj, Option.getD_some] at this)
    rw [calculateAverageVector_ok hdd.labels_ne hdd.label_len] at ha1
    have ha1 := Except.ok.inj ha1
    refine ⟨fun h0 => hne (by rw [h0]; rfl), a, by rw [ho, ← ha1]; rfl, ha2, ?_, ?_⟩
    swap
    · intro j hj
      refine abs_meanOf_le (by simpa using hne) ?_
      intro x hx
      obtain ⟨b, hb, rfl⟩ := List.mem_map.mp hx
      rw [List.mem_filter, List.mem_range] at hb
      exact hRabs b hb.1 j hj
    intro j hj
    obtain ⟨x, q, hx, hq, hqe⟩ := ha3 j hj
    refine ⟨q, by rw [List.getD_eq_getElem?_getD, hx]; exact hq, ?_⟩
    have e : target (((List.range N).filter (fun b => decide (key b = tree.route row))).map (fun b => (res.getD b []).map rat)) j =
        ((List.range N).filter (fun b => decide (key b = tree.route row))).map (fun b => R b j) := by
      rw [target, List.map_map]
      apply List.map_congr_left
      intro b hb
      rw [List.mem_filter, List.mem_range] at hb
      have hbl : (res.getD b []).length = t := hw.label_len _ (by
        show res.getD b [] ∈ res
        rw [List.getD_eq_getElem?_getD, List.getElem?_eq_getElem (by omega)]; exact List.getElem_mem _)
      simp only [Function.comp, R]
      simp only [List.getD_eq_getElem?_getD, List.getElem?_map] at hbl ⊢
      rw [List.getElem?_eq_getElem (by omega)]
      rfl
    rw [e] at hqe
    refine hqe.trans ?_
    rw [averageTolerance, u, List.length_map]
    have h1 : ((((List.range N).filter (fun b => decide (key b = tree.route row))).length : ℕ) : ℚ) ≤ N := by
      have : ((List.range N).filter (fun b => decide (key b = tree.route row))).length ≤ N := (List.length_filter_le _ _).trans (by simp)
      exact_mod_cast this
    have := mul_le_mul_of_nonneg_right h1 hS.pos.le
    norm_num
    linarith
  have hrowlen : ∀ i < N, c ≤ (d.featureRows.getD i []).length := by
    intro i hi
    rw [h.row_len _ (by rw [List.getD_eq_getElem?_getD, List.getElem?_eq_getElem hi]; exact List.getElem_mem _)]
  -- the new predictions
  have hstep : ∀ i < N, ∃ v', predictInstance (d.featureRows.getD i []) (m.trees.take (k + 1)) m.initialGuess m.learningRate = .ok v' ∧ v'.length = t ∧
      ∀ j < t, Near (v'.getD j F64.zero) (P i j + r * mu (key i) j) (28 * N * (u * D)) := by
    intro i hi
    obtain ⟨v, _, hv1, hvl, hv3⟩ := hpr i hi
    obtain ⟨_, o, ho1, ho2, ho3, ho4⟩ := hleaf _ (hrowlen i hi)
    have htake : m.trees.take (k + 1) = m.trees.take k ++ [tree] := by
      rw [List.take_add_one, List.getElem?_eq_getElem hkl]; rfl
    rw [predictInstance_eq] at hv1
    have := rawScore_snoc hv1 ho1 (by omega)
    refine ⟨_, by rw [predictInstance_eq, htake]; exact this, by simp [hvl, ho2], ?_⟩
    intro j hj
    have e : (List.zipWith F64.add v (o.map (fun x => m.learningRate *. x))).getD j F64.zero = v.getD j F64.zero +. (lr *. o.getD j F64.zero) := by
      rw [hmlr, List.getD_eq_getElem?_getD, List.getD_eq_getElem?_getD, List.getD_eq_getElem?_getD, List.getElem?_zipWith, List.getElem?_map,
        List.getElem?_eq_getElem (by omega), List.getElem?_eq_getElem (by omega)]
      rfl
    rw [e]
    exact update_near hN1 hS (hv3 j hj) hlr h0 h2 (ho3 j hj) (hres i hi j hj).2 (ho4 j hj)
  choose! V hV1 hV2 hV3 using hstep
  refine ⟨tree, R, fun i j => rat ((V i).getD j F64.zero), mu, key, List.getElem?_eq_getElem hkl, fun _ => rfl,
    fun i hi j hj => ⟨(hR i hi j hj).rat.2, hRabs i hi j hj⟩, fun _ _ => rfl, hleaf, ?_, fun i hi j hj => (hV3 i hi j hj).rat.2⟩
  · intro i row hrow
    obtain ⟨hi, rfl⟩ := List.getElem?_eq_some_iff.mp hrow
    have e : d.featureRows.getD i [] = d.featureRows[i] := by simp [List.getD, hi]
    refine ⟨V i, ?_, hV2 i hi, fun j hj => (hV3 i hi j hj).rat.1⟩
    rw [← e]
    exact hV1 i hi

/-- one iteration -/
theorem regression_step_near {d : DataSet B64} {c t : ℕ} (h : d.WF c t) {cfg : TreeConfig} (hc : cfg.numberOfClasses = t) {n : ℕ} {lr : B64} {r : ℚ}
    (hlr : lr.val = .fin r) (h0 : 0 ≤ r) (h2 : r ≤ 2) {m : BoostModel B64 (GradBoostLeaf B64)} (hm : regressionTrain d cfg n lr = .ok m) {k : ℕ} (hk : k < n)
    {D : ℚ} (hS : Scale d.featureRows.length D) {L P : ℕ → ℕ → ℚ}
    (hL : ∀ (i : ℕ) (l : List B64), d.labels[i]? = some l → ∀ j < t, (l.getD j F64.zero).val = .fin (L i j)) (hP : PredNumbers d t m k P)
    (hres : ∀ i < d.featureRows.length, ∀ j < t, |L i j - P i j| ≤ D / 2 ∧ |P i j| ≤ D) :
    (∀ tree, m.trees[k]? = some tree → ∀ row : List B64, c ≤ row.length → ∃ o, gradOut row tree = .ok o ∧ o.length = t ∧
      ∀ j < t, ∃ q, (o.getD j F64.zero).val = .fin q ∧ |q| ≤ 2 * D) ∧
    ∃ P', PredNumbers d t m (k + 1) P' ∧
      energy d.featureRows.length t L P' ≤ energy d.featureRows.length t L P + d.featureRows.length * (t * (205 * d.featureRows.length * (u * D * D))) := by
  set N := d.featureRows.length with hN
  have hN1 : 1 ≤ N := List.length_pos_of_ne_nil h.rows_ne
  obtain ⟨tree, R, P', mu, key, htree, hkey, hR, hmu, hleaf, hnum, hP'⟩ := regression_step_parts h hc hlr h0 h2 hm hk hS hL hP hres
  rw [← hN] at hR hmu hleaf hP'
  have hrowlen : ∀ i < N, c ≤ (d.featureRows.getD i []).length := by
    intro i hi
    rw [h.row_len _ (by rw [List.getD_eq_getElem?_getD, List.getElem?_eq_getElem hi]; exact List.getElem_mem _)]
  refine ⟨?_, ?_⟩
  · intro tree' htr row hrow
    rw [htree] at htr
    cases htr
    obtain ⟨_, o, ho1, ho2, ho3, ho4⟩ := hleaf row hrow
    refine ⟨o, ho1, ho2, fun j hj => ?_⟩
    obtain ⟨q, hq1, hq2⟩ := ho3 j hj
    refine ⟨q, hq1, ?_⟩
    have h3 := abs_near hq2
    have h4 := ho4 j hj
    have h5 : 8 * (N : ℚ) * (u * D) ≤ 1 * D := by
      have : 8 * (N : ℚ) * u ≤ 1 := by
        have := mul_le_mul_of_nonneg_right hS.rows_q u_pos.le
        have h6 : (16777216 : ℚ) * u ≤ 1 / 8 := by unfold u; norm_num
        linarith
      have := mul_le_mul_of_nonneg_right this hS.pos.le
      linarith
    linarith
  refine ⟨P', hnum, ?_⟩
  · -- the sums of squares
    have hentry : ∀ i < N, ∀ j < t, (L i j - P' i j) ^ 2 ≤ (R i j - r * mu (key i) j) ^ 2 + 203 * N * (u * D * D) ∧
        R i j ^ 2 ≤ (L i j - P i j) ^ 2 + 2 * N * (u * D * D) := by
      intro i hi j hj
      obtain ⟨_, _, _, _, _, ho4⟩ := hleaf _ (hrowlen i hi)
      rw [← hkey i] at ho4
      exact entry_energy hN1 hS h0 h2 (hres i hi j hj).1 (hR i hi j hj).1 (ho4 j hj) (hP' i hi j hj)
    have hswap : ∀ f : ℕ → ℕ → ℚ, ((List.range N).map (fun i => ((List.range t).map (fun j => f i j)).sum)).sum =
        ((List.range t).map (fun j => ((List.range N).map (fun i => f i j)).sum)).sum := fun f => sum_range_swap t f _
    have hcol : ∀ j ∈ List.range t, ((List.range N).map (fun i => (L i j - P' i j) ^ 2)).sum ≤
        ((List.range N).map (fun i => (L i j - P i j) ^ 2)).sum + N * (205 * N * (u * D * D)) := by
      intro j hj
      rw [List.mem_range] at hj
      have a1 := list_sum_add_const (l := List.range N) (f := fun i => (L i j - P' i j) ^ 2) (g := fun i => (R i j - r * mu (key i) j) ^ 2)
        (c := 203 * N * (u * D * D)) (fun i hi => (hentry i (by simpa using hi) j hj).1)
      have a2 := group_energy key (fun i => R i j) h0 h2 (List.range N)
      have a3 := list_sum_add_const (l := List.range N) (f := fun i => R i j ^ 2) (g := fun i => (L i j - P i j) ^ 2)
        (c := 2 * N * (u * D * D)) (fun i hi => (hentry i (by simpa using hi) j hj).2)
      rw [List.length_range] at a1 a3
      have a4 : ((List.range N).map (fun i => (R i j - r * mu (key i) j) ^ 2)).sum ≤ ((List.range N).map (fun i => R i j ^ 2)).sum := by
        simp only [hmu]
        exact a2
      linarith
    rw [energy, energy, hswap, hswap]
    have := list_sum_add_const hcol
    rw [List.length_range] at this
    refine this.trans (le_of_eq ?_)
    ring

/-! ## all iterations -/

theorem residual_bounds {N t : ℕ} {L P : ℕ → ℕ → ℚ} {B D : ℚ} (hD : 0 < D) (hBD : 32 * B ^ 2 ≤ D ^ 2)
    (hL : ∀ i < N, ∀ j < t, |L i j| ≤ B) (he : energy N t L P ≤ D ^ 2 / 4) {i j : ℕ} (hi : i < N) (hj : j < t) :
    |L i j - P i j| ≤ D / 2 ∧ |P i j| ≤ D := by
  have h1 : |L i j - P i j| ≤ D / 2 := by
    apply abs_le_of_sq_le_sq _ (by linarith)
    have := energy_entry (L := L) (P := P) hi hj
    linarith
  have h2 : B ≤ D / 2 := by
    apply _root_.le_of_not_gt
    intro hlt
    have : (D / 2) ^ 2 < B ^ 2 := pow_lt_pow_left₀ hlt (by linarith) (by norm_num)
    have : 0 < D ^ 2 := by positivity
    linarith
  refine ⟨h1, ?_⟩
  have h3 := hL i hi j hj
  rw [abs_le] at *
  constructor <;> linarith

theorem energy_le {N t : ℕ} {L P : ℕ → ℕ → ℚ} {b : ℚ} (h : ∀ i < N, ∀ j < t, (L i j - P i j) ^ 2 ≤ b) : energy N t L P ≤ N * (t * b) := by
  have h1 : ∀ i ∈ List.range N, ((List.range t).map (fun j => (L i j - P i j) ^ 2)).sum ≤ 0 + t * b := by
    intro i hi
    have := list_sum_add_const (l := List.range t) (f := fun j => (L i j - P i j) ^ 2) (g := fun _ => 0) (c := b)
      (fun j hj => by rw [zero_add]; exact h i (by simpa using hi) j (by simpa using hj))
    simpa using this
  have := list_sum_add_const (l := List.range N) (f := fun i => ((List.range t).map (fun j => (L i j - P i j) ^ 2)).sum) (g := fun _ => 0) (c := t * b) h1
  rw [energy]
  simpa using this

/-- what one iteration may add to the sum of the squared residuals -/
def stepEnergy (N t : ℕ) (D : ℚ) : ℚ := N * (t * (205 * N * (u * D * D)))

theorem stepEnergy_le {N t k : ℕ} {D : ℚ} (hn : N ^ 2 * t * k ≤ 2 ^ 41) : k * stepEnergy N t D ≤ D ^ 2 / 16 := by
  have h1 : ((N : ℚ) ^ 2 * t * k) ≤ 2 ^ 41 := by exact_mod_cast hn
  have h2 : 0 ≤ 205 * (u * D * D) := by
    have := u_pos
    have : 0 ≤ D * D := mul_self_nonneg D
    rw [mul_assoc u]
    positivity
  have h3 := mul_le_mul_of_nonneg_right h1 h2
  have h4 : (2 : ℚ) ^ 41 * (205 * (u * D * D)) ≤ D ^ 2 / 16 := by
    have : 0 ≤ D * D := mul_self_nonneg D
    unfold u
    norm_num
    linarith
  rw [stepEnergy]
  linarith

theorem exact_labels_shape {d : DataSet B64} {c t : ℕ} (h : d.WF c t) {L : List (List ℚ)} (hL : d.exact.labels = lift L) :
    L.length = d.featureRows.length ∧ ∀ v ∈ L, v.length = t := by
  constructor
  · rw [← h.label_count]
    have := congrArg List.length hL
    simpa [lift, DataSet.exact] using this.symm
  · intro v hv
    have : liftV v ∈ d.exact.labels := by rw [hL]; exact mem_lift.mpr ⟨v, hv, rfl⟩
    obtain ⟨l, hl, he⟩ := List.mem_map.mp this
    rw [← valV_length he, h.label_len l hl]

theorem exact_entry {d : DataSet B64} {c t : ℕ} (h : d.WF c t) {L : List (List ℚ)} (hL : d.exact.labels = lift L) {i j : ℕ} {l : List B64}
    (hl : d.labels[i]? = some l) (hj : j < t) : (l.getD j F64.zero).val = .fin ((L.getD i []).getD j 0) := by
  have e : d.exact.labels[i]? = some (l.map B64.val) := by rw [DataSet.exact]; simp [hl]
  rw [hL, lift, List.getElem?_map] at e
  obtain ⟨v, hv, hv'⟩ := Option.map_eq_some_iff.mp e
  have : L.getD i [] = v := by rw [List.getD_eq_getElem?_getD, hv]; rfl
  rw [this]
  have hlt : j < l.length := by rw [h.label_len l (List.mem_of_getElem? hl)]; exact hj
  have hvt : j < v.length := by rw [(exact_labels_shape h hL).2 v (List.mem_of_getElem? hv)]; exact hj
  have := congrArg (fun z => z[j]?) hv'
  simp only [liftV, List.getElem?_map, List.getElem?_eq_getElem hlt, List.getElem?_eq_getElem hvt, Option.map_some, Option.some.injEq] at this
  rw [List.getD_eq_getElem?_getD, List.getElem?_eq_getElem hlt, List.getD_eq_getElem?_getD, List.getElem?_eq_getElem hvt]
  exact this.symm

theorem regression_start_mean {d : DataSet B64} {c t : ℕ} (h : d.WF c t) {cfg : TreeConfig} {n : ℕ} {lr : B64}
    {m : BoostModel B64 (GradBoostLeaf B64)} (hm : regressionTrain d cfg n lr = .ok m) {B : ℚ} (hS : Scale d.featureRows.length B)
    {L : List (List ℚ)} (hL : d.exact.labels = lift L) (hB : AtMost B L) :
    m.initialGuess.length = t ∧ ∀ j < t, ∃ q, (m.initialGuess.getD j F64.zero).val = .fin q ∧ |q - meanOf (target L j)| ≤ averageTolerance L.length B := by
  obtain ⟨f, h1⟩ := train_inv hm
  obtain ⟨g1, g2, g3⟩ := boostingLoop_inv h1
  rw [determineInitialGuess_regression h] at g1
  have hg := Except.ok.inj g1
  have hll := (exact_labels_shape h hL).1
  have hne : L ≠ [] := by
    intro h0
    rw [h0] at hll
    exact h.rows_ne (List.length_eq_zero_iff.mp hll.symm)
  have hLt := (exact_labels_shape h hL).2
  obtain ⟨a, ha1, ha2, ha3⟩ := C62_average_accurate d.labels t L B hL hLt hne (by rw [hll]; exact hS) hB
  rw [calculateAverageVector_ok h.labels_ne h.label_len] at ha1
  have ha1 := Except.ok.inj ha1
  have hga : m.initialGuess = a := by rw [← hg, ← ha1]
  rw [hga]
  refine ⟨ha2, fun j hj => ?_⟩
  obtain ⟨x, q, hx, hq, hqe⟩ := ha3 j hj
  refine ⟨q, by rw [List.getD_eq_getElem?_getD, hx]; exact hq, hqe⟩

theorem regression_start_near {d : DataSet B64} {c t : ℕ} (h : d.WF c t) {cfg : TreeConfig} {n : ℕ} {lr : B64}
    {m : BoostModel B64 (GradBoostLeaf B64)} (hm : regressionTrain d cfg n lr = .ok m) {B : ℚ} (hS : Scale d.featureRows.length B)
    {L : List (List ℚ)} (hL : d.exact.labels = lift L) (hB : AtMost B L) :
    m.initialGuess.length = t ∧ ∀ j < t, ∃ q, (m.initialGuess.getD j F64.zero).val = .fin q ∧ |q| ≤ B + B / 1024 := by
  obtain ⟨ha2, ha3⟩ := regression_start_mean h hm hS hL hB
  have hll := (exact_labels_shape h hL).1
  have hne : L ≠ [] := by
    intro h0
    rw [h0] at hll
    exact h.rows_ne (List.length_eq_zero_iff.mp hll.symm)
  have hLt := (exact_labels_shape h hL).2
  refine ⟨ha2, fun j hj => ?_⟩
  obtain ⟨q, hq, hqe⟩ := ha3 j hj
  refine ⟨q, hq, ?_⟩
  have h3 := abs_near hqe
  have h4 : |meanOf (target L j)| ≤ B := by
    apply abs_meanOf_le (by simpa [target] using hne)
    intro y hy
    obtain ⟨v, hv, rfl⟩ := List.mem_map.mp hy
    have hj' : j < v.length := by rw [hLt v hv]; exact hj
    rw [List.getD_eq_getElem?_getD, List.getElem?_eq_getElem hj']
    exact hB v hv _ (List.getElem_mem _)
  have h5 : averageTolerance L.length B ≤ B / 1024 := by
    rw [averageTolerance, hll]
    have := mul_le_mul_of_nonneg_right hS.rows_q hS.pos.le
    have hp := hS.pos
    norm_num at this ⊢
    linarith
  linarith

theorem regression_numbers {d : DataSet B64} {c t : ℕ} (h : d.WF c t) (ht1 : 1 ≤ t) {cfg : TreeConfig} (hc : cfg.numberOfClasses = t) {n : ℕ} {lr : B64} {r : ℚ}
    (hlr : lr.val = .fin r) (h0 : 0 ≤ r) (h2 : r ≤ 2) {m : BoostModel B64 (GradBoostLeaf B64)} (hm : regressionTrain d cfg n lr = .ok m)
    {B D : ℚ} (hS : Scale d.featureRows.length D) (hSB : Scale d.featureRows.length B)
    (hBD : 32 * (d.featureRows.length * t * B ^ 2) ≤ D ^ 2) {L : List (List ℚ)} (hL : d.exact.labels = lift L) (hB : AtMost B L)
    (hn : d.featureRows.length ^ 2 * t * n ≤ 2 ^ 41) : ∀ k ≤ n, ∃ P, PredNumbers d t m k P ∧
      energy d.featureRows.length t (fun i j => (L.getD i []).getD j 0) P ≤ 5 / 32 * D ^ 2 + k * stepEnergy d.featureRows.length t D ∧
      (∀ i < d.featureRows.length, ∀ j < t, |(L.getD i []).getD j 0 - P i j| ≤ D / 2 ∧ |P i j| ≤ D) := by
  set N := d.featureRows.length with hN
  have hN1 : 1 ≤ N := List.length_pos_of_ne_nil h.rows_ne
  have hNq : (1 : ℚ) ≤ N := by exact_mod_cast hN1
  have htq : (1 : ℚ) ≤ t := by exact_mod_cast ht1
  have hll : L.length = N := (exact_labels_shape h hL).1
  have hLt := (exact_labels_shape h hL).2
  have hLB : ∀ i < N, ∀ j < t, |(L.getD i []).getD j 0| ≤ B := by
    intro i hi j hj
    have h1 : L.getD i [] ∈ L := by rw [List.getD_eq_getElem?_getD, List.getElem?_eq_getElem (by omega)]; exact List.getElem_mem _
    have h3 := hLt _ h1
    rw [List.getD_eq_getElem?_getD, List.getElem?_eq_getElem (by omega)]
    exact hB _ h1 _ (List.getElem_mem _)
  have hBD1 : 32 * B ^ 2 ≤ D ^ 2 := by
    have h3 : (1 : ℚ) ≤ N * t := by nlinarith
    have h4 : 0 ≤ B ^ 2 := sq_nonneg B
    have := mul_le_mul_of_nonneg_right h3 h4
    linarith
  have hfinish : ∀ k ≤ n, ∀ P, energy N t (fun i j => (L.getD i []).getD j 0) P ≤ 5 / 32 * D ^ 2 + k * stepEnergy N t D →
      ∀ i < N, ∀ j < t, |(L.getD i []).getD j 0 - P i j| ≤ D / 2 ∧ |P i j| ≤ D := by
    intro k hk P he i hi j hj
    refine residual_bounds (L := fun i j => (L.getD i []).getD j 0) hS.pos hBD1 hLB ?_ hi hj
    have := stepEnergy_le (N := N) (t := t) (k := k) (D := D) ((Nat.mul_le_mul_left _ hk).trans hn)
    have : 0 ≤ D ^ 2 := sq_nonneg D
    linarith
  intro k
  induction k with
  | zero =>
    intro _
    obtain ⟨s1, s2⟩ := regression_start_near h hm hSB hL hB
    have he : energy N t (fun i j => (L.getD i []).getD j 0) (fun _ j => rat (m.initialGuess.getD j F64.zero)) ≤
        5 / 32 * D ^ 2 + ((0 : ℕ) : ℚ) * stepEnergy N t D := by
      have := energy_le (N := N) (t := t) (L := fun i j => (L.getD i []).getD j 0) (P := fun _ j => rat (m.initialGuess.getD j F64.zero)) (b := 5 * B ^ 2) (by
        intro i hi j hj
        obtain ⟨q, hq1, hq2⟩ := s2 j hj
        show (_ - rat (m.initialGuess.getD j F64.zero)) ^ 2 ≤ _
        rw [rat_eq hq1]
        have h3 := hLB i hi j hj
        have hBp := hSB.pos
        have h4 : |(L.getD i []).getD j 0 - q| ≤ 11 / 5 * B := by
          rw [abs_le] at *
          constructor <;> linarith
        have h5 := sq_le_sq' (neg_le_of_abs_le h4) (le_of_abs_le h4)
        have : 0 ≤ B ^ 2 := sq_nonneg B
        nlinarith)
      push_cast
      rw [zero_mul, add_zero]
      linarith
    refine ⟨_, ?_, he, hfinish 0 (by omega) _ he⟩
    intro i row _
    refine ⟨m.initialGuess, ?_, s1, ?_⟩
    · rw [predictInstance_eq, List.take_zero]; rfl
    · intro j hj
      obtain ⟨q, hq1, _⟩ := s2 j hj
      show _ = Ext.fin (rat _)
      rw [rat_eq hq1]; exact hq1
  | succ k ih =>
    intro hk
    obtain ⟨P, a1, a2, a3⟩ := ih (by omega)
    obtain ⟨_, P', b1, b2⟩ := regression_step_near h hc hlr h0 h2 hm (by omega : k < n) hS (L := fun i j => (L.getD i []).getD j 0)
      (fun i l hl j hj => exact_entry h hL hl hj) a1 a3
    have he : energy N t (fun i j => (L.getD i []).getD j 0) P' ≤ 5 / 32 * D ^ 2 + ((k + 1 : ℕ) : ℚ) * stepEnergy N t D := by
      refine b2.trans ?_
      rw [← hN]
      have : (N : ℚ) * (t * (205 * N * (u * D * D))) = stepEnergy N t D := rfl
      rw [this]
      push_cast
      linarith
    exact ⟨P', b1, he, hfinish _ hk _ he⟩

end

end Verif
