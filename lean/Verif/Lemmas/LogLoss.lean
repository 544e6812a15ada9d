import Verif.Lemmas.ExactAmg
import Verif.Spec.LogLoss
/-! # One step of classification boosting and the log loss (over the reals) -/

set_option linter.unusedSectionVars false

namespace Verif

theorem sum_range_hot {t k : Nat} (hk : k < t) (f : Nat → ℝ) : ((List.range t).map (fun j => (if j = k then 1 else 0) * f j)).sum = f k := by
  induction t with
  | zero => omega
  | succ t ih =>
    rw [List.range_succ, List.map_append, List.sum_append]
    rcases Nat.lt_or_ge k t with h | h
    · rw [ih h]; simp; omega
    · have hkt : k = t := by omega
      subst hkt
      have : ((List.range k).map (fun j => (if j = k then (1 : ℝ) else 0) * f j)).sum = 0 := by
        apply List.sum_eq_zero
        intro x hx
        obtain ⟨j, hj, rfl⟩ := List.mem_map.mp hx
        rw [List.mem_range] at hj
        simp [Nat.ne_of_lt hj]
      rw [this]; simp

theorem hot_getD {t k j : Nat} (hj : j < t) : (hot t k : List ℝ).getD j 0 = if j = k then 1 else 0 := by
  rw [hot, getD_range hj]

theorem softmax_getD {t j : Nat} {v : List ℝ} (hv : v.length = t) (hj : j < t) :
    (softmax v).getD j 0 = Real.exp (v.getD j 0) / (v.map Real.exp).sum := by
  have : j < v.length := by omega
  simp [softmax, this, HasExp.exp]

/-- the loss of a row of class `k` -/
theorem rowLoss_hot {t k : Nat} (hk : k < t) {v : List ℝ} (hv : v.length = t) :
    rowLoss (hot t k) v = Real.log (v.map Real.exp).sum - v.getD k 0 := by
  have hne : v ≠ [] := by rintro rfl; simp at hv; omega
  have hpos : 0 < (v.map Real.exp).sum := exp_sum_pos (K := ℝ) hne
  rw [rowLoss, zipWith_getD (hot_length t k) (by rw [softmax_length, hv]) 0 0]
  have : (List.range t).map (fun j => (hot t k : List ℝ).getD j 0 * Real.log ((softmax v).getD j 0)) =
      (List.range t).map (fun j => (if j = k then 1 else 0) * Real.log ((softmax v).getD j 0)) := by
    apply List.map_congr_left
    intro j hj
    rw [List.mem_range] at hj
    rw [hot_getD hj]
  rw [this, sum_range_hot hk, softmax_getD hv hk, Real.log_div (Real.exp_pos _).ne' hpos.ne', Real.log_exp]
  ring

/-- moving the scores of a row by a small step -/
theorem rowLoss_step {t k : Nat} (hk : k < t) {v w : List ℝ} (hv : v.length = t) (hw : w.length = t)
    (h1 : ∀ j < t, |w.getD j 0| ≤ 1) :
    rowLoss (hot t k) (List.zipWith (· + ·) v w) ≤ rowLoss (hot t k) v +
      ((List.range t).map (fun j => -(((hot t k : List ℝ).getD j 0 - (softmax v).getD j 0) * w.getD j 0) +
        (softmax v).getD j 0 * w.getD j 0 ^ 2)).sum := by
  have hne : v ≠ [] := by rintro rfl; simp at hv; omega
  have hpos : 0 < (v.map Real.exp).sum := exp_sum_pos (K := ℝ) hne
  have hz : List.zipWith (· + ·) v w = (List.range t).map (fun j => v.getD j 0 + w.getD j 0) := zipWith_getD hv hw 0 0
  have hzl : (List.zipWith (· + ·) v w).length = t := by rw [hz]; simp
  have hne' : List.zipWith (· + ·) v w ≠ [] := by intro h; rw [h] at hzl; simp at hzl; omega
  have hpos' : 0 < ((List.zipWith (· + ·) v w).map Real.exp).sum := exp_sum_pos (K := ℝ) hne'
  rw [rowLoss_hot hk hv, rowLoss_hot hk hzl]
  -- the sum of the exponentials after the step
  set p := fun j => (softmax v).getD j 0 with hp
  have hsum1 : ((List.range t).map p).sum = 1 := by
    have := softmax_sum (K := ℝ) hne
    rwa [eq_range_getD (v := softmax v) (by rw [softmax_length, hv]) 0] at this
  have hp0 : ∀ j < t, 0 ≤ p j := by
    intro j hj
    rw [hp]
    simp only
    rw [softmax_getD hv hj]
    exact div_nonneg (Real.exp_pos _).le hpos.le
  have hratio : ((List.zipWith (· + ·) v w).map Real.exp).sum / (v.map Real.exp).sum =
      ((List.range t).map (fun j => p j * Real.exp (w.getD j 0))).sum := by
    rw [hz, List.map_map, div_eq_mul_inv, ← List.sum_map_mul_right]
    congr 1
    apply List.map_congr_left
    intro j hj
    rw [List.mem_range] at hj
    simp only [Function.comp, hp]
    rw [softmax_getD hv hj, Real.exp_add]
    field_simp
  have hle : ((List.range t).map (fun j => p j * Real.exp (w.getD j 0))).sum ≤
      ((List.range t).map (fun j => p j + (p j * w.getD j 0 + p j * w.getD j 0 ^ 2))).sum := by
    apply List.sum_le_sum
    intro j hj
    rw [List.mem_range] at hj
    have h2 := Real.abs_exp_sub_one_sub_id_le (h1 j hj)
    have h3 := (abs_le.mp h2).2
    have := mul_le_mul_of_nonneg_left (show Real.exp (w.getD j 0) ≤ 1 + (w.getD j 0 + w.getD j 0 ^ 2) by linarith) (hp0 j hj)
    nlinarith
  rw [List.sum_map_add, hsum1] at hle
  have hlog : Real.log ((List.zipWith (· + ·) v w).map Real.exp).sum - Real.log (v.map Real.exp).sum ≤
      ((List.range t).map (fun j => p j * w.getD j 0 + p j * w.getD j 0 ^ 2)).sum := by
    rw [← Real.log_div hpos'.ne' hpos.ne']
    have := Real.log_le_sub_one_of_pos (div_pos hpos' hpos)
    rw [hratio] at this ⊢
    linarith
  have hk' : (List.zipWith (· + ·) v w).getD k 0 = v.getD k 0 + w.getD k 0 := by rw [hz, getD_range hk]
  have hlast : ((List.range t).map (fun j => -(((hot t k : List ℝ).getD j 0 - p j) * w.getD j 0) + p j * w.getD j 0 ^ 2)).sum =
      ((List.range t).map (fun j => p j * w.getD j 0 + p j * w.getD j 0 ^ 2)).sum - w.getD k 0 := by
    rw [eq_sub_iff_add_eq, ← sum_range_hot hk (fun j => w.getD j 0), ← List.sum_map_add]
    congr 1
    apply List.map_congr_left
    intro j hj
    rw [List.mem_range] at hj
    rw [hot_getD hj]
    ring
  rw [hk', hlast]
  linarith

theorem list_sum_nonpos {l : List ℝ} (h : ∀ x ∈ l, x ≤ 0) : l.sum ≤ 0 := by
  induction l with
  | nil => simp
  | cons a l ih =>
    rw [List.sum_cons]
    have h1 := h a (by simp)
    have h2 := ih (fun x hx => h x (by simp [hx]))
    linarith

/-! ## one leaf -/

section leaf
variable {α : Type} {c : List α} {r p : α → Nat → ℝ} {t : Nat} {lr : ℝ}

/-- what is known of the residuals and probabilities of the rows in a leaf -/
structure LeafRows (c : List α) (r p : α → Nat → ℝ) (t : Nat) (lr : ℝ) : Prop where
  ne : c ≠ []
  two : 2 ≤ t
  rate : 0 ≤ lr
  low : ∀ a ∈ c, ∀ j < t, lr ≤ p a j ∧ lr ≤ 1 - p a j
  pos : ∀ a ∈ c, ∀ j < t, 0 < p a j ∧ p a j < 1
  resid : ∀ a ∈ c, ∀ j < t, |r a j| = p a j ∨ |r a j| = 1 - p a j

/-- the denominator of a leaf -/
def leafDen (c : List α) (r : α → Nat → ℝ) (j : Nat) : ℝ := (c.map (fun a => |r a j| * (1 - |r a j|))).sum

/-- the output of a leaf for class `j` -/
noncomputable def leafStep (c : List α) (r : α → Nat → ℝ) (t j : Nat) : ℝ := ((t : ℝ) - 1) / t * ((c.map (fun a => r a j)).sum / leafDen c r j)

theorem LeafRows.den_eq (h : LeafRows c r p t lr) {j : Nat} (hj : j < t) : leafDen c r j = (c.map (fun a => p a j * (1 - p a j))).sum := by
  rw [leafDen]
  congr 1
  apply List.map_congr_left
  intro a ha
  rcases h.resid a ha j hj with h1 | h1
  · rw [h1]
  · rw [h1]; ring

theorem LeafRows.den_pos (h : LeafRows c r p t lr) {j : Nat} (hj : j < t) : 0 < leafDen c r j := by
  rw [h.den_eq hj]
  apply List.sum_pos
  · intro x hx
    obtain ⟨a, ha, rfl⟩ := List.mem_map.mp hx
    obtain ⟨h1, h2⟩ := h.pos a ha j hj
    exact mul_pos h1 (by linarith)
  · simpa using h.ne

theorem LeafRows.t_pos (h : LeafRows c r p t lr) : (0 : ℝ) < t ∧ (0 : ℝ) < (t : ℝ) - 1 := by
  have h2 := h.two
  have : (2 : ℝ) ≤ t := by exact_mod_cast h2
  constructor <;> linarith

theorem LeafRows.sum_eq (h : LeafRows c r p t lr) {j : Nat} (hj : j < t) :
    (c.map (fun a => r a j)).sum = (t : ℝ) / (t - 1) * (leafStep c r t j * leafDen c r j) := by
  obtain ⟨h1, h2⟩ := h.t_pos
  have := (h.den_pos hj).ne'
  rw [leafStep]
  field_simp

/-- the probabilities are bounded by the denominators -/
theorem LeafRows.prob_le (h : LeafRows c r p t lr) {j : Nat} (hj : j < t) : lr * (c.map (fun a => p a j)).sum ≤ leafDen c r j := by
  rw [h.den_eq hj, ← List.sum_map_mul_left]
  apply List.sum_le_sum
  intro a ha
  have h1 := (h.pos a ha j hj).1
  have h2 := (h.low a ha j hj).2
  nlinarith

theorem LeafRows.compl_le (h : LeafRows c r p t lr) {j : Nat} (hj : j < t) : lr * (c.map (fun a => 1 - p a j)).sum ≤ leafDen c r j := by
  rw [h.den_eq hj, ← List.sum_map_mul_left]
  apply List.sum_le_sum
  intro a ha
  have h1 := (h.pos a ha j hj).2
  have h2 := (h.low a ha j hj).1
  nlinarith

/-- the step is small -/
theorem LeafRows.step_le (h : LeafRows c r p t lr) {j : Nat} (hj : j < t) : |lr * leafStep c r t j| ≤ 1 := by
  obtain ⟨ht, ht1⟩ := h.t_pos
  have hd := h.den_pos hj
  have h1 : |lr * (c.map (fun a => r a j)).sum| ≤ leafDen c r j := by
    rw [abs_mul, abs_of_nonneg h.rate]
    have h2 : |(c.map (fun a => r a j)).sum| ≤ (c.map (fun a => |r a j|)).sum := by
      clear h hd
      induction c with
      | nil => simp
      | cons a c ih =>
        simp only [List.map_cons, List.sum_cons]
        exact (abs_add_le _ _).trans (by linarith)
    refine (mul_le_mul_of_nonneg_left h2 h.rate).trans ?_
    rw [leafDen, ← List.sum_map_mul_left]
    apply List.sum_le_sum
    intro a ha
    have h3 := h.low a ha j hj
    have h4 : lr ≤ 1 - |r a j| := by
      rcases h.resid a ha j hj with h5 | h5 <;> rw [h5] <;> linarith
    have := mul_le_mul_of_nonneg_right h4 (abs_nonneg (r a j))
    linarith
  have h2 : lr * leafStep c r t j = ((t : ℝ) - 1) / t * (lr * (c.map (fun a => r a j)).sum / leafDen c r j) := by
    rw [leafStep]; ring
  rw [h2, abs_mul, abs_div (lr * _), abs_of_pos hd]
  have h3 : |((t : ℝ) - 1) / t| ≤ 1 := by
    rw [abs_of_nonneg (by positivity), div_le_one ht]; linarith
  have h4 : |lr * (c.map (fun a => r a j)).sum| / leafDen c r j ≤ 1 := (div_le_one hd).mpr h1
  exact mul_le_one₀ h3 (by positivity) h4

/-- the multi-class step lowers the bound on the loss -/
theorem LeafRows.multi (h : LeafRows c r p t lr) :
    (c.map (fun a => ((List.range t).map (fun j => -(r a j * (lr * leafStep c r t j)) + p a j * (lr * leafStep c r t j) ^ 2 +
      lr / (t - 1) * (p a j * (1 - p a j) * leafStep c r t j ^ 2))).sum)).sum ≤ 0 := by
  obtain ⟨ht, ht1⟩ := h.t_pos
  rw [sum_range_swap]
  apply list_sum_nonpos
  intro x hx
  obtain ⟨j, hj, rfl⟩ := List.mem_map.mp hx
  rw [List.mem_range] at hj
  have e : (c.map (fun a => -(r a j * (lr * leafStep c r t j)) + p a j * (lr * leafStep c r t j) ^ 2 +
      lr / (t - 1) * (p a j * (1 - p a j) * leafStep c r t j ^ 2))).sum =
      -(lr * leafStep c r t j) * (c.map (fun a => r a j)).sum + (lr * leafStep c r t j) ^ 2 * (c.map (fun a => p a j)).sum +
      lr / (t - 1) * leafStep c r t j ^ 2 * (c.map (fun a => p a j * (1 - p a j))).sum := by
    rw [← List.sum_map_mul_left, ← List.sum_map_mul_left, ← List.sum_map_mul_left, ← List.sum_map_add, ← List.sum_map_add]
    congr 1
    apply List.map_congr_left
    intro a _
    ring
  rw [e, ← h.den_eq hj, h.sum_eq hj]
  have h1 := h.prob_le hj
  generalize leafStep c r t j = o
  generalize leafDen c r j = D at *
  generalize (c.map (fun a => p a j)).sum = P at *
  have h2 : (lr * o) ^ 2 * P ≤ lr * o ^ 2 * D := by
    have := mul_le_mul_of_nonneg_left h1 (show 0 ≤ lr * o ^ 2 from mul_nonneg h.rate (sq_nonneg o))
    linarith
  have h3 : -(lr * o) * ((t : ℝ) / (t - 1) * (o * D)) + lr * o ^ 2 * D + lr / (t - 1) * o ^ 2 * D = 0 := by
    field_simp; ring
  linarith

/-- the AMG step: the value of one class, spread over the others with opposite sign -/
noncomputable def amgStep (c : List α) (r : α → Nat → ℝ) (t k j : Nat) : ℝ :=
  if j = k then leafStep c r t k else -leafStep c r t k / ((t : ℝ) - 1)

theorem LeafRows.amg_step_le (h : LeafRows c r p t lr) {k : Nat} (hk : k < t) (j : Nat) : |lr * amgStep c r t k j| ≤ 1 := by
  have h1 := h.step_le hk
  rw [amgStep]
  split
  · exact h1
  · have h2 : (1 : ℝ) ≤ (t : ℝ) - 1 := by
      have := h.two
      have : (2 : ℝ) ≤ t := by exact_mod_cast this
      linarith
    have e : lr * (-leafStep c r t k / ((t : ℝ) - 1)) = -(lr * leafStep c r t k) / ((t : ℝ) - 1) := by ring
    rw [e, abs_div, abs_neg, abs_of_nonneg (show (0 : ℝ) ≤ (t : ℝ) - 1 by linarith), div_le_one (by linarith)]
    linarith

theorem LeafRows.amg (h : LeafRows c r p t lr) (hr : ∀ a ∈ c, ((List.range t).map (r a)).sum = 0)
    (hp : ∀ a ∈ c, ((List.range t).map (p a)).sum = 1) {k : Nat} (hk : k < t) :
    (c.map (fun a => ((List.range t).map (fun j => -(r a j * (lr * amgStep c r t k j)) + p a j * (lr * amgStep c r t k j) ^ 2)).sum +
      2 * lr / (t - 1) * (p a k * (1 - p a k) * leafStep c r t k ^ 2))).sum ≤ 0 := by
  obtain ⟨ht, ht1⟩ := h.t_pos
  set M := leafStep c r t k with hM
  set b := M / ((t : ℝ) - 1) with hb
  have e : (c.map (fun a => ((List.range t).map (fun j => -(r a j * (lr * amgStep c r t k j)) + p a j * (lr * amgStep c r t k j) ^ 2)).sum +
      2 * lr / (t - 1) * (p a k * (1 - p a k) * M ^ 2))).sum =
      -(lr * (M + b)) * (c.map (fun a => r a k)).sum + lr ^ 2 * M ^ 2 * (c.map (fun a => p a k)).sum +
      lr ^ 2 * b ^ 2 * (c.map (fun a => 1 - p a k)).sum + 2 * lr / (t - 1) * M ^ 2 * (c.map (fun a => p a k * (1 - p a k))).sum := by
    rw [← List.sum_map_mul_left, ← List.sum_map_mul_left, ← List.sum_map_mul_left, ← List.sum_map_mul_left, ← List.sum_map_add,
      ← List.sum_map_add, ← List.sum_map_add]
    congr 1
    apply List.map_congr_left
    intro a ha
    have e1 : ((List.range t).map (fun j => -(r a j * (lr * amgStep c r t k j)) + p a j * (lr * amgStep c r t k j) ^ 2)).sum =
        ((List.range t).map (fun j => lr * b * r a j + (if j = k then 1 else 0) * (-(lr * (M + b)) * r a j) +
          (lr ^ 2 * b ^ 2 * p a j + (if j = k then 1 else 0) * (lr ^ 2 * (M ^ 2 - b ^ 2) * p a j)))).sum := by
      congr 1
      apply List.map_congr_left
      intro j _
      rw [amgStep, ← hM]
      split
      · ring
      · rw [neg_div, ← hb]; ring
    rw [e1, List.sum_map_add, List.sum_map_add, List.sum_map_add, sum_range_hot hk, sum_range_hot hk,
      List.sum_map_mul_left, List.sum_map_mul_left]
    have e2 := hr a ha
    have e3 := hp a ha
    rw [e2, e3]
    ring
  rw [e, ← h.den_eq hk, h.sum_eq hk, ← hM]
  have h1 := h.prob_le hk
  have h2 := h.compl_le hk
  generalize leafDen c r k = D at *
  generalize (c.map (fun a => p a k)).sum = P at *
  generalize (c.map (fun a => 1 - p a k)).sum = Q at *
  have h3 : lr ^ 2 * M ^ 2 * P ≤ lr * M ^ 2 * D := by
    have := mul_le_mul_of_nonneg_left h1 (show 0 ≤ lr * M ^ 2 from mul_nonneg h.rate (sq_nonneg M))
    linarith
  have h4 : lr ^ 2 * b ^ 2 * Q ≤ lr * b ^ 2 * D := by
    have := mul_le_mul_of_nonneg_left h2 (show 0 ≤ lr * b ^ 2 from mul_nonneg h.rate (sq_nonneg b))
    linarith
  have h5 : -(lr * (M + b)) * ((t : ℝ) / (t - 1) * (M * D)) + lr * M ^ 2 * D + lr * b ^ 2 * D + 2 * lr / (t - 1) * M ^ 2 * D = 0 := by
    rw [hb]; field_simp; ring
  linarith

end leaf

/-! ## all rows -/

/-- a training row with its label and its scores -/
abbrev Item := List (Ext ℝ) × (List ℝ × List ℝ)

/-- its residual vector -/
noncomputable def itemResid (e : Item) : List ℝ := List.zipWith (· - ·) e.2.1 (softmax e.2.2)

noncomputable def itemR (e : Item) (j : Nat) : ℝ := (itemResid e).getD j 0
noncomputable def itemP (e : Item) (j : Nat) : ℝ := (softmax e.2.2).getD j 0

section rows
variable {rows : List (List (Ext ℝ))} {ls ps : List (List ℝ)} {t : Nat} {lr : ℝ} {L : Type}

theorem zip_probResid (h1 : ps.length = ls.length) (h2 : rows.length = ls.length) :
    rows.zip (probResid ls ps) = (rows.zip (ls.zip ps)).map (fun e => (e.1, itemResid e)) := by
  apply List.ext_getElem
  · simp [probResid, h1, h2]
  · intro i h3 h4
    simp [probResid, itemResid]

theorem mates_items (h1 : ps.length = ls.length) (h2 : rows.length = ls.length) (tree : TreeNode (Ext ℝ) L) (row : List (Ext ℝ)) :
    mates tree (rows.zip (probResid ls ps)) row =
      ((rows.zip (ls.zip ps)).filter (fun e => decide (tree.route e.1 = tree.route row))).map itemResid := by
  rw [mates, zip_probResid h1 h2, List.filter_map, List.map_map]
  rfl

theorem logLoss_items (h1 : ps.length = ls.length) (h2 : rows.length = ls.length) :
    logLoss ls ps = ((rows.zip (ls.zip ps)).map (fun e => rowLoss e.2.1 e.2.2)).sum := by
  rw [logLoss]
  congr 1
  apply List.ext_getElem
  · simp [h1, h2]
  · intro i h3 h4
    simp

theorem logLoss_updated (h1 : ps.length = ls.length) (h2 : rows.length = ls.length) (o : List (Ext ℝ) → List ℝ) :
    logLoss ls (updated lr o ps rows) =
      ((rows.zip (ls.zip ps)).map (fun e => rowLoss e.2.1 (List.zipWith (· + ·) e.2.2 ((o e.1).map (fun x => lr * x))))).sum := by
  rw [logLoss]
  congr 1
  apply List.ext_getElem
  · simp [updated, h1, h2]
  · intro i h3 h4
    simp [updated]

theorem item_mem {e : Item} (h : e ∈ rows.zip (ls.zip ps)) : e.2.1 ∈ ls ∧ e.2.2 ∈ ps := by
  have h1 := (List.of_mem_zip (show (e.1, e.2) ∈ _ from h)).2
  exact List.of_mem_zip (show (e.2.1, e.2.2) ∈ _ from h1)

theorem leafRows_items (h2 : 2 ≤ t) (hh : ∀ l ∈ ls, ∃ k < t, l = hot t k) (hp : ∀ p ∈ ps, p.length = t) (h0 : 0 ≤ lr)
    (hrate : RateBelow lr ps) {s : List Item} (hs : ∀ e ∈ s, e ∈ rows.zip (ls.zip ps)) (hne : s ≠ []) :
    LeafRows s itemR itemP t lr ∧ (∀ e ∈ s, ((List.range t).map (itemR e)).sum = 0) ∧ ∀ e ∈ s, ((List.range t).map (itemP e)).sum = 1 := by
  have hmem : ∀ e ∈ s, ∀ j < t, (softmax e.2.2).getD j 0 ∈ softmax e.2.2 := by
    intro e he j hj
    have : j < (softmax e.2.2).length := by rw [softmax_length, hp _ (item_mem (hs e he)).2]; exact hj
    simp [this]
  refine ⟨⟨hne, h2, h0, ?_, ?_, ?_⟩, ?_, ?_⟩
  · intro e he j hj
    exact hrate _ (item_mem (hs e he)).2 _ (hmem e he j hj)
  · intro e he j hj
    have hm := hmem e he j hj
    exact ⟨softmax_pos _ hm, softmax_lt_one (by rw [hp _ (item_mem (hs e he)).2]; exact h2) _ hm⟩
  · intro e he j hj
    have hl := hp _ (item_mem (hs e he)).2
    have hm := hmem e he j hj
    have a1 := softmax_pos _ hm
    have a2 := softmax_lt_one (by rw [hl]; exact h2) _ hm
    obtain ⟨k, _, hk⟩ := hh _ (item_mem (hs e he)).1
    have : itemR e j = (if j = k then 1 else 0) - itemP e j := by
      rw [itemR, itemResid, hk, zipWith_getD (hot_length t k) (by rw [softmax_length, hl]) 0 0, getD_range hj, hot_getD hj, itemP]
    rw [this]
    simp only [itemP]
    split
    · right; exact abs_of_pos (by linarith)
    · left; rw [zero_sub, abs_neg]; exact abs_of_pos a1
  · intro e he
    have hl := hp _ (item_mem (hs e he)).2
    obtain ⟨k, hkt, hk⟩ := hh _ (item_mem (hs e he)).1
    have := residual_sum hkt hl
    rw [← hk] at this
    rwa [eq_range_getD (v := List.zipWith (· - ·) e.2.1 (softmax e.2.2)) (t := t) (by
      rw [List.length_zipWith, softmax_length, hl, hk, hot_length, min_self]) 0] at this
  · intro e he
    have hl := hp _ (item_mem (hs e he)).2
    have hne : e.2.2 ≠ [] := by intro h; rw [h] at hl; simp at hl; omega
    have := softmax_sum hne
    rwa [eq_range_getD (v := softmax e.2.2) (t := t) (by rw [softmax_length, hl]) 0] at this

/-- the loss after one step, for outputs that depend on the rows in the leaf -/
theorem loss_step (h2 : 2 ≤ t) (hh : ∀ l ∈ ls, ∃ k < t, l = hot t k) (hp : ∀ p ∈ ps, p.length = t) (h0 : 0 ≤ lr)
    (hrate : RateBelow lr ps) (hl1 : ps.length = ls.length) (hl2 : rows.length = ls.length) (tree : TreeNode (Ext ℝ) L)
    (O : List (List ℝ) → List ℝ) (hO : ∀ rs, (O rs).length = t) (extra : Item → List Item → ℝ)
    (H : ∀ s : List Item, LeafRows s itemR itemP t lr → (∀ e ∈ s, ((List.range t).map (itemR e)).sum = 0) →
      (∀ e ∈ s, ((List.range t).map (itemP e)).sum = 1) → (∀ j < t, |lr * (O (s.map itemResid)).getD j 0| ≤ 1) ∧
      (s.map (fun e => ((List.range t).map (fun j => -(itemR e j * (lr * (O (s.map itemResid)).getD j 0)) +
        itemP e j * (lr * (O (s.map itemResid)).getD j 0) ^ 2)).sum + extra e s)).sum ≤ 0) :
    logLoss ls (updated lr (fun row => O (mates tree (rows.zip (probResid ls ps)) row)) ps rows) +
      ((rows.zip (ls.zip ps)).map (fun e => extra e ((rows.zip (ls.zip ps)).filter
        (fun e' => decide (tree.route e'.1 = tree.route e.1))))).sum ≤ logLoss ls ps := by
  rw [logLoss_items hl1 hl2, logLoss_updated hl1 hl2, ← List.sum_map_add]
  simp only [mates_items hl1 hl2]
  refine group_le (fun e : Item => tree.route e.1)
    (fun e s => rowLoss e.2.1 (List.zipWith (· + ·) e.2.2 ((O (s.map itemResid)).map (fun x => lr * x))) + extra e s)
    (fun e _ => rowLoss e.2.1 e.2.2) _ _ le_rfl ?_
  intro s hs hsub _
  have hmem : ∀ e ∈ s, e ∈ rows.zip (ls.zip ps) := fun e he => hsub.subset he
  obtain ⟨k1, k2, k3⟩ := leafRows_items h2 hh hp h0 hrate hmem hs
  obtain ⟨k4, k5⟩ := H s k1 k2 k3
  have key : ∀ e ∈ s, rowLoss e.2.1 (List.zipWith (· + ·) e.2.2 ((O (s.map itemResid)).map (fun x => lr * x))) + extra e s ≤
      rowLoss e.2.1 e.2.2 + (((List.range t).map (fun j => -(itemR e j * (lr * (O (s.map itemResid)).getD j 0)) +
        itemP e j * (lr * (O (s.map itemResid)).getD j 0) ^ 2)).sum + extra e s) := by
    intro e he
    obtain ⟨a1, a2⟩ := item_mem (hmem e he)
    obtain ⟨k, hkt, hk⟩ := hh _ a1
    have hget : ∀ j < t, ((O (s.map itemResid)).map (fun x => lr * x)).getD j 0 = lr * (O (s.map itemResid)).getD j 0 := by
      intro j hj
      have : j < (O (s.map itemResid)).length := by rw [hO]; exact hj
      simp [this]
    have := rowLoss_step hkt (hp _ a2) (w := (O (s.map itemResid)).map (fun x => lr * x)) (by rw [List.length_map, hO])
      (fun j hj => by rw [hget j hj]; exact k4 j hj)
    rw [← hk] at this
    have e2 : (List.range t).map (fun j => -((e.2.1.getD j 0 - (softmax e.2.2).getD j 0) *
          ((O (s.map itemResid)).map (fun x => lr * x)).getD j 0) +
          (softmax e.2.2).getD j 0 * ((O (s.map itemResid)).map (fun x => lr * x)).getD j 0 ^ 2) =
        (List.range t).map (fun j => -(itemR e j * (lr * (O (s.map itemResid)).getD j 0)) +
          itemP e j * (lr * (O (s.map itemResid)).getD j 0) ^ 2) := by
      apply List.map_congr_left
      intro j hj
      rw [List.mem_range] at hj
      rw [hget j hj, itemR, itemResid, zipWith_getD (by rw [hk, hot_length]) (by rw [softmax_length, hp _ a2]) 0 0, getD_range hj, itemP]
    rw [e2] at this
    linarith
  refine (List.sum_le_sum key).trans ?_
  rw [List.sum_map_add]
  linarith

/-- outputs that vanish at all training rows leave the scores as they are -/
theorem updated_zero_rate {o : List (Ext ℝ) → List ℝ} (h1 : ps.length = rows.length) (hp : ∀ p ∈ ps, p.length = t)
    (ho : ∀ row ∈ rows, (o row).length = t) (hz : ∀ row ∈ rows, ∀ j < t, (o row).getD j 0 = 0) : updated lr o ps rows = ps := by
  apply List.ext_getElem (by simp [updated, h1])
  intro i h3 h4
  simp only [updated, List.getElem_zipWith]
  have hi : i < rows.length := by omega
  have b1 := hp _ (List.getElem_mem h4)
  have b2 := ho _ (List.getElem_mem hi)
  apply List.ext_getElem (by simp [b1, b2])
  intro j h5 h6
  have hj : j < t := by omega
  have := hz _ (List.getElem_mem hi) j hj
  have hj2 : j < (o rows[i]).length := by omega
  rw [List.getD_eq_getElem?_getD, List.getElem?_eq_getElem hj2, Option.getD_some] at this
  simp [this]

theorem sum_pos_of {l : List ℝ} (h : ∀ x ∈ l, 0 ≤ x) {x : ℝ} (hx : x ∈ l) (h0 : 0 < x) : 0 < l.sum := by
  induction l with
  | nil => cases hx
  | cons a l ih =>
    rw [List.sum_cons]
    have h1 := h a (by simp)
    have h2 : 0 ≤ l.sum := List.sum_nonneg (fun y hy => h y (by simp [hy]))
    rcases List.mem_cons.mp hx with rfl | hx
    · linarith
    · have := ih (fun y hy => h y (by simp [hy])) hx
      linarith

/-- if every change of an output is paid for, the loss falls unless the scores stay as they are -/
theorem loss_drop (h2 : 2 ≤ t) (hh : ∀ l ∈ ls, ∃ k < t, l = hot t k) (hp : ∀ p ∈ ps, p.length = t) (h0 : 0 ≤ lr)
    (hrate : RateBelow lr ps) (hl1 : ps.length = ls.length) (hl2 : rows.length = ls.length) (tree : TreeNode (Ext ℝ) L)
    (O : List (List ℝ) → List ℝ) (hO : ∀ rs, (O rs).length = t) (extra : Item → List Item → ℝ)
    (H : ∀ s : List Item, LeafRows s itemR itemP t lr → (∀ e ∈ s, ((List.range t).map (itemR e)).sum = 0) →
      (∀ e ∈ s, ((List.range t).map (itemP e)).sum = 1) → (∀ j < t, |lr * (O (s.map itemResid)).getD j 0| ≤ 1) ∧
      (s.map (fun e => ((List.range t).map (fun j => -(itemR e j * (lr * (O (s.map itemResid)).getD j 0)) +
        itemP e j * (lr * (O (s.map itemResid)).getD j 0) ^ 2)).sum + extra e s)).sum ≤ 0)
    (hE : ∀ s : List Item, LeafRows s itemR itemP t lr → ∀ e ∈ s, 0 ≤ extra e s ∧
      (0 < lr → extra e s = 0 → ∀ j < t, (O (s.map itemResid)).getD j 0 = 0)) :
    logLoss ls (updated lr (fun row => O (mates tree (rows.zip (probResid ls ps)) row)) ps rows) ≤ logLoss ls ps ∧
      (0 < lr → updated lr (fun row => O (mates tree (rows.zip (probResid ls ps)) row)) ps rows ≠ ps →
        logLoss ls (updated lr (fun row => O (mates tree (rows.zip (probResid ls ps)) row)) ps rows) < logLoss ls ps) := by
  have h := loss_step h2 hh hp h0 hrate hl1 hl2 tree O hO extra H
  set items := rows.zip (ls.zip ps) with hitems
  have hgroup : ∀ e ∈ items, LeafRows (items.filter (fun e' => decide (tree.route e'.1 = tree.route e.1))) itemR itemP t lr ∧
      e ∈ items.filter (fun e' => decide (tree.route e'.1 = tree.route e.1)) := by
    intro e he
    have hin : e ∈ items.filter (fun e' => decide (tree.route e'.1 = tree.route e.1)) := by rw [List.mem_filter]; exact ⟨he, by simp⟩
    exact ⟨(leafRows_items h2 hh hp h0 hrate (fun e' he' => List.mem_of_mem_filter he') (List.ne_nil_of_mem hin)).1, hin⟩
  have hnn : ∀ x ∈ items.map (fun e => extra e (items.filter (fun e' => decide (tree.route e'.1 = tree.route e.1)))), 0 ≤ x := by
    intro x hx
    obtain ⟨e, he, rfl⟩ := List.mem_map.mp hx
    exact (hE _ (hgroup e he).1 e (hgroup e he).2).1
  refine ⟨by have := List.sum_nonneg hnn; linarith, ?_⟩
  intro hlr hne
  have hpos : 0 < (items.map (fun e => extra e (items.filter (fun e' => decide (tree.route e'.1 = tree.route e.1))))).sum := by
    by_contra hcon
    apply hne
    apply updated_zero_rate (by omega) hp (fun row _ => hO _)
    intro row hrow
    obtain ⟨i, hi, rfl⟩ := List.getElem_of_mem hrow
    have hi1 : i < items.length := by rw [hitems]; simp; omega
    have hrow' : (items[i]).1 = rows[i] := by simp [hitems]
    have he : items[i] ∈ items := List.getElem_mem hi1
    have hz : extra items[i] (items.filter (fun e' => decide (tree.route e'.1 = tree.route items[i].1))) = 0 := by
      by_contra hzne
      apply hcon
      refine sum_pos_of hnn (List.mem_map.mpr ⟨_, he, rfl⟩) ?_
      exact _root_.lt_of_le_of_ne (hE _ (hgroup _ he).1 _ (hgroup _ he).2).1 (Ne.symm hzne)
    have := (hE _ (hgroup _ he).1 _ (hgroup _ he).2).2 hlr hz
    rw [hrow'] at this
    rw [mates_items hl1 hl2]
    exact this
  linarith

theorem classLeaf_getD {s : List Item} {j : Nat} (hj : j < t) : (classLeaf t (s.map itemResid)).getD j 0 = leafStep s itemR t j := by
  rw [classLeaf, getD_range hj, leafStep, leafDen]
  simp only [target, List.map_map, Function.comp_def, itemR]

/-- multi-class boosting -/
theorem loss_drop_multi (h2 : 2 ≤ t) (hh : ∀ l ∈ ls, ∃ k < t, l = hot t k) (hp : ∀ p ∈ ps, p.length = t) (h0 : 0 ≤ lr)
    (hrate : RateBelow lr ps) (hl1 : ps.length = ls.length) (hl2 : rows.length = ls.length) (tree : TreeNode (Ext ℝ) L) :
    logLoss ls (updated lr (fun row => classLeaf t (mates tree (rows.zip (probResid ls ps)) row)) ps rows) ≤ logLoss ls ps ∧
      (0 < lr → updated lr (fun row => classLeaf t (mates tree (rows.zip (probResid ls ps)) row)) ps rows ≠ ps →
        logLoss ls (updated lr (fun row => classLeaf t (mates tree (rows.zip (probResid ls ps)) row)) ps rows) < logLoss ls ps) := by
  refine loss_drop h2 hh hp h0 hrate hl1 hl2 tree (classLeaf t) (classLeaf_length t)
    (fun e s => ((List.range t).map (fun j => lr / (t - 1) * (itemP e j * (1 - itemP e j) * leafStep s itemR t j ^ 2))).sum) ?_ ?_
  · intro s hs _ _
    refine ⟨fun j hj => by rw [classLeaf_getD hj]; exact hs.step_le hj, ?_⟩
    have := hs.multi
    refine le_of_eq_of_le ?_ this
    congr 1
    apply List.map_congr_left
    intro e _
    rw [← List.sum_map_add]
    congr 1
    apply List.map_congr_left
    intro j hj
    rw [List.mem_range] at hj
    rw [classLeaf_getD hj]
  · intro s hs e he
    obtain ⟨ht, ht1⟩ := hs.t_pos
    have hnn : ∀ x ∈ (List.range t).map (fun j => lr / (t - 1) * (itemP e j * (1 - itemP e j) * leafStep s itemR t j ^ 2)), 0 ≤ x := by
      intro x hx
      obtain ⟨j, hj, rfl⟩ := List.mem_map.mp hx
      rw [List.mem_range] at hj
      obtain ⟨a1, a2⟩ := hs.pos e he j hj
      have : 0 ≤ 1 - itemP e j := by linarith
      have := hs.rate
      positivity
    refine ⟨List.sum_nonneg hnn, ?_⟩
    intro hlr hz j hj
    rw [classLeaf_getD hj]
    by_contra hne
    have hpos : 0 < lr / (t - 1) * (itemP e j * (1 - itemP e j) * leafStep s itemR t j ^ 2) := by
      obtain ⟨a1, a2⟩ := hs.pos e he j hj
      have : 0 < 1 - itemP e j := by linarith
      have : 0 < leafStep s itemR t j ^ 2 := by positivity
      positivity
    have := sum_pos_of hnn (List.mem_map.mpr ⟨j, List.mem_range.mpr hj, rfl⟩) hpos
    linarith

/-- AMG boosting -/
theorem loss_drop_amg (h2 : 2 ≤ t) (hh : ∀ l ∈ ls, ∃ k < t, l = hot t k) (hp : ∀ p ∈ ps, p.length = t) (h0 : 0 ≤ lr)
    (hrate : RateBelow lr ps) (hl1 : ps.length = ls.length) (hl2 : rows.length = ls.length) (tree : TreeNode (Ext ℝ) L) :
    logLoss ls (updated lr (fun row => keepTop t (classLeaf t (mates tree (rows.zip (probResid ls ps)) row))) ps rows) ≤ logLoss ls ps ∧
      (0 < lr → updated lr (fun row => keepTop t (classLeaf t (mates tree (rows.zip (probResid ls ps)) row))) ps rows ≠ ps →
        logLoss ls (updated lr (fun row => keepTop t (classLeaf t (mates tree (rows.zip (probResid ls ps)) row))) ps rows) < logLoss ls ps) := by
  -- the class that a leaf stores
  let top : List Item → Nat := fun s => (findMaxValueAndIndex (liftV (classLeaf t (s.map itemResid)))).2
  have htop : ∀ s, top s < t := by
    intro s
    have := (findMax_top (v := classLeaf t (s.map itemResid)) (by
      intro h
      have := congrArg List.length h
      rw [classLeaf_length] at this
      simp at this
      omega)).1
    rwa [classLeaf_length] at this
  have hget : ∀ s, ∀ j < t, (keepTop t (classLeaf t (s.map itemResid))).getD j 0 = amgStep s itemR t (top s) j := by
    intro s j hj
    rw [keepTop, amgField_getD _ hj, amgStep]
    change (if j = top s then (classLeaf t (s.map itemResid)).getD (top s) 0 else -(classLeaf t (s.map itemResid)).getD (top s) 0 / _) = _
    rw [classLeaf_getD (htop s)]
  refine loss_drop h2 hh hp h0 hrate hl1 hl2 tree (fun rs => keepTop t (classLeaf t rs)) (fun rs => keepTop_length _ _)
    (fun e s => 2 * lr / (t - 1) * (itemP e (top s) * (1 - itemP e (top s)) * leafStep s itemR t (top s) ^ 2)) ?_ ?_
  · intro s hs h3 h4
    refine ⟨fun j hj => by rw [hget s j hj]; exact hs.amg_step_le (htop s) j, ?_⟩
    refine le_of_eq_of_le ?_ (hs.amg h3 h4 (htop s))
    congr 1
    apply List.map_congr_left
    intro e _
    congr 2
    apply List.map_congr_left
    intro j hj
    rw [List.mem_range] at hj
    rw [hget s j hj]
  · intro s hs e he
    obtain ⟨ht, ht1⟩ := hs.t_pos
    obtain ⟨a1, a2⟩ := hs.pos e he _ (htop s)
    have a3 : 0 < 1 - itemP e (top s) := by linarith
    have := hs.rate
    refine ⟨by positivity, ?_⟩
    intro hlr hz j hj
    rw [hget s j hj]
    have hM : leafStep s itemR t (top s) = 0 := by
      by_contra hne
      have : 0 < leafStep s itemR t (top s) ^ 2 := by positivity
      have : 0 < 2 * lr / (t - 1) * (itemP e (top s) * (1 - itemP e (top s)) * leafStep s itemR t (top s) ^ 2) := by positivity
      linarith
    rw [amgStep, hM]
    simp

end rows

end Verif
