import Verif.Spec.Additive
import Verif.Props.Exhaust
import Mathlib.Analysis.PSeries
/-!
# Inner products of residuals with predictions
-/

set_option linter.unusedSectionVars false

namespace Verif

/-- square summable steps: the product of a step with the sum of the steps before it is small now and then -/
theorem small_product {a : Nat → ℝ} {C : ℝ} (hC : ∀ k, ((List.range k).map (fun i => a i ^ 2)).sum ≤ C) {A β δ : ℝ}
    (hδ : 0 < δ) : ∃ i, (A + β * ((List.range i).map a).sum) * a i < δ := by
  by_contra hcon
  push Not at hcon
  have hC0 : 0 ≤ C := by simpa using hC 0
  set M := 2 * A ^ 2 + 2 * β ^ 2 * C + 1 with hM
  have hMp : 0 < M := by positivity
  have h1 : ∀ i : Nat, δ ^ 2 / M * (1 / ((i : ℝ) + 1)) ≤ a i ^ 2 := by
    intro i
    have h2 := sq_sum_le ((List.range i).map a)
    rw [List.length_map, List.length_range, List.map_map] at h2
    have h3 : ((List.range i).map a).sum ^ 2 ≤ i * C := by
      refine h2.trans (mul_le_mul_of_nonneg_left (hC i) (Nat.cast_nonneg i))
    set s := ((List.range i).map a).sum with hs
    have h4 : (A + β * s) ^ 2 ≤ M * (i + 1) := by
      have h5 : (A + β * s) ^ 2 ≤ 2 * A ^ 2 + 2 * β ^ 2 * s ^ 2 := by nlinarith [sq_nonneg (A - β * s)]
      have h6 := mul_le_mul_of_nonneg_left h3 (by positivity : (0 : ℝ) ≤ 2 * β ^ 2)
      have h7 : (0 : ℝ) ≤ i := Nat.cast_nonneg i
      have h8 : 0 ≤ A ^ 2 * i := by positivity
      have h9 : 0 ≤ β ^ 2 * C := by positivity
      rw [hM]
      nlinarith
    have h5 : δ ^ 2 ≤ (A + β * s) ^ 2 * a i ^ 2 := by
      rw [← mul_pow]
      exact pow_le_pow_left₀ hδ.le (hcon i) 2
    have h6 : δ ^ 2 ≤ M * (i + 1) * a i ^ 2 := h5.trans (mul_le_mul_of_nonneg_right h4 (sq_nonneg _))
    have h7 : (0 : ℝ) < (i : ℝ) + 1 := by positivity
    rw [div_mul_div_comm, mul_one, div_le_iff₀ (mul_pos hMp h7)]
    linarith
  have hsum : ∀ (k : Nat), δ ^ 2 / M * (∑ i ∈ Finset.range k, 1 / ((i : ℝ) + 1)) ≤ C := by
    intro k
    refine le_trans ?_ (hC k)
    induction k with
    | zero => simp
    | succ k ih =>
      rw [Finset.sum_range_succ, mul_add, List.range_succ, List.map_append, List.sum_append, List.map_singleton, List.sum_singleton]
      exact add_le_add ih (h1 k)
  have hd : 0 < δ ^ 2 / M := by positivity
  obtain ⟨k, hk⟩ := (Real.tendsto_sum_range_one_div_nat_succ_atTop.eventually_gt_atTop (C / (δ ^ 2 / M))).exists
  have := hsum k
  rw [div_lt_iff₀ hd, mul_comm] at hk
  linarith

/-! ## sums of products -/

/-- the sum over the rows and targets of the products of residuals and predictions -/
noncomputable def ipr (t : Nat) (rows : List (List (Ext ℝ))) (rs : List (List ℝ)) (G : List (Ext ℝ) → Nat → ℝ) : ℝ :=
  ((rows.zip rs).map (fun e => ((List.range t).map (fun j => e.2.getD j 0 * G e.1 j)).sum)).sum

variable {c t : Nat} {rows : List (List (Ext ℝ))} {rs : List (List ℝ)} {G H : List (Ext ℝ) → Nat → ℝ}

theorem ipr_congr (h : ∀ row ∈ rows, ∀ j < t, G row j = H row j) : ipr t rows rs G = ipr t rows rs H := by
  rw [ipr, ipr]
  congr 1
  apply List.map_congr_left
  intro e he
  congr 1
  apply List.map_congr_left
  intro j hj
  rw [h e.1 (List.of_mem_zip he).1 j (List.mem_range.mp hj)]

theorem ipr_add : ipr t rows rs (fun row j => G row j + H row j) = ipr t rows rs G + ipr t rows rs H := by
  simp only [ipr, mul_add, List.sum_map_add]

theorem ipr_smul (x : ℝ) : ipr t rows rs (fun row j => x * G row j) = x * ipr t rows rs G := by
  rw [ipr, ipr, ← List.sum_map_mul_left]
  congr 1
  apply List.map_congr_left
  intro e _
  rw [← List.sum_map_mul_left]
  congr 1
  apply List.map_congr_left
  intro j _
  ring

theorem ipr_swap : ipr t rows rs G = ((List.range t).map (fun j => ((rows.zip rs).map (fun e => e.2.getD j 0 * G e.1 j)).sum)).sum := by
  rw [ipr, sum_range_swap]

/-- residuals that no question explains well are nearly orthogonal to the predictions -/
def Bd (c t : Nat) (rows : List (List (Ext ℝ))) (A : ℝ) (G : List (Ext ℝ) → Nat → ℝ) : Prop :=
  ∀ rs : List (List ℝ), rows.length = rs.length → (∀ j < t, (target rs j).sum = 0) → ∀ a : ℝ, 0 ≤ a →
    (∀ q : Question (Ext ℝ), q.column < c → rs.length * varianceReduction t rows rs q ≤ a ^ 2) → |ipr t rows rs G| ≤ A * a

theorem Bd.congr {A : ℝ} (hG : Bd c t rows A G) (h : ∀ row ∈ rows, ∀ j < t, H row j = G row j) : Bd c t rows A H := by
  intro rs h1 h2 a h3 h4
  rw [ipr_congr h]
  exact hG rs h1 h2 a h3 h4

theorem Bd.add {A B : ℝ} (hG : Bd c t rows A G) (hH : Bd c t rows B H) : Bd c t rows (A + B) (fun row j => G row j + H row j) := by
  intro rs h1 h2 a h3 h4
  rw [ipr_add]
  refine (abs_add_le _ _).trans ?_
  rw [add_mul]
  exact add_le_add (hG rs h1 h2 a h3 h4) (hH rs h1 h2 a h3 h4)

theorem Bd.smul {A : ℝ} (hG : Bd c t rows A G) (x : ℝ) : Bd c t rows (|x| * A) (fun row j => x * G row j) := by
  intro rs h1 h2 a h3 h4
  rw [ipr_smul, abs_mul, mul_assoc]
  exact mul_le_mul_of_nonneg_left (hG rs h1 h2 a h3 h4) (abs_nonneg x)

theorem col_zip (hlen : rows.length = rs.length) (j : Nat) : (target rs j).sum = ((rows.zip rs).map (fun e => e.2.getD j 0)).sum := by
  rw [target]
  conv_lhs => rw [← List.map_snd_zip (l₁ := rows) (l₂ := rs) (by omega)]
  rw [List.map_map]; rfl

theorem Bd.const (w : Nat → ℝ) : Bd c t rows 0 (fun _ j => w j) := by
  intro rs h1 h2 a _ _
  rw [ipr_swap, zero_mul, abs_nonpos_iff]
  apply List.sum_eq_zero
  intro x hx
  obtain ⟨j, hj, rfl⟩ := List.mem_map.mp hx
  rw [List.sum_map_mul_right, ← col_zip h1, h2 j (List.mem_range.mp hj), zero_mul]

/-- the weighted variances of a group, with its sums -/
theorem length_totalVar (t : Nat) (vs : List (List ℝ)) : vs.length * totalVar t vs =
    ((List.range t).map (fun j => colSq vs j - (target vs j).sum ^ 2 / vs.length)).sum := by
  rw [totalVar, ← List.sum_map_mul_left]
  congr 1
  apply List.map_congr_left
  intro j _
  have h1 := length_mul_varOf (target vs j)
  have h2 := sqDev_shift 0 (target vs j)
  rw [target_length] at h1 h2
  rw [h1, colSq, h2, meanOf, target_length]
  rcases eq_or_ne (vs.length : ℝ) 0 with h0 | h0
  · simp [h0]
  · field_simp
    ring

theorem filter_sum {α : Type} (p : α → Bool) (f : α → ℝ) (l : List α) :
    ((l.filter (fun e => !p e)).map f).sum + ((l.filter p).map f).sum = (l.map f).sum := by
  induction l with
  | nil => simp
  | cons e l ih => cases h : p e <;> simp [h, ← ih] <;> ring

/-- the sum of the residuals that answer with yes -/
theorem yes_sum (hlen : rows.length = rs.length) (hu : ∀ j < t, (target rs j).sum = 0) {a : ℝ} (ha : 0 ≤ a) {q : Question (Ext ℝ)}
    (hv : rs.length * varianceReduction t rows rs q ≤ a ^ 2) {j : Nat} (hj : j < t) :
    |(target (yesLabels rows rs q) j).sum| ≤ rows.length * a := by
  set Y := yesLabels rows rs q with hY
  set N := noLabels rows rs q with hN
  have hcount : (N.length : ℝ) + Y.length = rs.length := by
    have h1 := filter_sum (fun e : List (Ext ℝ) × List ℝ => satisfies q e.1) (fun _ => (1 : ℝ)) (rows.zip rs)
    simp only [List.map_const', List.sum_replicate, nsmul_eq_mul, mul_one] at h1
    rw [List.length_zip, hlen, Nat.min_self] at h1
    rw [hN, hY, noLabels, yesLabels, List.length_map, List.length_map]
    exact h1
  have hsum : ∀ j < t, (target N j).sum = -(target Y j).sum := by
    intro j hj
    have h1 := filter_sum (fun e : List (Ext ℝ) × List ℝ => satisfies q e.1) (fun e => e.2.getD j 0) (rows.zip rs)
    rw [← col_zip hlen, hu j hj] at h1
    have h2 : (target N j).sum = (((rows.zip rs).filter (fun e => !satisfies q e.1)).map (fun e => e.2.getD j 0)).sum := by
      rw [hN, noLabels, target, List.map_map]; rfl
    have h3 : (target Y j).sum = (((rows.zip rs).filter (fun e => satisfies q e.1)).map (fun e => e.2.getD j 0)).sum := by
      rw [hY, yesLabels, target, List.map_map]; rfl
    rw [h2, h3]
    linarith
  have hsq : ∀ j, colSq N j + colSq Y j = colSq rs j := by
    intro j
    have h1 := filter_sum (fun e : List (Ext ℝ) × List ℝ => satisfies q e.1) (fun e => (e.2.getD j 0) ^ 2) (rows.zip rs)
    have h2 : colSq N j = (((rows.zip rs).filter (fun e => !satisfies q e.1)).map (fun e => (e.2.getD j 0) ^ 2)).sum := by
      rw [hN, noLabels, colSq_eq, List.map_map]; rfl
    have h3 : colSq Y j = (((rows.zip rs).filter (fun e => satisfies q e.1)).map (fun e => (e.2.getD j 0) ^ 2)).sum := by
      rw [hY, yesLabels, colSq_eq, List.map_map]; rfl
    have h4 : colSq rs j = ((rows.zip rs).map (fun e => (e.2.getD j 0) ^ 2)).sum := by
      rw [colSq_eq]
      conv_lhs => rw [← List.map_snd_zip (l₁ := rows) (l₂ := rs) (by omega)]
      rw [List.map_map]; rfl
    rw [h2, h3, h4]
    exact h1
  rcases eq_or_ne (rs.length : ℝ) 0 with h0 | h0
  · have h1 : (Y.length : ℝ) = 0 := by
      have := Nat.cast_nonneg (α := ℝ) N.length
      have := Nat.cast_nonneg (α := ℝ) Y.length
      linarith
    have h2 : Y = [] := by
      rw [Nat.cast_eq_zero] at h1
      exact List.length_eq_zero_iff.mp h1
    rw [h2]
    simp only [target, List.map_nil, List.sum_nil, abs_zero]
    positivity
  have h1 : (rs.length : ℝ) * varianceReduction t rows rs q =
      ((List.range t).map (fun j => (target Y j).sum ^ 2 / N.length + (target Y j).sum ^ 2 / Y.length)).sum := by
    rw [varianceReduction, ← hY, ← hN, hcount, mul_sub, mul_div_cancel₀ _ h0, length_totalVar, length_totalVar, length_totalVar,
      ← List.sum_map_add, sub_eq_iff_eq_add, ← List.sum_map_add]
    congr 1
    apply List.map_congr_left
    intro j hj
    rw [hu j (List.mem_range.mp hj), hsum j (List.mem_range.mp hj), ← hsq j]
    ring
  have h2 : (target Y j).sum ^ 2 / N.length + (target Y j).sum ^ 2 / Y.length ≤ a ^ 2 := by
    refine le_trans ?_ hv
    rw [h1]
    refine List.single_le_sum ?_ _ (List.mem_map.mpr ⟨j, List.mem_range.mpr hj, rfl⟩)
    intro x hx
    obtain ⟨j, _, rfl⟩ := List.mem_map.mp hx
    positivity
  have h3 : (target Y j).sum ^ 2 / Y.length ≤ a ^ 2 := by
    have : 0 ≤ (target Y j).sum ^ 2 / N.length := by positivity
    linarith
  have hle : (Y.length : ℝ) ≤ rs.length := by
    have := Nat.cast_nonneg (α := ℝ) N.length
    linarith
  rw [hlen]
  rcases eq_or_ne Y [] with hY0 | hY0
  · rw [hY0]
    simp only [target, List.map_nil, List.sum_nil, abs_zero]
    positivity
  · have hp : (0 : ℝ) < Y.length := by exact_mod_cast List.length_pos_of_ne_nil hY0
    have h1' : (1 : ℝ) ≤ rs.length := by
      have : 1 ≤ Y.length := List.length_pos_of_ne_nil hY0
      have : (1 : ℝ) ≤ Y.length := by exact_mod_cast this
      linarith
    rw [div_le_iff₀ hp] at h3
    apply abs_le_of_sq_le_sq
    · rw [mul_pow]
      have h4 : (rs.length : ℝ) ≤ (rs.length : ℝ) ^ 2 := by nlinarith
      have h5 : a ^ 2 * Y.length ≤ a ^ 2 * (rs.length : ℝ) ^ 2 := mul_le_mul_of_nonneg_left (hle.trans h4) (sq_nonneg a)
      linarith
    · positivity

open Classical in
/-- one question -/
theorem Bd.question {q : Question (Ext ℝ)} (hq : q.column < c) (w : Nat → ℝ) :
    Bd c t rows (rows.length * ((List.range t).map (fun j => |w j|)).sum) (fun row j => if satisfies q row then w j else 0) := by
  intro rs h1 h2 a h3 h4
  have key : ∀ j, ((rows.zip rs).map (fun e => e.2.getD j 0 * (if satisfies q e.1 then w j else 0))).sum =
      (target (yesLabels rows rs q) j).sum * w j := by
    intro j
    rw [yesLabels, target, List.map_map, ← List.sum_map_mul_right]
    generalize rows.zip rs = l
    induction l with
    | nil => simp
    | cons e l ih => cases h : satisfies q e.1 <;> simp [h] at ih ⊢ <;> exact ih
  rw [ipr_swap]
  have h5 : ∀ l : List Nat, (∀ j ∈ l, j < t) → |(l.map (fun j => ((rows.zip rs).map (fun e => e.2.getD j 0 * (if satisfies q e.1 then w j else 0))).sum)).sum| ≤
      rows.length * (l.map (fun j => |w j|)).sum * a := by
    intro l hl
    induction l with
    | nil => simp
    | cons j l ih =>
      rw [List.map_cons, List.sum_cons, List.map_cons, List.sum_cons]
      refine (abs_add_le _ _).trans ?_
      have h6 := ih (fun x hx => hl x (by simp [hx]))
      have h7 := mul_le_mul_of_nonneg_right (yes_sum h1 h2 h3 (h4 q hq) (hl j (by simp))) (abs_nonneg (w j))
      rw [key, abs_mul]
      linarith
  exact h5 _ (fun j hj => List.mem_range.mp hj)

/-! ## functions of one feature -/

/-- some bound -/
def Bdd (c t : Nat) (rows : List (List (Ext ℝ))) (G : List (Ext ℝ) → Nat → ℝ) : Prop := ∃ A, 0 ≤ A ∧ Bd c t rows A G

theorem Bdd.add (hG : Bdd c t rows G) (hH : Bdd c t rows H) : Bdd c t rows (fun row j => G row j + H row j) := by
  obtain ⟨A, a, hA⟩ := hG
  obtain ⟨B, b, hB⟩ := hH
  exact ⟨A + B, add_nonneg a b, hA.add hB⟩

theorem Bdd.smul (hG : Bdd c t rows G) (x : ℝ) : Bdd c t rows (fun row j => x * G row j) := by
  obtain ⟨A, a, hA⟩ := hG
  exact ⟨_, mul_nonneg (abs_nonneg x) a, hA.smul x⟩

theorem Bdd.congr (hG : Bdd c t rows G) (h : ∀ row ∈ rows, ∀ j < t, H row j = G row j) : Bdd c t rows H := by
  obtain ⟨A, a, hA⟩ := hG
  exact ⟨A, a, hA.congr h⟩

theorem Bdd.const (w : Nat → ℝ) : Bdd c t rows (fun _ j => w j) := ⟨0, le_rfl, Bd.const w⟩

open Classical in
theorem Bdd.question {q : Question (Ext ℝ)} (hq : q.column < c) (w : Nat → ℝ) :
    Bdd c t rows (fun row j => if satisfies q row then w j else 0) := by
  refine ⟨_, ?_, Bd.question hq w⟩
  refine mul_nonneg (Nat.cast_nonneg _) (List.sum_nonneg ?_)
  intro x hx
  obtain ⟨j, _, rfl⟩ := List.mem_map.mp hx
  exact abs_nonneg _

theorem ext_antisymm {x y : Ext ℝ} (h1 : (x <=. y) = true) (h2 : (y <=. x) = true) : x = y := by
  cases x <;> cases y <;> first | rfl | (exfalso; revert h1 h2; simp [F64.le, Ext.le]; done) | skip
  rename_i a b
  simp at h1 h2
  rw [_root_.le_antisymm h1 h2]

/-- the smallest value of a list with a property -/
theorem smallest (P : Ext ℝ → Prop) (l : List (Ext ℝ)) (hn : ∀ x ∈ l, isNaN x = false) :
    (∀ x ∈ l, ¬ P x) ∨ ∃ v ∈ l, P v ∧ ∀ x ∈ l, P x → (v <=. x) = true := by
  have self : ∀ x : Ext ℝ, isNaN x = false → (x ==. x) = true := by
    intro x hx
    simpa [isNaN] using hx
  induction l with
  | nil => left; simp
  | cons y l ih =>
    have hy := self y (hn y (by simp))
    by_cases hP : P y
    · right
      rcases ih (fun x hx => hn x (by simp [hx])) with h | ⟨v, hv, hPv, hmin⟩
      · refine ⟨y, by simp, hP, ?_⟩
        intro x hx hPx
        rcases List.mem_cons.mp hx with rfl | hx
        · exact (LawfulOrder.eq_iff.mp hy).1
        · exact absurd hPx (h x hx)
      · have hv' := self v (hn v (by simp [hv]))
        rcases LawfulOrder.le_total hy hv' with hle | hle
        · refine ⟨y, by simp, hP, ?_⟩
          intro x hx hPx
          rcases List.mem_cons.mp hx with rfl | hx
          · exact (LawfulOrder.eq_iff.mp hy).1
          · exact LawfulOrder.le_trans hle (hmin x hx hPx)
        · refine ⟨v, by simp [hv], hPv, ?_⟩
          intro x hx hPx
          rcases List.mem_cons.mp hx with rfl | hx
          · exact hle
          · exact hmin x hx hPx
    · rcases ih (fun x hx => hn x (by simp [hx])) with h | ⟨v, hv, hPv, hmin⟩
      · left
        intro x hx
        rcases List.mem_cons.mp hx with rfl | hx
        · exact hP
        · exact h x hx
      · right
        refine ⟨v, by simp [hv], hPv, ?_⟩
        intro x hx hPx
        rcases List.mem_cons.mp hx with rfl | hx
        · exact absurd hPx hP
        · exact hmin x hx hPx

section
variable (hlen : ∀ row ∈ rows, row.length = c) (hnan : ∀ row ∈ rows, ∀ x ∈ row, isNaN x = false) {p : Nat} (hp : p < c)
include hlen hnan hp

theorem feature_mem {row : List (Ext ℝ)} (hr : row ∈ rows) : row[p]? = some (row.getD p F64.zero) ∧ isNaN (row.getD p F64.zero) = false := by
  have h1 : p < row.length := by rw [hlen row hr]; exact hp
  have h2 : row.getD p F64.zero = row[p] := by simp [h1]
  rw [h2, List.getElem?_eq_getElem h1]
  exact ⟨rfl, hnan row hr _ (List.getElem_mem h1)⟩

open Classical in
/-- the indicator of one value of a feature -/
theorem Bdd.value (v : Ext ℝ) (hv : isNaN v = false) (w : Nat → ℝ) :
    Bdd c t rows (fun row j => if row.getD p F64.zero = v then w j else 0) := by
  have hsat : ∀ u : Ext ℝ, ∀ row ∈ rows, satisfies { column := p, value := u } row = (u <=. row.getD p F64.zero) := by
    intro u row hr
    rw [satisfies]
    simp only [(feature_mem hlen hnan hp hr).1]
  have self : ∀ x : Ext ℝ, isNaN x = false → (x <=. x) = true := by
    intro x hx
    have : (x ==. x) = true := by simpa [isNaN] using hx
    exact (LawfulOrder.eq_iff.mp this).1
  have hge := Bdd.question (rows := rows) (t := t) (q := { column := p, value := v }) hp w
  rcases smallest (fun x => (v <. x) = true) (rows.map (fun row => row.getD p F64.zero)) (by
    intro x hx
    obtain ⟨row, hr, rfl⟩ := List.mem_map.mp hx
    exact (feature_mem hlen hnan hp hr).2) with hno | ⟨u, hu, hvu, hmin⟩
  · refine hge.congr ?_
    intro row hr j _
    rw [hsat v row hr]
    congr 1
    rw [eq_iff_iff]
    constructor
    · intro h
      rw [h]
      exact self v hv
    · intro h
      have h1 := hno _ (List.mem_map_of_mem hr)
      rw [LawfulOrder.lt_iff] at h1
      push Not at h1
      have h2 := h1 h
      rw [ne_eq, Bool.not_eq_false] at h2
      exact ext_antisymm h2 h
  · have hgt := Bdd.question (rows := rows) (t := t) (q := { column := p, value := u }) hp w
    refine (hge.add (hgt.smul (-1))).congr ?_
    intro row hr j _
    rw [hsat v row hr, hsat u row hr]
    have hm := hmin _ (List.mem_map_of_mem hr)
    set x := row.getD p F64.zero with hx
    have hvu' := LawfulOrder.lt_iff.mp hvu
    by_cases h1 : x = v
    · rw [if_pos h1, h1, if_pos (self v hv), hvu'.2]
      simp
    · rw [if_neg h1]
      cases h2 : (v <=. x) with
      | false =>
        have h3 : (u <=. x) = false := by
          cases h3 : (u <=. x) with
          | false => rfl
          | true =>
            have := LawfulOrder.le_trans hvu'.1 h3
            rw [this] at h2
            cases h2
        rw [h3]
        simp
      | true =>
        have h4 : (v <. x) = true := by
          rw [LawfulOrder.lt_iff]
          refine ⟨h2, ?_⟩
          cases h5 : (x <=. v) with
          | false => rfl
          | true => exact absurd (ext_antisymm h5 h2) h1
        rw [hm h4]
        simp

/-- functions of one feature -/
theorem Bdd.feature (φ : Ext ℝ → Nat → ℝ) : Bdd c t rows (fun row j => φ (row.getD p F64.zero) j) := by
  classical
  have key : ∀ l : List (Ext ℝ), (∀ x ∈ l, isNaN x = false) →
      Bdd c t rows (fun row j => if row.getD p F64.zero ∈ l then φ (row.getD p F64.zero) j else 0) := by
    intro l
    induction l with
    | nil =>
      intro _
      refine (Bdd.const (fun _ => 0)).congr ?_
      intro row _ j _
      simp
    | cons v l ih =>
      intro hl
      have h1 := ih (fun x hx => hl x (by simp [hx]))
      by_cases hv : v ∈ l
      · refine h1.congr ?_
        intro row _ j _
        congr 1
        rw [eq_iff_iff, List.mem_cons]
        constructor
        · rintro (h | h)
          · rw [h]; exact hv
          · exact h
        · exact Or.inr
      · refine (h1.add (Bdd.value hlen hnan hp v (hl v (by simp)) (φ v))).congr ?_
        intro row _ j _
        by_cases h2 : row.getD p F64.zero = v
        · rw [h2]
          simp [hv]
        · simp only [List.mem_cons, h2, false_or, if_false, add_zero]
  refine (key (rows.map (fun row => row.getD p F64.zero)) ?_).congr ?_
  · intro x hx
    obtain ⟨row, hr, rfl⟩ := List.mem_map.mp hx
    exact (feature_mem hlen hnan hp hr).2
  · intro row hr j _
    rw [if_pos (List.mem_map_of_mem hr)]

end

/-- sums of functions of the features -/
theorem Bdd.additive (hlen : ∀ row ∈ rows, row.length = c) (hnan : ∀ row ∈ rows, ∀ x ∈ row, isNaN x = false) (φ : Nat → Ext ℝ → Nat → ℝ) :
    Bdd c t rows (fun row j => ((List.range c).map (fun p => φ p (row.getD p F64.zero) j)).sum) := by
  have key : ∀ l : List Nat, (∀ p ∈ l, p < c) → Bdd c t rows (fun row j => (l.map (fun p => φ p (row.getD p F64.zero) j)).sum) := by
    intro l
    induction l with
    | nil =>
      intro _
      exact (Bdd.const (fun _ => 0)).congr (by intro row _ j _; rfl)
    | cons p l ih =>
      intro hl
      exact ((Bdd.feature hlen hnan (hl p (by simp)) (φ p)).add (ih (fun x hx => hl x (by simp [hx])))).congr (by
        intro row _ j _
        rw [List.map_cons, List.sum_cons])
  exact key _ (fun p hp => List.mem_range.mp hp)

end Verif
