import Verif.Lemmas.Split
import Verif.Num.ExtLaws
import Verif.Spec.Exact
import Mathlib.Algebra.BigOperators.Ring.List
import Mathlib.Algebra.Order.BigOperators.Group.List
import Mathlib.Tactic.FieldSimp
import Mathlib.Tactic.Ring
/-!
# Exact arithmetic: sums, means, variances
-/

set_option linter.unusedSectionVars false
set_option linter.unusedSimpArgs false

namespace Verif

section field
variable {K : Type} [Field K]

/-! ## finite vectors -/

/-- the number behind a finite value -/
def val : Ext K → K
  | .fin x => x
  | _ => 0

@[simp] theorem val_fin (x : K) : val (.fin x) = x := rfl

/-- the numbers behind finite vectors -/
def vals (vs : List (List (Ext K))) : List (List K) := vs.map (fun v => v.map val)

theorem liftV_length (v : List K) : (liftV v).length = v.length := by simp [liftV]
theorem lift_length (vs : List (List K)) : (lift vs).length = vs.length := by simp [lift]

@[simp] theorem vals_lift (vs : List (List K)) : vals (lift vs) = vs := by
  have : ∀ v : List K, (liftV v).map val = v := by
    intro v
    rw [liftV, List.map_map]
    conv_rhs => rw [← List.map_id v]
    rfl
  rw [vals, lift, List.map_map]
  conv_rhs => rw [← List.map_id vs]
  exact List.map_congr_left (fun v _ => this v)

theorem lift_vals {labels : List (List (Ext K))} (h : ∀ l ∈ labels, ∃ v, l = liftV v) : lift (vals labels) = labels := by
  rw [lift, vals, List.map_map]
  conv_rhs => rw [← List.map_id labels]
  apply List.map_congr_left
  intro l hl
  obtain ⟨v, rfl⟩ := h l hl
  simp [liftV, Function.comp_def]

theorem mem_lift {l : List (Ext K)} {vs : List (List K)} : l ∈ lift vs ↔ ∃ v ∈ vs, liftV v = l := by
  simp [lift]

theorem lift_finite {vs : List (List K)} : ∀ l ∈ lift vs, ∃ v, l = liftV v := by
  intro l hl
  obtain ⟨v, _, rfl⟩ := mem_lift.mp hl
  exact ⟨v, rfl⟩

theorem exists_lift {labels : List (List (Ext K))} (h : ∀ l ∈ labels, ∃ v, l = liftV v) : ∃ vs, labels = lift vs :=
  ⟨_, (lift_vals h).symm⟩

theorem liftV_injective {v w : List K} (h : liftV v = liftV w) : v = w := by
  have := congrArg (List.map val) h
  simpa [liftV, Function.comp_def] using this

theorem lift_injective {v w : List (List K)} (h : lift v = lift w) : v = w := by
  have := congrArg vals h
  simpa using this

/-! ## sums and variances -/

theorem target_length (vs : List (List K)) (j : Nat) : (target vs j).length = vs.length := by simp [target]

theorem target_append (vs ws : List (List K)) (j : Nat) : target (vs ++ ws) j = target vs j ++ target ws j := by simp [target]

theorem sqDev_eq (a : K) (xs : List K) :
    sqDev a xs = (xs.map (fun x => x ^ 2)).sum - 2 * a * xs.sum + xs.length * a ^ 2 := by
  induction xs with
  | nil => simp [sqDev]
  | cons x xs ih =>
    simp only [sqDev, List.map_cons, List.sum_cons, List.length_cons] at ih ⊢
    rw [ih]; push_cast; ring

/-- per-target sums -/
def sumsOf (t : Nat) (vs : List (List K)) : List K := (List.range t).map (fun j => (target vs j).sum)
/-- per-target sums of squares -/
def sqsOf (t : Nat) (vs : List (List K)) : List K := (List.range t).map (fun j => ((target vs j).map (fun x => x ^ 2)).sum)

theorem zipWith_range {α β γ : Type} {t : Nat} {f : Nat → α} {g : α → β → γ} {w : List β} (hw : w.length = t) (d : β) :
    List.zipWith g ((List.range t).map f) w = (List.range t).map (fun j => g (f j) (w.getD j d)) := by
  apply List.ext_getElem (by simp [hw])
  intro i h1 h2
  simp at h1
  simp [h1.2]

theorem zipWith_range_range {α β γ : Type} {t : Nat} {f : Nat → α} {f' : Nat → β} {g : α → β → γ} :
    List.zipWith g ((List.range t).map f) ((List.range t).map f') = (List.range t).map (fun j => g (f j) (f' j)) := by
  apply List.ext_getElem (by simp)
  intro i h1 h2
  simp

theorem liftV_range {t : Nat} {f : Nat → K} : liftV ((List.range t).map f) = (List.range t).map (fun j => Ext.fin (f j)) := by
  simp [liftV, Function.comp_def]

theorem liftV_getD (v : List K) (j : Nat) : (liftV v).getD j (.fin 0) = .fin (v.getD j 0) := by
  simp only [liftV, List.getD, List.getElem?_map]
  cases v[j]? <;> rfl

end field

section ordered
variable {K : Type} [Field K] [LinearOrder K] [IsStrictOrderedRing K] [FloorSemiring K] [HasExp K]

theorem fsum_liftV (v : List K) : fsum (liftV v) = .fin v.sum := by
  have : ∀ (v : List K) (a : K), (liftV v).foldl F64.add (Ext.fin a) = .fin (a + v.sum) := by
    intro v
    induction v with
    | nil => intro a; simp [liftV]
    | cons x xs ih =>
      intro a
      have := ih (a + x)
      simp only [liftV, List.map_cons, List.foldl_cons, Ext.fin_add, List.sum_cons] at this ⊢
      rw [this]; congr 1; ring
  have := this v 0
  simpa [fsum] using this

/-- the exact content of a tracker for the labels `vs` -/
def trk (t : Nat) (vs : List (List K)) : Tracker (Ext K) :=
  { numberOfLabels := .fin vs.length
    metrics :=
      { sumOfLabels := liftV (sumsOf t vs)
        sumOfSquaredLabels := liftV (sqsOf t vs)
        meanOfLabels := liftV ((sumsOf t vs).map (fun s => s / vs.length)) } }

theorem leftStart_exact (t : Nat) : (leftStart t : Tracker (Ext K)) = trk t [] := by
  simp [leftStart, trk, sumsOf, sqsOf, target, liftV, List.replicate_succ]

theorem sums_add {t : Nat} {vs : List (List K)} {v : List K} (hv : v.length = t) :
    List.zipWith F64.add (liftV (sumsOf t vs)) (liftV v) = liftV (sumsOf t (vs ++ [v])) := by
  rw [sumsOf, liftV_range, zipWith_range (by rw [liftV_length, hv]) (.fin 0), sumsOf, liftV_range]
  apply List.map_congr_left
  intro j _
  rw [liftV_getD, target_append]
  simp [target]

theorem sqs_add {t : Nat} {vs : List (List K)} {v : List K} (hv : v.length = t) :
    List.zipWith (fun q x => q +. x *. x) (liftV (sqsOf t vs)) (liftV v) = liftV (sqsOf t (vs ++ [v])) := by
  rw [sqsOf, liftV_range, zipWith_range (by rw [liftV_length, hv]) (.fin 0), sqsOf, liftV_range]
  apply List.map_congr_left
  intro j _
  rw [liftV_getD, target_append]
  simp [target, pow_two]

theorem sums_sub {t : Nat} {vs : List (List K)} {v : List K} (hv : v.length = t) :
    List.zipWith F64.sub (liftV (sumsOf t (v :: vs))) (liftV v) = liftV (sumsOf t vs) := by
  rw [sumsOf, liftV_range, zipWith_range (by rw [liftV_length, hv]) (.fin 0), sumsOf, liftV_range]
  apply List.map_congr_left
  intro j _
  rw [liftV_getD]
  simp [target]

theorem sqs_sub {t : Nat} {vs : List (List K)} {v : List K} (hv : v.length = t) :
    List.zipWith (fun q x => q -. x *. x) (liftV (sqsOf t (v :: vs))) (liftV v) = liftV (sqsOf t vs) := by
  rw [sqsOf, liftV_range, zipWith_range (by rw [liftV_length, hv]) (.fin 0), sqsOf, liftV_range]
  apply List.map_congr_left
  intro j _
  rw [liftV_getD]
  simp [target, pow_two]

theorem map_div_liftV {v : List K} {n : K} (hn : n ≠ 0) :
    (liftV v).map (fun s => s /. Ext.fin n) = liftV (v.map (fun s => s / n)) := by
  simp only [liftV, List.map_map]
  apply List.map_congr_left
  intro x _
  simp [Ext.fin_div _ _ hn]

theorem updLeft_exact {t : Nat} {vs : List (List K)} {v : List K} (hv : v.length = t) :
    updLeft (trk t vs) (liftV v) = trk t (vs ++ [v]) := by
  have hn : ((vs.length : K) + 1) ≠ 0 := by positivity
  simp only [updLeft, trk, updMetrics, Ext.one_def, Ext.fin_add, sums_add hv, sqs_add hv, map_div_liftV hn,
    List.length_append, List.length_singleton]
  push_cast
  rfl

theorem updRight_exact {t : Nat} {vs : List (List K)} {v : List K} (hv : v.length = t) (hne : vs ≠ []) :
    updRight (trk t (v :: vs)) (liftV v) = trk t vs := by
  have hn : (vs.length : K) ≠ 0 := by
    have := List.length_pos_of_ne_nil hne
    exact_mod_cast this.ne'
  have h1 : ((v :: vs).length : K) - 1 = vs.length := by simp
  simp only [updRight, trk, updMetrics, Ext.one_def, Ext.fin_sub, h1, sums_sub hv, sqs_sub hv, map_div_liftV hn]

theorem metricsOf_exact {t : Nat} {vs : List (List K)} (hv : ∀ v ∈ vs, v.length = t) (hne : vs ≠ []) :
    metricsOf (lift vs) t = (trk t vs).metrics := by
  have hs : ∀ (ws : List (List K)), (∀ v ∈ ws, v.length = t) →
      sumVecs (lift ws) t = (liftV (sumsOf t ws), liftV (sqsOf t ws)) := by
    intro ws
    induction ws using List.reverseRecOn with
    | nil =>
      intro _
      simp only [sumVecs, lift, List.map_nil, List.foldl_nil, sumsOf, sqsOf, target, List.sum_nil, liftV_range, Ext.zero_def,
        List.map_const', List.length_range, List.map_nil]
      simp [liftV]
    | append_singleton ws w ih =>
      intro h
      have := ih (fun v hv => h v (by simp [hv]))
      simp only [sumVecs, lift] at this ⊢
      rw [List.map_append, List.foldl_append, this]
      simp only [List.map_cons, List.map_nil, List.foldl_cons, List.foldl_nil]
      rw [sums_add (h w (by simp)), sqs_add (h w (by simp))]
  have hn : (vs.length : K) ≠ 0 := by
    have := List.length_pos_of_ne_nil hne
    exact_mod_cast this.ne'
  simp only [metricsOf, hs vs hv, trk, lift_length, Ext.ofNat_def, map_div_liftV hn]

/-- per-target variances -/
def varsOf (t : Nat) (vs : List (List K)) : List K := (List.range t).map (fun j => varOf (target vs j))

theorem varVec_exact {t : Nat} {vs : List (List K)} (hne : vs ≠ []) :
    varVec (trk t vs).metrics (.fin vs.length) = liftV (varsOf t vs) := by
  have hn : (vs.length : K) ≠ 0 := by
    have := List.length_pos_of_ne_nil hne
    exact_mod_cast this.ne'
  simp only [varVec, trk, sumsOf, sqsOf, varsOf, List.map_map, liftV_range, zipWith_range_range, Function.comp_def]
  apply List.map_congr_left
  intro j _
  simp only [calculateVariance, Ext.fin_mul, Ext.fin_sub, Ext.fin_div _ _ hn, varOf, target_length, sqDev_eq, meanOf]
  congr 1
  field_simp
  ring

theorem totalVariance_exact {t : Nat} {vs : List (List K)} (hv : ∀ v ∈ vs, v.length = t) (hne : vs ≠ []) :
    totalVariance (lift vs) t = .fin (totalVar t vs) := by
  rw [totalVariance, metricsOf_exact hv hne, lift_length, Ext.ofNat_def, varVec_exact hne, fsum_liftV]
  rfl

/-- weighted mean of the total variances of the two sides -/
def splitVar (t : Nat) (a b : List (List K)) : K :=
  (a.length * totalVar t a + b.length * totalVar t b) / (a.length + b.length)

theorem splitLoss_exact {t : Nat} {a b : List (List K)} (ha : a ≠ []) (hb : b ≠ []) :
    splitLoss (trk t a) (trk t b) = .fin (splitVar t a b) := by
  have h1 : (0 : K) < a.length := by exact_mod_cast List.length_pos_of_ne_nil ha
  have h2 : (0 : K) < b.length := by exact_mod_cast List.length_pos_of_ne_nil hb
  have h3 : (a.length : K) + b.length ≠ 0 := by positivity
  have hv : ∀ vs : List (List K), (trk t vs).numberOfLabels = .fin vs.length := fun _ => rfl
  simp only [splitLoss, hv, varVec_exact ha, varVec_exact hb, Ext.fin_add, Ext.fin_div _ _ h3]
  rw [varsOf, varsOf, liftV_range, liftV_range, zipWith_range_range]
  simp only [Ext.fin_mul, Ext.fin_add]
  rw [← liftV_range, fsum_liftV, splitVar, totalVar, totalVar, List.sum_map_add, List.sum_map_mul_left, List.sum_map_mul_left]
  congr 1
  field_simp

/-! ## basic facts about variances -/

theorem sqDev_nonneg (a : K) (xs : List K) : 0 ≤ sqDev a xs := by
  apply List.sum_nonneg
  intro x hx
  obtain ⟨y, _, rfl⟩ := List.mem_map.mp hx
  positivity

theorem varOf_nonneg (xs : List K) : 0 ≤ varOf xs := div_nonneg (sqDev_nonneg _ _) (Nat.cast_nonneg _)

theorem totalVar_nonneg (t : Nat) (vs : List (List K)) : 0 ≤ totalVar t vs := by
  apply List.sum_nonneg
  intro x hx
  obtain ⟨y, _, rfl⟩ := List.mem_map.mp hx
  exact varOf_nonneg _

theorem sqDev_append (a : K) (xs ys : List K) : sqDev a (xs ++ ys) = sqDev a xs + sqDev a ys := by
  simp [sqDev]

/-- the mean minimises the squared deviation -/
theorem sqDev_mean_le (a : K) (xs : List K) : sqDev (meanOf xs) xs ≤ sqDev a xs := by
  rcases xs.eq_nil_or_concat with rfl | ⟨_, _, rfl⟩
  · simp [sqDev]
  · rename_i ys y
    set xs := ys.concat y
    have h0 : (0 : K) < xs.length := by
      have : 0 < xs.length := by simp [xs]
      exact_mod_cast this
    rw [sqDev_eq, sqDev_eq, meanOf]
    have hid : (xs.map (fun x => x ^ 2)).sum - 2 * a * xs.sum + xs.length * a ^ 2 -
        ((xs.map (fun x => x ^ 2)).sum - 2 * (xs.sum / xs.length) * xs.sum + xs.length * (xs.sum / xs.length) ^ 2) =
        xs.length * (a - xs.sum / xs.length) ^ 2 := by
      field_simp; ring
    have : 0 ≤ (xs.length : K) * (a - xs.sum / xs.length) ^ 2 := by positivity
    linarith

theorem length_mul_varOf (xs : List K) : (xs.length : K) * varOf xs = sqDev (meanOf xs) xs := by
  rcases eq_or_ne xs [] with rfl | h
  · simp [sqDev, varOf]
  · have h0 : (xs.length : K) ≠ 0 := by
      have := List.length_pos_of_ne_nil h
      exact_mod_cast this.ne'
    rw [varOf]; field_simp

/-- splitting never increases the summed squared deviation -/
theorem varOf_append_le (xs ys : List K) :
    (xs.length : K) * varOf xs + ys.length * varOf ys ≤ (xs ++ ys).length * varOf (xs ++ ys) := by
  rw [length_mul_varOf, length_mul_varOf, length_mul_varOf, sqDev_append]
  exact add_le_add (sqDev_mean_le _ _) (sqDev_mean_le _ _)

theorem totalVar_append_le (t : Nat) (a b : List (List K)) :
    (a.length : K) * totalVar t a + b.length * totalVar t b ≤ (a ++ b).length * totalVar t (a ++ b) := by
  simp only [totalVar]
  rw [← List.sum_map_mul_left, ← List.sum_map_mul_left, ← List.sum_map_mul_left, ← List.sum_map_add]
  apply List.sum_le_sum
  intro j _
  have := varOf_append_le (target a j) (target b j)
  rw [← target_append] at this
  simpa only [target_length] using this

theorem varOf_perm {xs ys : List K} (h : xs.Perm ys) : varOf xs = varOf ys := by
  have h1 : meanOf xs = meanOf ys := by rw [meanOf, meanOf, h.sum_eq, h.length_eq]
  rw [varOf, varOf, h1, sqDev, sqDev, (h.map _).sum_eq, h.length_eq]

theorem totalVar_perm {t : Nat} {a b : List (List K)} (h : a.Perm b) : totalVar t a = totalVar t b := by
  simp only [totalVar]
  congr 1
  apply List.map_congr_left
  intro j _
  exact varOf_perm (h.map _)

theorem splitVar_perm {t : Nat} {a b a' b' : List (List K)} (h : a.Perm a') (h' : b.Perm b') :
    splitVar t a b = splitVar t a' b' := by
  rw [splitVar, splitVar, totalVar_perm h, totalVar_perm h', h.length_eq, h'.length_eq]

theorem splitVar_le {t : Nat} {a b : List (List K)} (hb : b ≠ []) : splitVar t a b ≤ totalVar t (a ++ b) := by
  have h2 : (0 : K) < b.length := by exact_mod_cast List.length_pos_of_ne_nil hb
  have h3 : (0 : K) < a.length + b.length := by
    have : (0 : K) ≤ a.length := Nat.cast_nonneg _
    linarith
  rw [splitVar, div_le_iff₀ h3]
  have := totalVar_append_le t a b
  rw [List.length_append] at this
  push_cast at this
  linarith [mul_comm (totalVar t (a ++ b)) ((a.length : K) + b.length)]

/-- the variance vanishes only if all numbers are equal -/
theorem varOf_eq_zero_iff (xs : List K) : varOf xs = 0 ↔ ∀ x ∈ xs, ∀ y ∈ xs, x = y := by
  rcases eq_or_ne xs [] with rfl | hne
  · simp [varOf, sqDev]
  have h0 : (xs.length : K) ≠ 0 := by
    have := List.length_pos_of_ne_nil hne
    exact_mod_cast this.ne'
  rw [varOf, div_eq_zero_iff, or_iff_left h0, sqDev]
  constructor
  · intro h
    have hall : ∀ x ∈ xs, x = meanOf xs := by
      intro x hx
      have := (List.all_zero_of_le_zero_le_of_sum_eq_zero (l := xs.map (fun x => (x - meanOf xs) ^ 2)) (by
        intro y hy
        obtain ⟨z, _, rfl⟩ := List.mem_map.mp hy
        positivity) h) (List.mem_map.mpr ⟨x, hx, rfl⟩)
      have := pow_eq_zero_iff (two_ne_zero) |>.mp this
      linarith
    intro x hx y hy
    rw [hall x hx, hall y hy]
  · intro h
    obtain ⟨a, ha⟩ := List.exists_mem_of_ne_nil xs hne
    have hrep : xs = List.replicate xs.length a := List.eq_replicate_iff.mpr ⟨rfl, fun x hx => h x hx a ha⟩
    have hm : meanOf xs = a := by
      rw [meanOf]
      have : xs.sum = xs.length * a := by
        conv_lhs => rw [hrep]
        simp
      rw [this]; field_simp
    rw [hm, List.sum_eq_zero]
    intro y hy
    obtain ⟨z, hz, rfl⟩ := List.mem_map.mp hy
    rw [h z hz a ha]; simp

end ordered

end Verif
