import Verif.Lemmas.Near
import Verif.Lemmas.ExactSplit
/-!
# Rounding errors of the split search
-/

set_option linter.unusedSectionVars false

namespace Verif

open B64

variable [B64Env]

theorem acc_add {x y : B64} {s a X w : ℚ} {k : ℕ} (hw : w = u * X) (hk : (k : ℚ) * u ≤ 1 / 64) (ht : 4 * tiny ≤ w) (hb : 3 * X ≤ big)
    (hx : Near x s (4 * k * w)) (hy : Near y a (2 * w)) (hs : |s + a| ≤ X) : Near (x +. y) (s + a) (4 * ((k + 1 : ℕ) : ℚ) * w) := by
  have h0 : 0 ≤ X := (abs_nonneg _).trans hs
  have hw0 : 0 ≤ w := by rw [hw]; exact mul_nonneg u_pos.le h0
  have hkw : (k : ℚ) * w ≤ 1 / 64 * X := by
    rw [hw, ← mul_assoc]; exact mul_le_mul_of_nonneg_right hk h0
  have huw : w ≤ 1 / 1024 * X := by rw [hw]; exact mul_le_mul_of_nonneg_right u_le h0
  have hukw : u * (k * w) ≤ 1 / 64 * w := by
    rw [← mul_assoc, mul_comm u]; exact mul_le_mul_of_nonneg_right hk hw0
  have huw2 : u * w ≤ 1 / 1024 * w := mul_le_mul_of_nonneg_right u_le hw0
  refine (hx.add hy (by linarith)).weaken ?_
  have h1 : u * |s + a| ≤ w := by rw [hw]; exact mul_le_mul_of_nonneg_left hs u_pos.le
  push_cast
  nlinarith

theorem acc_sub {x y : B64} {s a X w : ℚ} {k : ℕ} (hw : w = u * X) (hk : (k : ℚ) * u ≤ 1 / 64) (ht : 4 * tiny ≤ w) (hb : 3 * X ≤ big)
    (hx : Near x s (4 * k * w)) (hy : Near y a (2 * w)) (hs : |s - a| ≤ X) : Near (x -. y) (s - a) (4 * ((k + 1 : ℕ) : ℚ) * w) := by
  have h0 : 0 ≤ X := (abs_nonneg _).trans hs
  have hw0 : 0 ≤ w := by rw [hw]; exact mul_nonneg u_pos.le h0
  have hkw : (k : ℚ) * w ≤ 1 / 64 * X := by
    rw [hw, ← mul_assoc]; exact mul_le_mul_of_nonneg_right hk h0
  have huw : w ≤ 1 / 1024 * X := by rw [hw]; exact mul_le_mul_of_nonneg_right u_le h0
  have hukw : u * (k * w) ≤ 1 / 64 * w := by
    rw [← mul_assoc, mul_comm u]; exact mul_le_mul_of_nonneg_right hk hw0
  have huw2 : u * w ≤ 1 / 1024 * w := mul_le_mul_of_nonneg_right u_le hw0
  refine (hx.sub hy (by linarith)).weaken ?_
  have h1 : u * |s - a| ≤ w := by rw [hw]; exact mul_le_mul_of_nonneg_left hs u_pos.le
  push_cast
  nlinarith

theorem zero_val : (F64.zero : B64).val = .fin 0 := by
  have := roundE_nat (n := 0) (by norm_num)
  exact_mod_cast this

theorem one_val : (F64.one : B64).val = .fin 1 := by
  have := roundE_nat (n := 1) (by norm_num)
  exact_mod_cast this

/-! ## trackers -/

theorem AtMost.get {B : ℚ} (hB : 0 ≤ B) {vs : List (List ℚ)} (h : AtMost B vs) {v : List ℚ} (hv : v ∈ vs) (j : ℕ) : |v.getD j 0| ≤ B := by
  by_cases hj : j < v.length
  · rw [getD_of_lt hj]; exact h v hv _ (List.getElem_mem hj)
  · simp [List.getD, show v.length ≤ j by omega, hB]

theorem abs_sum_le {B : ℚ} {xs : List ℚ} (h : ∀ x ∈ xs, |x| ≤ B) : |xs.sum| ≤ xs.length * B := by
  induction xs with
  | nil => simp
  | cons x xs ih =>
    have h1 := h x (by simp)
    have h2 := ih (fun y hy => h y (by simp [hy]))
    have h3 := abs_add_le x xs.sum
    simp only [List.sum_cons, List.length_cons]
    push_cast
    linarith

theorem AtMost.target {B : ℚ} (hB : 0 ≤ B) {vs : List (List ℚ)} (h : AtMost B vs) (j : ℕ) : ∀ x ∈ target vs j, |x| ≤ B := by
  intro x hx
  obtain ⟨v, hv, rfl⟩ := List.mem_map.mp hx
  exact h.get hB hv j

theorem AtMost.sum {B : ℚ} (hB : 0 ≤ B) {vs : List (List ℚ)} (h : AtMost B vs) (j : ℕ) :
    |(Verif.target vs j).sum| ≤ vs.length * B := by
  have := abs_sum_le (h.target hB j)
  rwa [target_length] at this

theorem abs_sq_le {B x : ℚ} (h : |x| ≤ B) : |x ^ 2| ≤ B * B := by
  rw [abs_pow, pow_two]
  exact mul_le_mul h h (abs_nonneg _) ((abs_nonneg _).trans h)

theorem AtMost.sqSum {B : ℚ} (hB : 0 ≤ B) {vs : List (List ℚ)} (h : AtMost B vs) (j : ℕ) :
    |((Verif.target vs j).map (fun x => x ^ 2)).sum| ≤ vs.length * (B * B) := by
  have := abs_sum_le (B := B * B) (xs := (Verif.target vs j).map (fun x => x ^ 2)) (by
    intro x hx
    obtain ⟨y, hy, rfl⟩ := List.mem_map.mp hx
    exact abs_sq_le (h.target hB j y hy))
  rwa [List.length_map, target_length] at this

/-- The tracker holds the labels `vs`, up to the rounding errors of `k` updates. -/
structure TrkNear (t n : ℕ) (B : ℚ) (k : ℕ) (tr : Tracker B64) (vs : List (List ℚ)) : Prop where
  count : tr.numberOfLabels.val = .fin vs.length
  shape : tr.metrics.Shape t
  sums : ∀ j < t, Near (tr.metrics.sumOfLabels.getD j F64.zero) (target vs j).sum (4 * k * (u * (n * B)))
  squares : ∀ j < t, Near (tr.metrics.sumOfSquaredLabels.getD j F64.zero) ((target vs j).map (fun x => x ^ 2)).sum
    (4 * k * (u * (n * (B * B))))
  means : vs ≠ [] → tr.metrics.meanOfLabels = tr.metrics.sumOfLabels.map (fun s => s /. tr.numberOfLabels)

theorem zipWith_getD_of {α β γ : Type} {f : α → β → γ} {xs : List α} {ys : List β} {j : ℕ} {a : α} {b : β} {c : γ} (hx : j < xs.length)
    (hy : j < ys.length) : (List.zipWith f xs ys).getD j c = f (xs.getD j a) (ys.getD j b) := by
  simp [List.getD, hx, hy]

theorem valV_getD {l : List B64} {v : List ℚ} (h : l.map B64.val = liftV v) (j : ℕ) : (l.getD j F64.zero).val = .fin (v.getD j 0) := by
  have h1 := congrArg (fun x => x.getD j (.fin 0)) h
  simp only [liftV_getD] at h1
  rw [← h1]
  simp only [List.getD, List.getElem?_map]
  cases l[j]? with
  | none =>
    simp
  | some x => rfl

theorem valV_length {l : List B64} {v : List ℚ} (h : l.map B64.val = liftV v) : l.length = v.length := by
  have := congrArg List.length h
  simpa [liftV] using this

section
variable {n : ℕ} {B : ℚ} (hS : Scale n B)
include hS

theorem Scale.ops_u {k : ℕ} (hk : k ≤ 2 * n) : (k : ℚ) * u ≤ 1 / 64 := by
  have h1 : (k : ℚ) ≤ 2 * 16777216 := by
    have : (k : ℚ) ≤ 2 * n := by exact_mod_cast hk
    linarith [hS.rows_q]
  have h2 : (k : ℚ) * u ≤ 2 * 16777216 * u := mul_le_mul_of_nonneg_right h1 u_pos.le
  refine h2.trans ?_
  unfold u; norm_num

theorem Scale.acc_lin (hn : 1 ≤ n) : 4 * tiny ≤ u * (n * B) ∧ 3 * (n * B) ≤ big := by
  have h1 : (1 : ℚ) ≤ n := by exact_mod_cast hn
  have h2 := hS.tiny_lin
  have h3 := hS.lin_big
  have h4 := hS.rows_q
  have h5 := hS.pos
  have h6 := tiny_pos
  have h7 : u * B ≤ u * (n * B) := mul_le_mul_of_nonneg_left (by nlinarith) u_pos.le
  refine ⟨by norm_num at h2; linarith, ?_⟩
  have h8 := mul_le_mul_of_nonneg_right h4 h5.le
  norm_num at h3
  linarith

theorem Scale.acc_sq (hn : 1 ≤ n) : 4 * tiny ≤ u * (n * (B * B)) ∧ 3 * (n * (B * B)) ≤ big := by
  have h1 : (1 : ℚ) ≤ n := by exact_mod_cast hn
  have h2 := hS.tiny_sq
  have h3 := hS.sq_big
  have h4 := hS.rows_q
  have h5 : 0 < B * B := mul_pos hS.pos hS.pos
  have h6 := tiny_pos
  have h7 : u * (B * B) ≤ u * (n * (B * B)) := mul_le_mul_of_nonneg_left (by nlinarith) u_pos.le
  refine ⟨by norm_num at h2; linarith, ?_⟩
  have h8 := mul_le_mul_of_nonneg_right h4 h5.le
  norm_num at h3
  linarith

/-- a label and its rounded square -/
theorem label_near (hn : 1 ≤ n) {l : B64} {x : ℚ} (hl : l.val = .fin x) (hx : |x| ≤ B) :
    Near l x (2 * (u * (n * B))) ∧ Near (l *. l) (x ^ 2) (2 * (u * (n * (B * B)))) := by
  have h1 : (1 : ℚ) ≤ n := by exact_mod_cast hn
  have h5 : 0 < B * B := mul_pos hS.pos hS.pos
  have hsq := abs_sq_le hx
  obtain ⟨ha1, ha2⟩ := hS.acc_sq hn
  have hnB : B * B ≤ n * (B * B) := by nlinarith
  constructor
  · refine (Near.exact hl).weaken ?_
    have := hS.pos
    have := u_pos
    positivity
  · have := (Near.exact hl).mul (Near.exact hl) (p := 0) (by simp) (by rw [← pow_two]; linarith)
    rw [← pow_two] at this
    refine this.weaken ?_
    have h7 : u * |x ^ 2| ≤ u * (n * (B * B)) := mul_le_mul_of_nonneg_left (hsq.trans hnB) u_pos.le
    have := tiny_pos
    simp only [add_zero, zero_add]
    linarith

theorem updLeft_near {t k : ℕ} {tr : Tracker B64} {vs : List (List ℚ)} {l : List B64} {v : List ℚ} (h : TrkNear t n B k tr vs)
    (hk : k ≤ 2 * n) (hlen : vs.length < n) (hl : l.map B64.val = liftV v) (hv : v.length = t) (hB : AtMost B (vs ++ [v])) :
    TrkNear t n B (k + 1) (updLeft tr l) (vs ++ [v]) := by
  have hn : 1 ≤ n := by omega
  have hll : l.length = t := by rw [valV_length hl, hv]
  have hp := hS.pos.le
  have hle : ((vs ++ [v]).length : ℚ) ≤ n := by simp; exact_mod_cast hlen
  refine ⟨?_, updMetrics_shape h.shape hll, ?_, ?_, fun _ => rfl⟩
  · have : vs.length + 1 ≤ 2 ^ 53 := by have := hS.rows; omega
    simp only [updLeft, add_val, h.count]
    rw [one_val, Ext.fin_add]
    have := roundE_nat this
    push_cast at this ⊢
    simpa using this
  · intro j hj
    have e : (target (vs ++ [v]) j).sum = (target vs j).sum + v.getD j 0 := by simp [target]
    have hb := hB.sum hp j
    rw [e] at hb ⊢
    simp only [updLeft, updMetrics]
    rw [zipWith_getD_of (a := F64.zero) (b := F64.zero) (by rw [h.shape.sums]; exact hj) (by omega)]
    refine acc_add rfl (hS.ops_u hk) (hS.acc_lin hn).1 (hS.acc_lin hn).2 (h.sums j hj)
      (label_near hS hn (valV_getD hl j) (hB.get hp (by simp) j)).1 (hb.trans ?_)
    exact mul_le_mul_of_nonneg_right hle hp
  · intro j hj
    have e : ((target (vs ++ [v]) j).map (fun x => x ^ 2)).sum = ((target vs j).map (fun x => x ^ 2)).sum + (v.getD j 0) ^ 2 := by
      simp [target]
    have hb := hB.sqSum hp j
    rw [e] at hb ⊢
    simp only [updLeft, updMetrics]
    rw [zipWith_getD_of (a := F64.zero) (b := F64.zero) (by rw [h.shape.squares]; exact hj) (by omega)]
    refine acc_add rfl (hS.ops_u hk) (hS.acc_sq hn).1 (hS.acc_sq hn).2 (h.squares j hj)
      (label_near hS hn (valV_getD hl j) (hB.get hp (by simp) j)).2 (hb.trans ?_)
    exact mul_le_mul_of_nonneg_right hle (mul_nonneg hp hp)

theorem updRight_near {t k : ℕ} {tr : Tracker B64} {vs : List (List ℚ)} {l : List B64} {v : List ℚ} (h : TrkNear t n B k tr (v :: vs))
    (hk : k ≤ 2 * n) (hlen : vs.length < n) (hl : l.map B64.val = liftV v) (hv : v.length = t) (hB : AtMost B (v :: vs)) :
    TrkNear t n B (k + 1) (updRight tr l) vs := by
  have hn : 1 ≤ n := by omega
  have hll : l.length = t := by rw [valV_length hl, hv]
  have hp := hS.pos.le
  have hB' : AtMost B vs := fun w hw => hB w (by simp [hw])
  have hle : (vs.length : ℚ) ≤ n := by exact_mod_cast hlen.le
  refine ⟨?_, updMetrics_shape h.shape hll, ?_, ?_, fun _ => rfl⟩
  · have : vs.length ≤ 2 ^ 53 := by have := hS.rows; omega
    simp only [updRight, sub_val, h.count]
    rw [one_val, Ext.fin_sub]
    have := roundE_nat this
    simpa using this
  · intro j hj
    have e : (target vs j).sum = (target (v :: vs) j).sum - v.getD j 0 := by simp [target]
    have hb := hB'.sum hp j
    rw [e] at hb ⊢
    simp only [updRight, updMetrics]
    rw [zipWith_getD_of (a := F64.zero) (b := F64.zero) (by rw [h.shape.sums]; exact hj) (by omega)]
    refine acc_sub rfl (hS.ops_u hk) (hS.acc_lin hn).1 (hS.acc_lin hn).2 (h.sums j hj)
      (label_near hS hn (valV_getD hl j) (hB.get hp (by simp) j)).1 (hb.trans ?_)
    exact mul_le_mul_of_nonneg_right hle hp
  · intro j hj
    have e : ((target vs j).map (fun x => x ^ 2)).sum = ((target (v :: vs) j).map (fun x => x ^ 2)).sum - (v.getD j 0) ^ 2 := by
      simp [target]
    have hb := hB'.sqSum hp j
    rw [e] at hb ⊢
    simp only [updRight, updMetrics]
    rw [zipWith_getD_of (a := F64.zero) (b := F64.zero) (by rw [h.shape.squares]; exact hj) (by omega)]
    refine acc_sub rfl (hS.ops_u hk) (hS.acc_sq hn).1 (hS.acc_sq hn).2 (h.squares j hj)
      (label_near hS hn (valV_getD hl j) (hB.get hp (by simp) j)).2 (hb.trans ?_)
    exact mul_le_mul_of_nonneg_right hle (mul_nonneg hp hp)

theorem leftStart_near (t : ℕ) : TrkNear t n B 0 (leftStart t) [] := by
  refine ⟨by simp [leftStart], leftStart_shape t, ?_, ?_, fun h => absurd rfl h⟩ <;>
  · intro j hj
    have : Near (F64.zero : B64) 0 0 := Near.exact zero_val
    simpa [leftStart, hj, target] using this

theorem foldl_near {t : ℕ} : ∀ (ls : List (List ℚ)) (labels : List (List B64)) (k : ℕ) (tr : Tracker B64) (vs : List (List ℚ)),
    TrkNear t n B k tr vs → labels.map (List.map B64.val) = lift ls → (∀ v ∈ ls, v.length = t) → AtMost B (vs ++ ls) →
    vs.length + ls.length ≤ n → k + ls.length ≤ 2 * n → TrkNear t n B (k + ls.length) (labels.foldl updLeft tr) (vs ++ ls) := by
  intro ls
  induction ls with
  | nil =>
    intro labels k tr vs h hl _ _ _ _
    have : labels = [] := by simpa [lift] using hl
    subst this
    simpa using h
  | cons v ls ih =>
    intro labels k tr vs h hl hv hB h1 h2
    cases labels with
    | nil => simp [lift] at hl
    | cons l labels =>
      simp only [List.map_cons, lift, List.cons.injEq] at hl
      simp only [List.length_cons] at h1 h2
      have := ih labels (k + 1) (updLeft tr l) (vs ++ [v])
        (updLeft_near hS h (by omega) (by omega) hl.1 (hv v (by simp)) (fun w hw => hB w (by
          simp only [List.mem_append, List.mem_cons] at hw ⊢; tauto)))
        hl.2 (fun w hw => hv w (by simp [hw])) (by simpa using hB) (by simp; omega) (by omega)
      rw [List.foldl_cons]
      simpa [Nat.add_assoc, Nat.add_comm 1] using this

omit hS in
theorem sumVecs_foldl (labels : List (List B64)) (t : ℕ) :
    sumVecs labels t = ((labels.foldl updLeft (leftStart t)).metrics.sumOfLabels,
      (labels.foldl updLeft (leftStart t)).metrics.sumOfSquaredLabels) := by
  induction labels using List.reverseRecOn with
  | nil => rfl
  | append_singleton ls l ih =>
    simp only [sumVecs, List.foldl_append, List.foldl_cons, List.foldl_nil] at ih ⊢
    rw [ih]
    rfl

theorem metricsOf_near {t : ℕ} {labels : List (List B64)} {ls : List (List ℚ)} (hl : labels.map (List.map B64.val) = lift ls)
    (ht : ∀ v ∈ ls, v.length = t) (hB : AtMost B ls) (hn : ls.length ≤ n) :
    TrkNear t n B ls.length (rightStart labels.length (metricsOf labels t)) ls := by
  have h := foldl_near hS ls labels 0 _ [] (leftStart_near hS t) hl ht hB (by simpa using hn) (by omega)
  simp only [List.nil_append, Nat.zero_add] at h
  have hlen : labels.length = ls.length := by
    have := congrArg List.length hl
    simpa [lift] using this
  have hs := sumVecs_foldl labels t
  have hll : ∀ l ∈ labels, l.length = t := by
    intro l hm
    have : l.map B64.val ∈ lift ls := by rw [← hl]; exact List.mem_map_of_mem hm
    obtain ⟨v, hv, he⟩ := mem_lift.mp this
    rw [valV_length he.symm, ht v hv]
  refine ⟨?_, (getLabelMetrics_ok hll).2, ?_, ?_, fun _ => rfl⟩
  · have := roundE_nat (n := ls.length) (by have := hS.rows; omega)
    simpa [rightStart, hlen] using this
  · intro j hj
    simpa [rightStart, metricsOf, hs] using h.sums j hj
  · intro j hj
    simpa [rightStart, metricsOf, hs] using h.squares j hj

/-- the variance formula -/
theorem variance_near {s sq cnt : B64} {S Q r m : ℚ} (hm : 1 ≤ m) (hr : u ≤ r) (hrm : r * m ≤ 1 / 32) (hmn : m ≤ n)
    (hs : Near s S (8 * (r * m) * B)) (hq : Near sq Q (8 * (r * m) * (B * B))) (hc : cnt.val = .fin m)
    (hS1 : |S| ≤ m * B) (hQ1 : 0 ≤ Q - m * (S / m * (S / m))) (hQ2 : Q ≤ m * (B * B)) :
    Near (calculateVariance ((s /. cnt) *. (s /. cnt)) sq cnt) ((Q - m * (S / m * (S / m))) / m) (44 * r * (B * B)) := by
  have hB := hS.pos
  have hm0 : 0 < m := by linarith
  have hu := u_pos
  have hul := u_le
  have ht := tiny_pos
  have hr0 : 0 < r := by linarith
  have hr1 : r ≤ 1 / 32 := by nlinarith
  have htl := hS.tiny_lin
  have hts := hS.tiny_sq
  have hbl := hS.lin_big
  have hbs := hS.sq_big
  have hnq := hS.rows_q
  norm_num at htl hts hbl hbs
  have hC : 0 < B * B := mul_pos hB hB
  have hmB : m * (B * B) ≤ 16777216 * (B * B) := mul_le_mul_of_nonneg_right (by linarith) hC.le
  -- the mean
  have ha : |S| / m ≤ B := by rw [div_le_iff₀ hm0]; linarith
  have hab : |S / m| ≤ B := by rw [abs_div, abs_of_pos hm0]; exact ha
  have e1 : 8 * (r * m) * B / m = 8 * (r * B) := by field_simp
  have hrB : r * B ≤ 1 / 32 * B := mul_le_mul_of_nonneg_right hr1 hB.le
  have h1 := hs.div hc hm0 (by rw [e1]; linarith)
  rw [e1] at h1
  have h1 : Near (s /. cnt) (S / m) (10 * (r * B)) := by
    refine h1.weaken ?_
    have k1 : u * (|S| / m) ≤ r * B := mul_le_mul hr ha (by positivity) hr0.le
    have k2 : u * (8 * (r * B)) ≤ 1 / 1024 * (8 * (r * B)) := mul_le_mul_of_nonneg_right hul (by positivity)
    have k3 : u * B ≤ r * B := mul_le_mul_of_nonneg_right hr hB.le
    have k4 : 0 < r * B := mul_pos hr0 hB
    linarith
  -- its square
  have k4 : 0 < r * (B * B) := mul_pos hr0 hC
  have k5 : u * (B * B) ≤ r * (B * B) := mul_le_mul_of_nonneg_right hr hC.le
  have k6 : r * (B * B) ≤ 1 / 32 * (B * B) := mul_le_mul_of_nonneg_right hr1 hC.le
  have k7 : u * (r * (B * B)) ≤ 1 / 1024 * (r * (B * B)) := mul_le_mul_of_nonneg_right hul k4.le
  have hsq : |S / m * (S / m)| ≤ B * B := by
    rw [abs_mul]; exact mul_le_mul hab hab (abs_nonneg _) hB.le
  have h2 := h1.mul h1 (p := 24 * (r * (B * B))) (by
      have j1 : |S / m| * (10 * (r * B)) ≤ B * (10 * (r * B)) := mul_le_mul_of_nonneg_right hab (by positivity)
      have j2 : 10 * (r * B) * (|S / m| + 10 * (r * B)) ≤ 10 * (r * B) * (B + 10 * (1 / 32 * B)) :=
        mul_le_mul_of_nonneg_left (by linarith) (by positivity)
      have j3 : B * (10 * (r * B)) = 10 * (r * (B * B)) := by ring
      have j4 : 10 * (r * B) * (B + 10 * (1 / 32 * B)) = (10 + 100 / 32) * (r * (B * B)) := by ring
      linarith) (by linarith)
  have h2 : Near ((s /. cnt) *. (s /. cnt)) (S / m * (S / m)) (26 * (r * (B * B))) := by
    refine h2.weaken ?_
    have j1 : u * |S / m * (S / m)| ≤ u * (B * B) := mul_le_mul_of_nonneg_left hsq hu.le
    linarith
  -- times the count
  have k8 : r * (B * B) ≤ r * m * (B * B) := mul_le_mul_of_nonneg_right (by nlinarith) hC.le
  have k9 : r * m * (B * B) ≤ 1 / 32 * (B * B) := mul_le_mul_of_nonneg_right hrm hC.le
  have k10 : u * (m * (B * B)) ≤ r * m * (B * B) := by
    have : u * (m * (B * B)) ≤ r * (m * (B * B)) := mul_le_mul_of_nonneg_right hr (by positivity)
    linarith
  have k11 : 0 < r * m * (B * B) := by positivity
  have k12 : u * (r * m * (B * B)) ≤ 1 / 1024 * (r * m * (B * B)) := mul_le_mul_of_nonneg_right hul k11.le
  have hv3 : |m * (S / m * (S / m))| ≤ m * (B * B) := by
    rw [abs_mul, abs_of_pos hm0]; exact mul_le_mul_of_nonneg_left hsq hm0.le
  have h3 := (Near.exact hc).mul h2 (p := 26 * (r * m * (B * B))) (by
      rw [abs_of_pos hm0]
      have : m * (26 * (r * (B * B))) = 26 * (r * m * (B * B)) := by ring
      linarith) (by linarith)
  have h3 : Near (cnt *. ((s /. cnt) *. (s /. cnt))) (m * (S / m * (S / m))) (29 * (r * m * (B * B))) := by
    refine h3.weaken ?_
    have j1 : u * |m * (S / m * (S / m))| ≤ u * (m * (B * B)) := mul_le_mul_of_nonneg_left hv3 hu.le
    linarith
  -- the numerator
  have hnn : 0 ≤ m * (S / m * (S / m)) := mul_nonneg hm0.le (mul_self_nonneg _)
  have hv4 : |Q - m * (S / m * (S / m))| ≤ m * (B * B) := by rw [abs_of_nonneg hQ1]; linarith
  have h4 := hq.sub h3 (by linarith)
  have h4 : Near (sq -. cnt *. ((s /. cnt) *. (s /. cnt))) (Q - m * (S / m * (S / m))) (41 * (r * m * (B * B))) := by
    refine h4.weaken ?_
    have j1 : u * |Q - m * (S / m * (S / m))| ≤ u * (m * (B * B)) := mul_le_mul_of_nonneg_left hv4 hu.le
    linarith
  -- the quotient
  have hv5 : |Q - m * (S / m * (S / m))| / m ≤ B * B := by rw [div_le_iff₀ hm0]; linarith
  have e5 : 41 * (r * m * (B * B)) / m = 41 * (r * (B * B)) := by field_simp
  have h5 := h4.div hc hm0 (by rw [e5]; linarith)
  rw [e5] at h5
  refine h5.weaken ?_
  have j1 : u * (|Q - m * (S / m * (S / m))| / m) ≤ u * (B * B) := mul_le_mul_of_nonneg_left hv5 hu.le
  linarith

omit hS in
theorem varOf_formula {xs : List ℚ} (h : xs ≠ []) :
    varOf xs = ((xs.map (fun x => x ^ 2)).sum - xs.length * (xs.sum / xs.length * (xs.sum / xs.length))) / xs.length := by
  have h0 : (xs.length : ℚ) ≠ 0 := by
    have := List.length_pos_of_ne_nil h
    exact_mod_cast this.ne'
  rw [varOf, sqDev_eq, meanOf]
  field_simp
  ring

omit hS in
theorem varOf_le {xs : List ℚ} {B : ℚ} (h : ∀ x ∈ xs, |x| ≤ B) : varOf xs ≤ B * B := by
  rcases eq_or_ne xs [] with rfl | hne
  · simp [varOf, mul_self_nonneg]
  have h0 : (0 : ℚ) < xs.length := by exact_mod_cast List.length_pos_of_ne_nil hne
  rw [varOf_formula hne, div_le_iff₀ h0]
  have h1 := abs_sum_le (B := B * B) (xs := xs.map (fun x => x ^ 2)) (by
    intro x hx
    obtain ⟨y, hy, rfl⟩ := List.mem_map.mp hx
    exact abs_sq_le (h y hy))
  rw [List.length_map] at h1
  have h2 := le_abs_self (xs.map (fun x => x ^ 2)).sum
  have h3 : 0 ≤ (xs.length : ℚ) * (xs.sum / xs.length * (xs.sum / xs.length)) := mul_nonneg h0.le (mul_self_nonneg _)
  linarith

theorem Scale.theta : (n : ℚ) * n * u ≤ 1 / 32 := by
  have h := hS.rows_q
  have h0 : (0 : ℚ) ≤ n := Nat.cast_nonneg n
  have : (n : ℚ) * n ≤ 16777216 * 16777216 := mul_le_mul h h h0 (by norm_num)
  have := mul_le_mul_of_nonneg_right this u_pos.le
  refine this.trans ?_
  unfold u; norm_num

theorem varVec_near {t k : ℕ} {tr : Tracker B64} {vs : List (List ℚ)} (h : TrkNear t n B k tr vs) (hk : k ≤ 2 * n) (hne : vs ≠ [])
    (hlen : vs.length ≤ n) (hB : AtMost B vs) {j : ℕ} (hj : j < t) :
    Near ((varVec tr.metrics tr.numberOfLabels).getD j F64.zero) (varOf (target vs j)) (44 * (n * n * u / vs.length) * (B * B)) := by
  have hp := hS.pos
  have hm1 : (1 : ℚ) ≤ vs.length := by exact_mod_cast List.length_pos_of_ne_nil hne
  have hm0 : (0 : ℚ) < vs.length := by linarith
  have hmn : (vs.length : ℚ) ≤ n := by exact_mod_cast hlen
  have hkn : (k : ℚ) ≤ 2 * n := by exact_mod_cast hk
  have hn1 : (1 : ℚ) ≤ n := by linarith
  have hu := u_pos
  have htne : target vs j ≠ [] := by simpa [target] using hne
  have e : (varVec tr.metrics tr.numberOfLabels).getD j F64.zero =
      calculateVariance ((tr.metrics.sumOfLabels.getD j F64.zero /. tr.numberOfLabels) *.
        (tr.metrics.sumOfLabels.getD j F64.zero /. tr.numberOfLabels)) (tr.metrics.sumOfSquaredLabels.getD j F64.zero) tr.numberOfLabels := by
    rw [varVec, zipWith_getD_of (a := F64.zero) (b := F64.zero) (by rw [h.shape.means]; exact hj) (by rw [h.shape.squares]; exact hj), h.means hne]
    simp [List.getD, show j < tr.metrics.sumOfLabels.length by rw [h.shape.sums]; exact hj]
  have erm : (n : ℚ) * n * u / vs.length * vs.length = n * n * u := by field_simp
  have hv := varOf_formula htne
  rw [target_length] at hv
  have hv0 : 0 ≤ varOf (target vs j) := varOf_nonneg _
  rw [e, hv]
  have hsum := hB.sum hp.le j
  have hsq := hB.sqSum hp.le j
  refine variance_near hS hm1 ?_ (by rw [erm]; exact hS.theta) hmn ((h.sums j hj).weaken ?_) ((h.squares j hj).weaken ?_) h.count
    hsum ?_ ((le_abs_self _).trans hsq)
  · rw [le_div_iff₀ hm0]
    have : u * vs.length ≤ u * (n * n) := mul_le_mul_of_nonneg_left (by nlinarith) hu.le
    linarith
  · rw [erm]
    have : 4 * (k : ℚ) * (u * (n * B)) ≤ 4 * (2 * n) * (u * (n * B)) := mul_le_mul_of_nonneg_right (by linarith) (by positivity)
    linarith
  · rw [erm]
    have : 4 * (k : ℚ) * (u * (n * (B * B))) ≤ 4 * (2 * n) * (u * (n * (B * B))) := mul_le_mul_of_nonneg_right (by linarith) (by positivity)
    linarith
  · rw [hv] at hv0
    have := (div_nonneg_iff.mp hv0)
    rcases this with h | h
    · exact h.1
    · linarith [h.2]

/-! ## sums over the targets -/

omit hS in
theorem fsum_near {xs : List B64} {qs : List ℚ} {p C X : ℚ} (hlen : xs.length = qs.length) (hX : qs.length * C ≤ X) (hp : 0 ≤ p)
    (hpC : p ≤ C) (ht : (qs.length : ℚ) * u ≤ 1 / 16) (htiny : 8 * tiny ≤ u * X) (hb : 8 * X ≤ big)
    (h : ∀ j < qs.length, Near (xs.getD j F64.zero) (qs.getD j 0) p) (hC : ∀ q ∈ qs, |q| ≤ C) :
    Near (fsum xs) qs.sum (qs.length * (2 * p + 2 * (u * X))) := by
  have hu := u_pos
  have hul := u_le
  have hC0 : 0 ≤ C := hp.trans hpC
  have hX0 : 0 ≤ X := (mul_nonneg (Nat.cast_nonneg _) hC0).trans hX
  have huX : 0 ≤ u * X := mul_nonneg hu.le hX0
  have key : ∀ (xs : List B64) (qs' : List ℚ) (a : B64) (done : List ℚ), xs.length = qs'.length → done ++ qs' = qs →
      (∀ j < qs'.length, Near (xs.getD j F64.zero) (qs'.getD j 0) p) → Near a done.sum (done.length * (2 * p + 2 * (u * X))) →
      Near (xs.foldl F64.add a) qs.sum (qs.length * (2 * p + 2 * (u * X))) := by
    intro xs
    induction xs with
    | nil =>
      intro qs' a done hl hd _ ha
      have : qs' = [] := List.eq_nil_of_length_eq_zero (by simpa using hl.symm)
      subst this
      rw [List.append_nil] at hd
      subst hd
      exact ha
    | cons x xs ih =>
      intro qs' a done hl hd hn ha
      cases qs' with
      | nil => simp at hl
      | cons q qs' =>
        rw [List.foldl_cons]
        refine ih qs' (a +. x) (done ++ [q]) (by simpa using hl) (by simpa using hd)
          (fun j hj => by simpa using hn (j + 1) (by simp; omega)) ?_
        have hq := hn 0 (by simp)
        simp only [List.getD_cons_zero] at hq
        have hdl : done.length + 1 ≤ qs.length := by rw [← hd]; simp
        have hdq : ((done.length : ℚ) + 1) ≤ qs.length := by exact_mod_cast hdl
        have hd0 : (0 : ℚ) ≤ done.length := Nat.cast_nonneg _
        have hs : |done.sum + q| ≤ X := by
          have h1 := abs_sum_le (B := C) (xs := done ++ [q]) (by
            intro z hz
            refine hC z ?_
            rw [← hd]
            rcases List.mem_append.mp hz with hz | hz
            · exact List.mem_append_left _ hz
            · simp only [List.mem_singleton] at hz
              simp [hz])
          simp only [List.sum_append, List.sum_singleton, List.length_append, List.length_singleton] at h1
          push_cast at h1
          have : ((done.length : ℚ) + 1) * C ≤ qs.length * C := mul_le_mul_of_nonneg_right hdq hC0
          linarith
        have hpX : qs.length * p ≤ X := (mul_le_mul_of_nonneg_left hpC (Nat.cast_nonneg _)).trans hX
        have hdp : (done.length : ℚ) * p ≤ qs.length * p := mul_le_mul_of_nonneg_right (by linarith) hp
        have h1p : p ≤ qs.length * p := by nlinarith
        have hdu : (done.length : ℚ) * u ≤ 1 / 16 := (mul_le_mul_of_nonneg_right (by linarith) hu.le).trans ht
        have hduX : (done.length : ℚ) * (u * X) ≤ 1 / 16 * X := by
          rw [← mul_assoc]; exact mul_le_mul_of_nonneg_right hdu hX0
        have g1 : u * (done.length * p) ≤ 1 / 16 * p := by
          have := mul_le_mul_of_nonneg_right hdu hp
          linarith
        have g2 : u * (done.length * (u * X)) ≤ 1 / 16 * (u * X) := by
          have := mul_le_mul_of_nonneg_right hdu huX
          linarith
        have g3 : u * p ≤ 1 / 1024 * p := mul_le_mul_of_nonneg_right hul hp
        have g4 : u * |done.sum + q| ≤ u * X := mul_le_mul_of_nonneg_left hs hu.le
        have e : (done ++ [q]).sum = done.sum + q := by simp
        rw [e]
        refine (ha.add hq (by linarith)).weaken ?_
        simp only [List.length_append, List.length_singleton]
        push_cast
        linarith
  refine key xs qs _ [] hlen rfl h ?_
  have : (F64.sumStart : B64).val = .fin 0 := by
    have := roundE_nat (n := 0) (by norm_num)
    exact_mod_cast this
  simpa using Near.exact this

end

end Verif
