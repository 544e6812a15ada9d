import Verif.Lemmas.NearSplit
import Verif.Lemmas.Exact
import Verif.Spec.Mse
/-!
# Rounding errors of sums of squares

All terms are non-negative, so the errors are relative.
-/

set_option linter.unusedSectionVars false

namespace Verif

open B64

/-- a finite binary64 number that differs from `q` by at most `k` rounding units, relative to `q`, and `e` -/
def Rel (x : B64) (q k e : ℚ) : Prop := ∃ v, x.val = .fin v ∧ |v - q| ≤ k * (2 * u) * q + e

theorem Rel.weaken {x : B64} {q k k' e e' : ℚ} (h : Rel x q k e) (hq : 0 ≤ q) (hk : k ≤ k') (he : e ≤ e') : Rel x q k' e' := by
  obtain ⟨v, h1, h2⟩ := h
  refine ⟨v, h1, h2.trans ?_⟩
  have := u_pos
  have := mul_le_mul_of_nonneg_right (mul_le_mul_of_nonneg_right hk (by linarith : 0 ≤ 2 * u)) hq
  linarith

variable [B64Env]

theorem Rel.add {x y : B64} {a b k e f : ℚ} (hx : Rel x a k e) (hy : Rel y b k f) (ha : 0 ≤ a) (hb : 0 ≤ b) (hk : k * (2 * u) ≤ 1)
    (h : 2 * (a + b) + (e + f) ≤ big) : Rel (x +. y) (a + b) (k + 1) ((e + f) * (1 + u) + tiny) := by
  obtain ⟨v, hv, hve⟩ := hx
  obtain ⟨w, hw, hwf⟩ := hy
  have hu := u_pos
  have hab : 0 ≤ a + b := by linarith
  have h1 : |v + w - (a + b)| ≤ k * (2 * u) * (a + b) + (e + f) := by
    have : v + w - (a + b) = (v - a) + (w - b) := by ring
    rw [this]
    refine (abs_add_le _ _).trans ?_
    linarith
  have h2 : |v + w| ≤ (a + b) + (k * (2 * u) * (a + b) + (e + f)) := by
    have := abs_near h1
    rwa [abs_of_nonneg hab] at this
  have h3 : k * (2 * u) * (a + b) ≤ a + b := by
    have := mul_le_mul_of_nonneg_right hk hab
    linarith
  obtain ⟨z, hz, hze⟩ := add_err hv hw (by linarith)
  refine ⟨z, hz, ?_⟩
  have h4 : |z - (a + b)| ≤ |z - (v + w)| + |v + w - (a + b)| := abs_sub_le _ _ _
  have h5 : u * |v + w| ≤ u * (2 * (a + b) + (e + f)) := mul_le_mul_of_nonneg_left (by linarith) hu.le
  have : (k + 1) * (2 * u) * (a + b) + ((e + f) * (1 + u) + tiny) =
      k * (2 * u) * (a + b) + (e + f) + (u * (2 * (a + b) + (e + f)) + tiny) := by ring
  rw [this]
  linarith

theorem Rel.div {x y : B64} {a b k e : ℚ} (hx : Rel x a k e) (hy : y.val = .fin b) (hb : 0 < b) (ha : 0 ≤ a) (hk : k * (2 * u) ≤ 1)
    (h : 2 * (a / b) + e / b ≤ big) : Rel (x /. y) (a / b) (k + 1) (e / b * (1 + u) + tiny) := by
  obtain ⟨v, hv, hve⟩ := hx
  have hu := u_pos
  have hab : 0 ≤ a / b := by positivity
  have h1 : |v / b - a / b| ≤ k * (2 * u) * (a / b) + e / b := by
    rw [← sub_div, abs_div, abs_of_pos hb]
    refine (div_le_div_of_nonneg_right hve hb.le).trans (le_of_eq ?_)
    ring
  have h2 : |v / b| ≤ a / b + (k * (2 * u) * (a / b) + e / b) := by
    have := abs_near h1
    rwa [abs_of_nonneg hab] at this
  have h3 : k * (2 * u) * (a / b) ≤ a / b := by
    have := mul_le_mul_of_nonneg_right hk hab
    linarith
  obtain ⟨z, hz, hze⟩ := div_err hv hy hb.ne' (by linarith)
  refine ⟨z, hz, ?_⟩
  have h4 : |z - a / b| ≤ |z - v / b| + |v / b - a / b| := abs_sub_le _ _ _
  have h5 : u * |v / b| ≤ u * (2 * (a / b) + e / b) := mul_le_mul_of_nonneg_left (by linarith) hu.le
  have : (k + 1) * (2 * u) * (a / b) + (e / b * (1 + u) + tiny) =
      k * (2 * u) * (a / b) + e / b + (u * (2 * (a / b) + e / b) + tiny) := by ring
  rw [this]
  linarith

/-- the arithmetic behind `rel_square` -/
theorem square_core {u t B D : ℚ} (hu : 0 < u) (hul : u ≤ 1 / 1024) (ht : 0 < t) (ht1 : t ≤ 1 / 1024) (hD0 : 0 ≤ D) (hd : D ≤ 2 * B) :
    (u * D + t) * (2 * D + (u * D + t)) ≤ 2 * D ^ 2 + 2 ∧
    (1 + u) * ((u * D + t) * (2 * D + (u * D + t))) + u * D ^ 2 + t ≤ 2 * (2 * u) * D ^ 2 + 16 * t * (B + 1) := by
  have f1 : u * D ≤ 1 / 1024 * D := mul_le_mul_of_nonneg_right hul hD0
  constructor
  · have g1 : u * D + t ≤ 1 / 1024 * D + 1 / 1024 := by linarith
    have g2 : (u * D + t) * (2 * D + (u * D + t)) ≤ (1 / 1024 * D + 1 / 1024) * (2 * D + (1 / 1024 * D + 1 / 1024)) :=
      mul_le_mul g1 (by linarith) (by positivity) (by positivity)
    nlinarith [sq_nonneg (D - 1)]
  · have e7 : (1 + u) * ((u * D + t) * (2 * D + (u * D + t))) + u * D ^ 2 + t =
        (3 * u + 3 * u * u + u * u * u) * D ^ 2 + t * ((1 + u) * ((2 + 2 * u) * D + t) + 1) := by ring
    rw [e7]
    have g1 : 3 * u + 3 * u * u + u * u * u ≤ 2 * (2 * u) := by
      have g3 : u * u ≤ 1 / 1024 * u := mul_le_mul_of_nonneg_right hul hu.le
      have g4 : u * u * u ≤ 1 / 1024 * (1 / 1024 * u) := by
        rw [mul_assoc]
        exact mul_le_mul hul g3 (by positivity) (by norm_num)
      linarith
    have g2 : (1 + u) * ((2 + 2 * u) * D + t) + 1 ≤ 16 * (B + 1) := by
      have h1 : (2 + 2 * u) * D + t ≤ 3 * D + 1 := by nlinarith
      have h2 : (1 + u) * ((2 + 2 * u) * D + t) ≤ 2 * (3 * D + 1) := mul_le_mul (by linarith) h1 (by positivity) (by norm_num)
      linarith
    have g5 := mul_le_mul_of_nonneg_right g1 (sq_nonneg D)
    have g6 := mul_le_mul_of_nonneg_left g2 ht.le
    linarith

theorem tiny_le : tiny ≤ 1 / 1024 := by
  unfold tiny
  exact one_div_le_one_div_of_le (by norm_num) (by
    calc (1024 : ℚ) = 2 ^ 10 := by norm_num
      _ ≤ 2 ^ 1075 := pow_le_pow_right₀ (by norm_num) (by norm_num))

/-- the square of a difference -/
theorem rel_square {x y : B64} {p a B : ℚ} (hx : x.val = .fin p) (hy : y.val = .fin a) (hp : |p| ≤ B) (ha : |a| ≤ B)
    (hB1 : 2 * B ≤ big) (hB2 : 12 * (B * B) + 2 ≤ big) :
    Rel ((x -. y) *. (x -. y)) ((p - a) ^ 2) 2 (16 * tiny * (B + 1)) := by
  have hu := u_pos
  have hul := u_le
  have ht := tiny_pos
  have hB0 : 0 ≤ B := (abs_nonneg _).trans hp
  have hd : |p - a| ≤ 2 * B := (abs_sub _ _).trans (by linarith)
  obtain ⟨d, hdv, hde⟩ := sub_err hx hy (hd.trans hB1)
  have hsq : |(p - a) ^ 2| = |p - a| ^ 2 := by rw [abs_pow]
  have hsq' : (p - a) ^ 2 = |p - a| ^ 2 := by rw [sq_abs]
  have hD0 : 0 ≤ |p - a| := abs_nonneg _
  have hs0 : 0 ≤ u * |p - a| + tiny := add_nonneg (mul_nonneg hu.le hD0) ht.le
  have e1 : |d * d - (p - a) ^ 2| ≤ (u * |p - a| + tiny) * (2 * |p - a| + (u * |p - a| + tiny)) := by
    have : d * d - (p - a) ^ 2 = (d - (p - a)) * (2 * (p - a) + (d - (p - a))) := by ring
    rw [this, abs_mul]
    refine mul_le_mul hde ?_ (abs_nonneg _) hs0
    refine (abs_add_le _ _).trans (add_le_add ?_ hde)
    rw [abs_mul, abs_of_nonneg (by norm_num : (0 : ℚ) ≤ 2)]
  have e2 : |d * d| ≤ |p - a| ^ 2 + (u * |p - a| + tiny) * (2 * |p - a| + (u * |p - a| + tiny)) := by
    have := abs_near e1
    rwa [hsq] at this
  obtain ⟨c1, c2⟩ := square_core hu hul ht tiny_le hD0 hd
  have f2 : |p - a| ^ 2 ≤ 4 * (B * B) := by
    have := mul_le_mul hd hd hD0 (by linarith)
    rw [pow_two]; linarith
  obtain ⟨z, hz, hze⟩ := mul_err hdv hdv (e2.trans (by linarith))
  refine ⟨z, hz, ?_⟩
  have e4 : |z - (p - a) ^ 2| ≤ |z - d * d| + |d * d - (p - a) ^ 2| := abs_sub_le _ _ _
  have e5 := mul_le_mul_of_nonneg_left e2 hu.le
  rw [hsq'] at e4 e1 ⊢
  linarith

/-- summing up non-negative numbers from left to right -/
theorem rel_sum {k e : ℚ} (he : 4 * tiny ≤ e) {start : B64} (hs : start.val = .fin 0) (xs : List B64) (qs : List ℚ)
    (h : List.Forall₂ (fun x q => 0 ≤ q ∧ Rel x q k (e / 4)) xs qs) (hn : qs.length ≤ 2 ^ 24) (hk : (k + qs.length) * (2 * u) ≤ 1)
    (hb : 2 * qs.sum + (qs.length + 1) * e ≤ big) : Rel (xs.foldl F64.add start) qs.sum (k + qs.length) (qs.length * e) := by
  have hu := u_pos
  have ht := tiny_pos
  induction xs using List.reverseRecOn generalizing qs with
  | nil =>
    cases h
    exact ⟨0, hs, by simp⟩
  | append_singleton xs x ih =>
    obtain ⟨qs', q, rfl⟩ : ∃ qs' q, qs = qs' ++ [q] := by
      rcases List.eq_nil_or_concat qs with rfl | ⟨qs', q, rfl⟩
      · have := h.length_eq; simp at this
      · exact ⟨qs', q, by simp⟩
    have hl : xs.length = qs'.length := by have := h.length_eq; simpa using this
    have h1 : List.Forall₂ (fun x q => 0 ≤ q ∧ Rel x q k (e / 4)) xs qs' := by
      have := List.forall₂_take xs.length h
      rwa [List.take_left' rfl, List.take_left' hl.symm] at this
    have h2 : 0 ≤ q ∧ Rel x q k (e / 4) := by
      have := List.forall₂_drop xs.length h
      rw [List.drop_left' rfl, List.drop_left' hl.symm] at this
      cases this with
      | cons h _ => exact h
    have hq0 : 0 ≤ qs'.sum := by
      have : ∀ y ∈ qs', 0 ≤ y := by
        intro y hy
        obtain ⟨i, hi, rfl⟩ := List.getElem_of_mem hy
        rw [List.forall₂_iff_get] at h1
        exact (h1.2 i (by omega) hi).1
      exact List.sum_nonneg this
    simp only [List.length_append, List.length_singleton, List.sum_append, List.sum_singleton, List.foldl_append, List.foldl_cons,
      List.foldl_nil] at hn hk hb ⊢
    push_cast at hk hb ⊢
    have hn' : (qs'.length : ℚ) ≤ 16777216 := by exact_mod_cast (by omega : qs'.length ≤ 16777216)
    have hne : (0 : ℚ) ≤ qs'.length := by positivity
    have hih := ih qs' h1 (by omega) (by nlinarith) (by linarith [h2.1])
    have hx : Rel x q (k + qs'.length) (e / 4) := h2.2.weaken h2.1 (by linarith) le_rfl
    have := hih.add hx hq0 h2.1 (by nlinarith) (by nlinarith [h2.1])
    refine (this.weaken (by linarith [h2.1]) (by linarith) ?_)
    have hnu : (qs'.length : ℚ) * u ≤ 1 / 1024 := by
      have := mul_le_mul_of_nonneg_right hn' hu.le
      refine this.trans ?_
      unfold u; norm_num
    have he0 : 0 ≤ e := by linarith
    have g1 : (qs'.length : ℚ) * u * e ≤ 1 / 1024 * e := mul_le_mul_of_nonneg_right hnu he0
    have g2 : u * e ≤ 1 / 1024 * e := mul_le_mul_of_nonneg_right u_le he0
    have : ((qs'.length : ℚ) * e + e / 4) * (1 + u) + tiny = qs'.length * e + e / 4 + (qs'.length * u * e) + u * e / 4 + tiny := by ring
    rw [this]
    linarith

/-- an average of non-negative numbers -/
theorem rel_average {k e : ℚ} (he : 4 * tiny ≤ e) {start : B64} (hs : start.val = .fin 0) (xs : List B64) (qs : List ℚ)
    (h : List.Forall₂ (fun x q => 0 ≤ q ∧ Rel x q k (e / 4)) xs qs) (hne : qs ≠ []) (hn : qs.length ≤ 2 ^ 24)
    (hk : (k + qs.length) * (2 * u) ≤ 1) (hb : 2 * qs.sum + (qs.length + 1) * e ≤ big) :
    Rel (xs.foldl F64.add start /. F64.ofNat qs.length) (qs.sum / qs.length) (k + qs.length + 1) (2 * e) := by
  have hu := u_pos
  have ht := tiny_pos
  have h1 := rel_sum he hs xs qs h hn hk hb
  have hpos : (1 : ℚ) ≤ qs.length := by exact_mod_cast List.length_pos_of_ne_nil hne
  have hcnt : (F64.ofNat qs.length : B64).val = .fin (qs.length : ℚ) := roundE_nat (by omega)
  have hq0 : 0 ≤ qs.sum := by
    apply List.sum_nonneg
    intro y hy
    obtain ⟨i, hi, rfl⟩ := List.getElem_of_mem hy
    have hl := h.length_eq
    rw [List.forall₂_iff_get] at h
    exact (h.2 i (by omega) hi).1
  have e1 : (qs.length : ℚ) * e / qs.length = e := by field_simp
  have he0 : 0 ≤ e := by linarith
  have hd : qs.sum / qs.length ≤ qs.sum := div_le_self hq0 hpos
  have := h1.div hcnt (by linarith) hq0 hk (by rw [e1]; nlinarith)
  rw [e1] at this
  refine this.weaken (by positivity) le_rfl ?_
  have g2 : u * e ≤ 1 / 1024 * e := mul_le_mul_of_nonneg_right u_le he0
  linarith

/-! ## scores -/

theorem room {B : ℚ} (hB0 : 0 ≤ B) (hB : B ≤ 2 ^ 401) : 1152921504606846976 * (B * B + B + 1) ≤ big := by
  have h1 : B * B ≤ 2 ^ 802 := by
    rw [show (2 : ℚ) ^ 802 = 2 ^ 401 * 2 ^ 401 by rw [← pow_add]]
    exact mul_le_mul hB hB hB0 (pow_nonneg (by norm_num) _)
  have h2 : B ≤ 2 ^ 802 := hB.trans (pow_le_pow_right₀ (by norm_num) (by norm_num))
  have h3 : (1 : ℚ) ≤ 2 ^ 802 := one_le_pow₀ (by norm_num)
  have h4 : (4611686018427387904 : ℚ) * 2 ^ 802 ≤ big := by
    rw [show (4611686018427387904 : ℚ) = 2 ^ 62 by norm_num, ← pow_add]
    exact big_ge (by norm_num)
  generalize (2 : ℚ) ^ 802 = M at *
  linarith

/-- the slack of a squared difference -/
def slack (B : ℚ) : ℚ := 64 * tiny * (B + 1)

theorem slack_bounds {B : ℚ} (hB0 : 0 ≤ B) : 4 * tiny ≤ slack B ∧ slack B ≤ B + 1 := by
  have ht := tiny_pos
  have ht1 := tiny_le
  unfold slack
  generalize tiny = x at *
  constructor <;> nlinarith

theorem sum_bounds {q : List ℚ} {M : ℚ} (h : ∀ x ∈ q, 0 ≤ x ∧ x ≤ M) : 0 ≤ q.sum ∧ q.sum ≤ q.length * M := by
  induction q with
  | nil => simp
  | cons x q ih =>
    obtain ⟨h1, h2⟩ := ih (fun y hy => h y (List.mem_cons_of_mem _ hy))
    obtain ⟨h3, h4⟩ := h x (List.mem_cons_self)
    rw [List.sum_cons, List.length_cons]
    push_cast
    constructor <;> linarith

theorem valV_get {l : List B64} {v : List ℚ} (h : l.map B64.val = liftV v) {i : ℕ} (h1 : i < l.length) (h2 : i < v.length) :
    l[i].val = .fin v[i] := by
  have := congrArg (fun x => x[i]?) h
  simpa [liftV, h1, h2] using this

theorem squaredError_rel {start : B64} (hs : start.val = .fin 0) {p a : List B64} {P A : List ℚ} {B : ℚ} (hp : p.map B64.val = liftV P)
    (ha : a.map B64.val = liftV A) (hle : p.length ≤ a.length) (hne : P ≠ []) (hPB : ∀ x ∈ P, |x| ≤ B) (hAB : ∀ x ∈ A, |x| ≤ B)
    (ht : P.length ≤ 2 ^ 24) (hB : B ≤ 2 ^ 401) :
    Rel (squaredError start p a) (sqErr P A) (P.length + 3) (2 * slack B) ∧ 0 ≤ sqErr P A ∧ sqErr P A ≤ 4 * (B * B) := by
  have hpl := valV_length hp
  have hal := valV_length ha
  have hB0 : 0 ≤ B := by
    obtain ⟨x, hx⟩ := List.exists_mem_of_ne_nil _ hne
    exact (abs_nonneg _).trans (hPB x hx)
  have hroom := room hB0 hB
  obtain ⟨hs1, hs2⟩ := slack_bounds hB0
  have hBB : 0 ≤ B * B := mul_nonneg hB0 hB0
  set qs := List.zipWith (fun x y => (x - y) ^ 2) P A with hqs
  have hql : qs.length = P.length := by rw [hqs, List.length_zipWith]; omega
  have hqb : ∀ x ∈ qs, 0 ≤ x ∧ x ≤ 4 * (B * B) := by
    intro x hx
    obtain ⟨i, hi, rfl⟩ := List.getElem_of_mem hx
    rw [hql] at hi
    have hi2 : i < A.length := by omega
    simp only [hqs, List.getElem_zipWith]
    refine ⟨sq_nonneg _, ?_⟩
    have h1 : |P[i] - A[i]| ≤ 2 * B := (abs_sub _ _).trans (by
      have := hPB _ (List.getElem_mem hi)
      have := hAB _ (List.getElem_mem hi2)
      linarith)
    have := mul_le_mul h1 h1 (abs_nonneg _) (by linarith)
    rw [← sq_abs, pow_two]
    linarith
  obtain ⟨hsum0, hsum1⟩ := sum_bounds hqb
  have hpos : (1 : ℚ) ≤ P.length := by exact_mod_cast List.length_pos_of_ne_nil hne
  have hPle : (P.length : ℚ) ≤ 16777216 := by exact_mod_cast (by omega : P.length ≤ 16777216)
  have h1 := rel_average (k := 2) hs1 hs (List.zipWith (fun x y => (x -. y) *. (x -. y)) p a) qs (by
      rw [List.forall₂_iff_get]
      refine ⟨by rw [hql, List.length_zipWith]; omega, ?_⟩
      intro i hi1 hi2
      rw [hql] at hi2
      have hia : i < A.length := by omega
      have hip : i < p.length := by omega
      have hia' : i < a.length := by omega
      simp only [List.get_eq_getElem, hqs, List.getElem_zipWith]
      refine ⟨sq_nonneg _, ?_⟩
      have := rel_square (valV_get hp hip hi2) (valV_get ha hia' hia) (hPB _ (List.getElem_mem hi2)) (hAB _ (List.getElem_mem hia))
        (by linarith) (by linarith)
      refine this.weaken (sq_nonneg _) le_rfl (le_of_eq ?_)
      unfold slack; ring)
    (by
      intro h0
      rw [h0] at hql
      simp at hql
      exact hne (List.eq_nil_of_length_eq_zero hql.symm))
    (by omega)
    (by
      rw [hql]
      have hu : (2 : ℚ) * u ≤ 1 / 1073741824 := by unfold u; norm_num
      have hu0 := u_pos
      nlinarith)
    (by
      rw [hql] at hsum1 ⊢
      have g1 : (P.length : ℚ) * (4 * (B * B)) ≤ 16777216 * (4 * (B * B)) := mul_le_mul_of_nonneg_right hPle (by linarith)
      have g2 : ((P.length : ℚ) + 1) * slack B ≤ 16777217 * (B + 1) := mul_le_mul (by linarith) hs2 (by linarith [tiny_pos]) (by norm_num)
      linarith)
  rw [hql] at h1 hsum1
  refine ⟨?_, div_nonneg hsum0 (by linarith), ?_⟩
  · have e : (2 : ℚ) + P.length + 1 = P.length + 3 := by ring
    rw [e] at h1
    rw [squaredError, hpl]
    exact h1
  · rw [sqErr, div_le_iff₀ (by linarith)]
    linarith

/-- the error of the average squared error -/
theorem averageError_rel {start : B64} (hs : start.val = .fin 0) {ps as : List (List B64)} {P A : List (List ℚ)} {B : ℚ} {t : ℕ}
    (hp : ps.map (List.map B64.val) = lift P) (ha : as.map (List.map B64.val) = lift A) (hle : ps.length ≤ as.length) (hne : P ≠ [])
    (hlen : ∀ e ∈ P.zip A, 1 ≤ e.1.length ∧ e.1.length ≤ t ∧ e.1.length ≤ e.2.length) (hPB : AtMost B P) (hAB : AtMost B A)
    (hn : P.length ≤ 2 ^ 24) (ht : t ≤ 2 ^ 24) (hB : B ≤ 2 ^ 401) :
    Rel (averageError start P.length ps as) (mseOf P A) (P.length + t + 4) (16 * slack B) ∧ 0 ≤ mseOf P A ∧ mseOf P A ≤ 4 * (B * B) := by
  have hpl : ps.length = P.length := by have := congrArg List.length hp; simpa [lift] using this
  have hal : as.length = A.length := by have := congrArg List.length ha; simpa [lift] using this
  have hget : ∀ {l : List (List B64)} {v : List (List ℚ)} (_ : l.map (List.map B64.val) = lift v) {i : ℕ} (h1 : i < l.length)
      (h2 : i < v.length), l[i].map B64.val = liftV v[i] := by
    intro l v h i h1 h2
    have := congrArg (fun x => x[i]?) h
    simpa [lift, h1, h2] using this
  have hrow : ∀ (i : ℕ) (h1 : i < P.length) (h2 : i < A.length), 1 ≤ P[i].length ∧ P[i].length ≤ t ∧ P[i].length ≤ A[i].length := by
    intro i h1 h2
    apply hlen (P[i], A[i])
    rw [List.mem_iff_getElem]
    exact ⟨i, by simp [h1, h2], by simp⟩
  have hB0 : 0 ≤ B := by
    obtain ⟨x, hx⟩ := List.exists_mem_of_ne_nil _ hne
    obtain ⟨i, hi, rfl⟩ := List.getElem_of_mem hx
    have h3 := (hrow i hi (by omega)).1
    exact (abs_nonneg _).trans (hPB _ hx _ (List.getElem_mem (by omega : 0 < P[i].length)))
  have hroom := room hB0 hB
  obtain ⟨hs1, hs2⟩ := slack_bounds hB0
  have hBB : 0 ≤ B * B := mul_nonneg hB0 hB0
  have ht0 := tiny_pos
  set qs := List.zipWith sqErr P A with hqs
  have hql : qs.length = P.length := by rw [hqs, List.length_zipWith]; omega
  have hone : ∀ (i : ℕ) (h1 : i < P.length) (h2 : i < A.length) (h3 : i < ps.length) (h4 : i < as.length),
      Rel (squaredError start ps[i] as[i]) (sqErr P[i] A[i]) (t + 3) (8 * slack B / 4) ∧ 0 ≤ sqErr P[i] A[i] ∧ sqErr P[i] A[i] ≤ 4 * (B * B) := by
    intro i h1 h2 h3 h4
    obtain ⟨r1, r2, r3⟩ := hrow i h1 h2
    have e1 := hget hp h3 h1
    have e2 := hget ha h4 h2
    obtain ⟨k1, k2, k3⟩ := squaredError_rel hs e1 e2 (by rw [valV_length e1, valV_length e2]; exact r3)
      (List.ne_nil_of_length_pos r1) (hPB _ (List.getElem_mem h1)) (hAB _ (List.getElem_mem h2)) (r2.trans ht) hB
    refine ⟨k1.weaken k2 ?_ (by linarith), k2, k3⟩
    have : (P[i].length : ℚ) ≤ t := by exact_mod_cast r2
    linarith
  have hqb : ∀ x ∈ qs, 0 ≤ x ∧ x ≤ 4 * (B * B) := by
    intro x hx
    obtain ⟨i, hi, rfl⟩ := List.getElem_of_mem hx
    rw [hql] at hi
    simp only [hqs, List.getElem_zipWith]
    exact (hone i hi (by omega) (by omega) (by omega)).2
  obtain ⟨hsum0, hsum1⟩ := sum_bounds hqb
  have hpos : (1 : ℚ) ≤ P.length := by exact_mod_cast List.length_pos_of_ne_nil hne
  have hPle : (P.length : ℚ) ≤ 16777216 := by exact_mod_cast (by omega : P.length ≤ 16777216)
  have htle : (t : ℚ) ≤ 16777216 := by exact_mod_cast (by omega : t ≤ 16777216)
  have h1 := rel_average (k := t + 3) (e := 8 * slack B) (by linarith) (start := F64.zero) zero_val
    (List.zipWith (squaredError start) ps as) qs (by
      rw [List.forall₂_iff_get]
      refine ⟨by rw [hql, List.length_zipWith]; omega, ?_⟩
      intro i hi1 hi2
      rw [hql] at hi2
      simp only [List.get_eq_getElem, hqs, List.getElem_zipWith]
      obtain ⟨k1, k2, _⟩ := hone i hi2 (by omega) (by omega) (by omega)
      exact ⟨k2, k1⟩)
    (by
      intro h0
      rw [h0] at hql
      simp at hql
      exact hne (List.eq_nil_of_length_eq_zero hql.symm))
    (by omega)
    (by
      rw [hql]
      have hu : (2 : ℚ) * u ≤ 1 / 1073741824 := by unfold u; norm_num
      have hu0 := u_pos
      nlinarith)
    (by
      rw [hql] at hsum1 ⊢
      have g1 : (P.length : ℚ) * (4 * (B * B)) ≤ 16777216 * (4 * (B * B)) := mul_le_mul_of_nonneg_right hPle (by linarith)
      have g2 : ((P.length : ℚ) + 1) * (8 * slack B) ≤ 16777217 * (8 * (B + 1)) :=
        mul_le_mul (by linarith) (by linarith) (by linarith) (by norm_num)
      linarith)
  rw [hql] at h1 hsum1
  refine ⟨?_, div_nonneg hsum0 (by linarith), ?_⟩
  · have e : (t : ℚ) + 3 + P.length + 1 = P.length + t + 4 := by ring
    have e' : 2 * (8 * slack B) = 16 * slack B := by ring
    rw [e, e'] at h1
    exact h1
  · rw [mseOf, div_le_iff₀ (by linarith)]
    linarith

end Verif
