import Verif.Lemmas.NearScore
import Verif.Props.Mse
import Verif.Props.Rounding
/-!
# C69: rounding errors of scores

What the scores computed with binary64 numbers have to do with the exact scores.
-/

set_option linter.unusedSectionVars false

namespace Verif

open B64 Sample

section
variable [B64Env]

theorem thousand_tiny : 1024 * tiny = 1 / 2 ^ 1065 := by
  rw [tiny, show (2 : ℚ) ^ 1075 = 2 ^ 10 * 2 ^ 1065 by rw [← pow_add]]
  generalize (2 : ℚ) ^ 1065 = M
  rw [show (1024 : ℚ) = 2 ^ 10 by norm_num, mul_one_div, div_mul_eq_div_div, div_self (by norm_num)]

theorem Rel.score {x : B64} {q B : ℚ} {n t : ℕ} (h : Rel x q (n + t + 4) (16 * slack B)) :
    ∃ v, x.val = .fin v ∧ |v - q| ≤ scoreTolerance n t B q := by
  obtain ⟨v, h1, h2⟩ := h
  refine ⟨v, h1, h2.trans (le_of_eq ?_)⟩
  have e1 : 2 * u = 1 / 2 ^ 52 := by unfold u; norm_num
  have e2 := thousand_tiny
  have e3 : 16 * slack B = 1024 * tiny * (B + 1) := by unfold slack; ring
  rw [e1, e3, e2, scoreTolerance]
  generalize (2 : ℚ) ^ 1065 = M
  ring

/-- **C69** (ensemble).  If labels and predictions are numbers up to `B`, the score of a regression ensemble differs from the exact mean
squared error of these predictions by at most `2^-52 * (n + t + 4)` times this mean squared error, plus `2^-1065 * (B + 1)`. -/
theorem C69_ensemble_score (m : BoostModel B64 (GradBoostLeaf B64)) (test : DataSet B64) (preds : List (List B64)) (t : ℕ)
    (L P : List (List ℚ)) (B : ℚ) (hp : test.featureRows.mapM (regressionPredict m) = .ok preds)
    (hP : preds.map (List.map B64.val) = lift P) (hL : test.exact.labels = lift L) (hne : L ≠ []) (hlen : L.length ≤ P.length)
    (hLt : ∀ l ∈ L, l.length = t) (hPt : ∀ p ∈ P, p.length = t) (ht1 : 1 ≤ t) (ht2 : t ≤ 2 ^ 24) (hn : L.length ≤ 2 ^ 24)
    (hBL : AtMost B L) (hBP : AtMost B P) (hB : B ≤ 2 ^ 400) :
    ∃ a v, regressionScore m test = .ok a ∧ a.val = .fin v ∧ |v - mseOf L P| ≤ scoreTolerance L.length t B (mseOf L P) := by
  have hpl : preds.length = P.length := by have := congrArg List.length hP; simpa [lift] using this
  have hll : test.labels.length = L.length := by have := congrArg List.length hL; simpa [lift, DataSet.exact] using this
  have hlen1 : ∀ {l : List (List B64)} {v : List (List ℚ)} (_ : l.map (List.map B64.val) = lift v) (_ : ∀ x ∈ v, x.length = t),
      ∀ x ∈ l, x.length = t := by
    intro l v h h1 x hx
    have : x.map B64.val ∈ lift v := by rw [← h]; exact List.mem_map_of_mem hx
    obtain ⟨w, hw, he⟩ := mem_lift.mp this
    rw [valV_length he.symm, h1 w hw]
  have h1 := (averageError_rel (start := (F64.sumStart : B64)) sumStart_val (t := t) hL hP (by omega) hne (by
    intro e he
    have := List.of_mem_zip he
    rw [hLt _ this.1, hPt _ this.2]
    omega) hBL hBP hn ht2 (hB.trans (pow_le_pow_right₀ (by norm_num) (by norm_num)))).1
  obtain ⟨v, h2, h3⟩ := h1.score
  refine ⟨_, v, (C51_ensemble_score m test _).mpr ⟨preds, hp, by omega, ?_, rfl⟩, by rw [hll]; exact h2, h3⟩
  intro e he
  have := List.of_mem_zip he
  rw [hlen1 hL hLt _ this.1, hlen1 hP hPt _ this.2]

theorem sqErr_perturb {p q a : List ℚ} {B τ : ℚ} (hl : p.length = q.length) (hla : p.length = a.length) (h0 : 0 ≤ τ) (hτ : τ ≤ B)
    (hq : ∀ x ∈ q, |x| ≤ B) (ha : ∀ x ∈ a, |x| ≤ B) (hpq : ∀ (i : ℕ) (h1 : i < p.length) (h2 : i < q.length), |p[i] - q[i]| ≤ τ) :
    |sqErr p a - sqErr q a| ≤ 5 * τ * B := by
  have key : ∀ (p q a : List ℚ), p.length = q.length → p.length = a.length → (∀ x ∈ q, |x| ≤ B) → (∀ x ∈ a, |x| ≤ B) →
      (∀ (i : ℕ) (h1 : i < p.length) (h2 : i < q.length), |p[i] - q[i]| ≤ τ) →
      |(List.zipWith (fun x y => (x - y) ^ 2) p a).sum - (List.zipWith (fun x y => (x - y) ^ 2) q a).sum| ≤ p.length * (5 * τ * B) := by
    intro p
    induction p with
    | nil =>
      intro q a h1 h2 _ _ _
      have : q = [] := List.eq_nil_of_length_eq_zero h1.symm
      subst this
      simp
    | cons x p ih =>
      intro q a h1 h2 hq ha h
      cases q with
      | nil => simp at h1
      | cons y q =>
        cases a with
        | nil => simp at h2
        | cons z a =>
          have := ih q a (by simpa using h1) (by simpa using h2) (fun w hw => hq w (by simp [hw])) (fun w hw => ha w (by simp [hw]))
            (fun i h3 h4 => h (i + 1) (by simpa using h3) (by simpa using h4))
          have hxy : |x - y| ≤ τ := h 0 (by simp) (by simp)
          have hy := hq y (by simp)
          have hz := ha z (by simp)
          have h5 : |(x - z) ^ 2 - (y - z) ^ 2| ≤ 5 * τ * B := by
            have e : (x - z) ^ 2 - (y - z) ^ 2 = (x - y) * ((x - y) + 2 * y - 2 * z) := by ring
            rw [e, abs_mul]
            have h6 : |(x - y) + 2 * y - 2 * z| ≤ 5 * B := by
              rw [abs_le] at hxy hy hz ⊢
              constructor <;> linarith
            refine (mul_le_mul hxy h6 (abs_nonneg _) h0).trans (le_of_eq (by ring))
          simp only [List.zipWith_cons_cons, List.sum_cons, List.length_cons]
          push_cast
          rw [abs_le] at this h5 ⊢
          constructor <;> linarith
  have h1 := key p q a hl hla hq ha hpq
  rw [sqErr, sqErr, hl, ← sub_div, abs_div, abs_of_nonneg (by positivity : (0 : ℚ) ≤ q.length)]
  rw [hl] at h1
  rcases Nat.eq_zero_or_pos q.length with h2 | h2
  · rw [h2]
    have hB : 0 ≤ B := h0.trans hτ
    simp only [Nat.cast_zero, div_zero]
    positivity
  · have : (0 : ℚ) < q.length := by exact_mod_cast h2
    rw [div_le_iff₀ this]
    linarith

theorem mseOf_perturb {P Q A : List (List ℚ)} {B τ : ℚ} (hl : P.length = Q.length) (hla : P.length = A.length) (h0 : 0 ≤ τ) (hτ : τ ≤ B)
    (h : ∀ (i : ℕ) (h1 : i < P.length) (h2 : i < Q.length) (h3 : i < A.length), |sqErr P[i] A[i] - sqErr Q[i] A[i]| ≤ 5 * τ * B) :
    |mseOf P A - mseOf Q A| ≤ 5 * τ * B := by
  have key : ∀ (P Q A : List (List ℚ)), P.length = Q.length → P.length = A.length →
      (∀ (i : ℕ) (h1 : i < P.length) (h2 : i < Q.length) (h3 : i < A.length), |sqErr P[i] A[i] - sqErr Q[i] A[i]| ≤ 5 * τ * B) →
      |(List.zipWith sqErr P A).sum - (List.zipWith sqErr Q A).sum| ≤ P.length * (5 * τ * B) := by
    intro P
    induction P with
    | nil =>
      intro Q A h1 h2 _
      have : Q = [] := List.eq_nil_of_length_eq_zero h1.symm
      subst this
      simp
    | cons x P ih =>
      intro Q A h1 h2 h
      cases Q with
      | nil => simp at h1
      | cons y Q =>
        cases A with
        | nil => simp at h2
        | cons z A =>
          have := ih Q A (by simpa using h1) (by simpa using h2)
            (fun i h3 h4 h5 => h (i + 1) (by simpa using h3) (by simpa using h4) (by simpa using h5))
          have h5 : |sqErr x z - sqErr y z| ≤ 5 * τ * B := h 0 (by simp) (by simp) (by simp)
          simp only [List.zipWith_cons_cons, List.sum_cons, List.length_cons]
          push_cast
          rw [abs_le] at this h5 ⊢
          constructor <;> linarith
  have h1 := key P Q A hl hla h
  rw [mseOf, mseOf, hl, ← sub_div, abs_div, abs_of_nonneg (by positivity : (0 : ℚ) ≤ Q.length)]
  rw [hl] at h1
  rcases Nat.eq_zero_or_pos Q.length with h2 | h2
  · rw [h2]
    have hB : 0 ≤ B := h0.trans hτ
    simp only [Nat.cast_zero, div_zero]
    positivity
  · have : (0 : ℚ) < Q.length := by exact_mod_cast h2
    rw [div_le_iff₀ this]
    linarith

theorem meanVec_atMost {B : ℚ} (hB0 : 0 ≤ B) {t : ℕ} {vs : List (List ℚ)} (h : AtMost B vs) : ∀ x ∈ meanVec t vs, |x| ≤ B := by
  intro x hx
  obtain ⟨j, _, rfl⟩ := List.mem_map.mp hx
  rw [meanOf, abs_div]
  rcases Nat.eq_zero_or_pos (target vs j).length with h1 | h1
  · rw [h1]; simpa using hB0
  · have h2 : (0 : ℚ) < (target vs j).length := by exact_mod_cast h1
    rw [abs_of_pos h2, div_le_iff₀ h2]
    have := abs_sum_le (h.target hB0 j)
    linarith

theorem exact_companions {d : DataSet B64} {c t : ℕ} (h : d.WF c t) {cfg : TreeConfig} (ht : cfg.numberOfClasses = t) {ls : List (List ℚ)}
    {B : ℚ} (hls : d.exact.labels = lift ls) (hS : Scale ls.length B) (hB : AtMost B ls) {tree : TreeNode B64 (RegressionLeaf B64)}
    (hb : regressionTreeNew d cfg = .ok tree) {row : List B64} (hrow : c ≤ row.length) :
    ∃ ls' p, (companions d tree row).map (List.map B64.val) = lift ls' ∧ AtMost B ls' ∧
      (leafValue .regression t (companions d tree row)).map B64.val = liftV p ∧ p.length = t ∧
      ∀ (j : ℕ) (h1 : j < p.length) (h2 : j < (meanVec t ls').length), |p[j] - (meanVec t ls')[j]| ≤ averageTolerance ls.length B := by
  obtain ⟨leaf, dd, ls', a, _, hdd, hl', ha, hal, hacc⟩ := C62_tree_prediction_accurate d c t h cfg ht ls B hls hS hB tree hb row hrow
  obtain ⟨b1, b2, b3⟩ := exact_labels_sub h hls hB hl'
  have hl'' : (companions d tree row).map (List.map B64.val) = lift ls' := by
    rw [companions, List.map_map]; exact hl'
  obtain ⟨dd', hf', hw', hlab⟩ := lookup_companions d c t h cfg ht tree hb row hrow
  have hcl : ∀ l ∈ companions d tree row, l.length = t := by rw [← hlab]; exact hw'.label_len
  have hcne : companions d tree row ≠ [] := by rw [← hlab]; exact hw'.labels_ne
  have hne : ls' ≠ [] := by
    rintro rfl
    have := congrArg List.length hl''
    simp only [List.length_map, lift_length, List.length_nil] at this
    exact hcne (List.eq_nil_of_length_eq_zero this)
  obtain ⟨a', ha', hal', hacc'⟩ := C62_average_accurate _ t ls' B hl'' b2 hne (hS.fewer b3) b1
  rw [calculateAverageVector_ok hcne hcl, avgVec_range hcl] at ha'
  cases ha'
  have hfin : ∀ x ∈ (leafValue .regression t (companions d tree row)).map B64.val, ∃ q : ℚ, x = .fin q := by
    intro x hx
    obtain ⟨y, hy, rfl⟩ := List.mem_map.mp hx
    obtain ⟨j, hj, rfl⟩ := List.mem_map.mp hy
    obtain ⟨y, q, h1, h2, _⟩ := hacc' j (List.mem_range.mp hj)
    rw [List.getElem?_map, List.getElem?_range (List.mem_range.mp hj)] at h1
    simp only [Option.map_some, Option.some.injEq] at h1
    subst h1
    exact ⟨q, h2⟩
  have hval : ∃ p, (leafValue .regression t (companions d tree row)).map B64.val = liftV p := by
    refine ⟨((leafValue .regression t (companions d tree row)).map B64.val).map val, ?_⟩
    rw [liftV, List.map_map]
    conv_lhs => rw [← List.map_id ((leafValue .regression t (companions d tree row)).map B64.val)]
    apply List.map_congr_left
    intro x hx
    obtain ⟨q, rfl⟩ := hfin x hx
    rfl
  obtain ⟨p, hp⟩ := hval
  have hpl : p.length = t := by
    rw [← valV_length hp]; simp [leafValue]
  refine ⟨ls', p, hl'', b1, hp, hpl, ?_⟩
  intro j h1 h2
  obtain ⟨x, q, h3, h4, h5⟩ := hacc' j (by omega)
  have h6 := valV_get hp (i := j) (by simp [leafValue]; omega) h1
  rw [List.getElem?_map, List.getElem?_range (by omega)] at h3
  simp only [Option.map_some, Option.some.injEq] at h3
  subst h3
  simp only [leafValue, List.getElem_map, List.getElem_range] at h6
  rw [h6] at h4
  cases h4
  simp only [meanVec, List.getElem_map, List.getElem_range]
  refine h5.trans ?_
  unfold averageTolerance
  have hb0 := hS.pos
  have : (ls'.length : ℚ) ≤ ls.length := by exact_mod_cast b3
  have := mul_le_mul_of_nonneg_right this hb0.le
  linarith

/-- **C69** (tree).  With labels up to `B`, the score of a regression tree differs from the exact mean squared error, taken with the
exact means of the training labels that share the path of a row, by at most `2^-46 * (n + m + t + 4) * B^2`, where `n` and `m` are
the numbers of training and test rows. -/
theorem C69_tree_score (d : DataSet B64) (c t : ℕ) (h : d.WF c t) (cfg : TreeConfig) (ht : cfg.numberOfClasses = t) (ht1 : 1 ≤ t)
    (ht2 : t ≤ 2 ^ 24) (ls : List (List ℚ)) (B : ℚ) (hls : d.exact.labels = lift ls) (hS : Scale ls.length B) (hB : AtMost B ls)
    (tree : TreeNode B64 (RegressionLeaf B64)) (hb : regressionTreeNew d cfg = .ok tree) (test : DataSet B64) (L : List (List ℚ))
    (hrows : ∀ row ∈ test.featureRows, c ≤ row.length) (hL : test.exact.labels = lift L) (hne : L ≠ [])
    (hlen : test.featureRows.length = L.length) (hLt : ∀ l ∈ L, l.length = t) (hm : L.length ≤ 2 ^ 24) (hBL : AtMost B L) :
    ∃ a v, ∃ P : List (List ℚ), calculateOverallMse test tree = .ok a ∧ a.val = .fin v ∧
      List.Forall₂ (fun row p => ∃ ls', (companions d tree row).map (List.map B64.val) = lift ls' ∧ p = meanVec t ls') test.featureRows P ∧
      |v - mseOf P L| ≤ treeScoreTolerance ls.length L.length t B := by
  have hB0 := hS.pos
  -- the exact means and the exact values of the computed averages, row by row
  have hchoose : ∀ rows : List (List B64), (∀ row ∈ rows, c ≤ row.length) → ∃ P Q : List (List ℚ),
      List.Forall₂ (fun row p => ∃ ls', (companions d tree row).map (List.map B64.val) = lift ls' ∧ p = meanVec t ls') rows P ∧
      (rows.map (fun row => leafValue .regression t (companions d tree row))).map (List.map B64.val) = lift Q ∧
      P.length = rows.length ∧ Q.length = rows.length ∧ AtMost B P ∧ (∀ p ∈ P, p.length = t) ∧ (∀ q ∈ Q, q.length = t) ∧
      ∀ (i : ℕ) (h1 : i < P.length) (h2 : i < Q.length) (j : ℕ) (h3 : j < Q[i].length) (h4 : j < P[i].length),
        |Q[i][j] - P[i][j]| ≤ averageTolerance ls.length B := by
    intro rows
    induction rows with
    | nil => exact fun _ => ⟨[], [], .nil, rfl, rfl, rfl, by simp [AtMost], by simp, by simp, by simp⟩
    | cons row rows ih =>
      intro hr
      obtain ⟨P, Q, h1, h2, h3, h4, h5, h6, h7, h8⟩ := ih (fun r hr' => hr r (List.mem_cons_of_mem _ hr'))
      obtain ⟨ls', p, k1, k2, k3, k4, k5⟩ := exact_companions h ht hls hS hB hb (hr row List.mem_cons_self)
      refine ⟨meanVec t ls' :: P, p :: Q, .cons ⟨ls', k1, rfl⟩ h1, ?_, by simp [h3], by simp [h4], ?_, ?_, ?_, ?_⟩
      · rw [List.map_cons, List.map_cons, k3, h2]; rfl
      · intro v hv
        rcases List.mem_cons.mp hv with rfl | hv
        · exact meanVec_atMost hB0.le k2
        · exact h5 v hv
      · intro v hv
        rcases List.mem_cons.mp hv with rfl | hv
        · simp [meanVec]
        · exact h6 v hv
      · intro v hv
        rcases List.mem_cons.mp hv with rfl | hv
        · exact k4
        · exact h7 v hv
      · intro i g1 g2 j g3 g4
        cases i with
        | zero => exact k5 j g3 g4
        | succ i => exact h8 i (by simpa using g1) (by simpa using g2) j g3 g4
  obtain ⟨P, Q, h1, h2, h3, h4, h5, h6, h7, h8⟩ := hchoose _ hrows
  have hτ0 : 0 ≤ averageTolerance ls.length B := by unfold averageTolerance; positivity
  have hτB : averageTolerance ls.length B ≤ B := by
    unfold averageTolerance
    have := mul_le_mul_of_nonneg_right hS.rows_q hB0.le
    rw [div_le_iff₀ (by positivity)]
    have : (16777216 : ℚ) * B ≤ B * 2 ^ 50 := by rw [mul_comm]; exact mul_le_mul_of_nonneg_left (by norm_num) hB0.le
    linarith
  have h2B : 2 * B ≤ 2 ^ 401 := by
    rw [show (2 : ℚ) ^ 401 = 2 * 2 ^ 400 by rw [← pow_succ']]
    exact mul_le_mul_of_nonneg_left hS.upper (by norm_num)
  have hBQ : AtMost (2 * B) Q := by
    intro q hq x hx
    obtain ⟨i, hi, rfl⟩ := List.getElem_of_mem hq
    obtain ⟨j, hj, rfl⟩ := List.getElem_of_mem hx
    have hiP : i < P.length := by omega
    have hjP : j < P[i].length := by rw [h6 _ (List.getElem_mem hiP), ← h7 _ (List.getElem_mem hi)]; exact hj
    have := abs_near (h8 i hiP hi j hj hjP)
    have := h5 _ (List.getElem_mem hiP) _ (List.getElem_mem hjP)
    linarith
  have hBL2 : AtMost (2 * B) L := fun l hl x hx => (hBL l hl x hx).trans (by linarith)
  have hQne : Q ≠ [] := by
    rintro rfl
    simp only [List.length_nil] at h4
    exact hne (List.eq_nil_of_length_eq_zero (by omega))
  have hll : test.labels.length = L.length := by have := congrArg List.length hL; simpa [lift, DataSet.exact] using this
  obtain ⟨r1, r2, r3⟩ := averageError_rel (start := (F64.zero : B64)) zero_val (t := t) h2 hL (by simp; omega) hQne (by
    intro e he
    have := List.of_mem_zip he
    rw [hLt _ this.2, h7 _ this.1]
    omega) hBQ hBL2 (by omega) ht2 h2B
  obtain ⟨v, s1, s2⟩ := r1.score
  have hper : |mseOf Q L - mseOf P L| ≤ 5 * averageTolerance ls.length B * B := by
    refine mseOf_perturb (by omega) (by omega) hτ0 hτB ?_
    intro i g1 g2 g3
    have q1 := h7 _ (List.getElem_mem g1)
    have q2 := h6 _ (List.getElem_mem g2)
    have q3 := hLt _ (List.getElem_mem g3)
    exact sqErr_perturb (by omega) (by omega) hτ0 hτB (h5 _ (List.getElem_mem g2)) (hBL _ (List.getElem_mem g3))
      (fun j a1 a2 => h8 i g2 g1 j a1 a2)
  refine ⟨_, v, P, (C51_tree_score d c t h cfg ht tree hb test hrows _).mpr ⟨by omega, ?_, rfl⟩, by rw [← h4]; exact s1, h1, ?_⟩
  · intro l hl
    have : l.map B64.val ∈ lift L := by rw [← hL]; exact List.mem_map_of_mem (List.mem_of_mem_take hl)
    obtain ⟨w, hw, he⟩ := mem_lift.mp this
    rw [valV_length he.symm, hLt w hw]
  · have hQL : Q.length = L.length := by omega
    rw [hQL] at s2
    have hfin := abs_sub_le v (mseOf Q L) (mseOf P L)
    have htq := hS.tiny_sq
    have htl := hS.tiny_lin
    have e2 : 1024 * tiny = 1 / 2 ^ 1065 := thousand_tiny
    have hu52 : u = 1 / 2 ^ 53 := rfl
    have e4 : scoreTolerance L.length t (2 * B) (mseOf Q L) = (L.length + t + 4) * mseOf Q L / 2 ^ 52 + 1024 * tiny * (2 * B + 1) := by
      rw [scoreTolerance, e2]
      generalize (2 : ℚ) ^ 1065 = M
      ring
    rw [e4] at s2
    have e5 : ((L.length : ℚ) + t + 4) * mseOf Q L ≤ (L.length + t + 4) * (16 * (B * B)) :=
      mul_le_mul_of_nonneg_left (by linarith) (by positivity)
    have hBB : 0 ≤ B * B := mul_nonneg hB0.le hB0.le
    have e6 : 0 ≤ (L.length : ℚ) * (B * B) := mul_nonneg (Nat.cast_nonneg _) hBB
    have e7 : 0 ≤ (ls.length : ℚ) * (B * B) := mul_nonneg (Nat.cast_nonneg _) hBB
    have e8 : 0 ≤ (t : ℚ) * (B * B) := mul_nonneg (Nat.cast_nonneg _) hBB
    have e9 : 2 ^ 50 * (tiny * B) ≤ u * (B * B) := by
      have := mul_le_mul_of_nonneg_right htl hB0.le
      linarith
    have ht0 := tiny_pos
    have hub : u * (B * B) = B * B / 9007199254740992 := by rw [hu52]; norm_num; ring
    rw [hub] at htq e9
    unfold averageTolerance at hper
    unfold treeScoreTolerance
    norm_num at htq e9 hper s2 ⊢
    have e10 : (ls.length : ℚ) * B / 1125899906842624 * B = ls.length * (B * B) / 1125899906842624 := by ring
    generalize tiny = x at *
    clear * - hfin s2 hper e5 e6 e7 e8 e9 htq hBB
    have f1 : 5 * ((ls.length : ℚ) * B / 1125899906842624) * B = 5 * (ls.length * (B * B) / 1125899906842624) := by ring
    rw [f1] at hper
    have f2 : ((ls.length : ℚ) + L.length + t + 4) * B ^ 2 / 70368744177664 =
      (ls.length * (B * B) + L.length * (B * B) + t * (B * B) + 4 * (B * B)) / 70368744177664 := by ring
    rw [f2]
    have f3 : ((L.length : ℚ) + t + 4) * (16 * (B * B)) = 16 * (L.length * (B * B)) + 16 * (t * (B * B)) + 64 * (B * B) := by ring
    rw [f3] at e5
    linarith

/-! ## accuracies -/

theorem fraction_near {k n : ℕ} (hk : k ≤ n) (h0 : 0 < n) (hn : n ≤ 2 ^ 53) :
    ∃ v, (F64.ofNat k /. F64.ofNat n : B64).val = .fin v ∧ |v - (k : ℚ) / n| ≤ 1 / 2 ^ 52 := by
  have h1 : (F64.ofNat k : B64).val = .fin (k : ℚ) := roundE_nat (by omega)
  have h2 : (F64.ofNat n : B64).val = .fin (n : ℚ) := roundE_nat hn
  have hn0 : (0 : ℚ) < n := by exact_mod_cast h0
  have hq : (k : ℚ) / n ≤ 1 := by
    rw [div_le_one hn0]
    exact_mod_cast hk
  have hq0 : 0 ≤ (k : ℚ) / n := div_nonneg (Nat.cast_nonneg _) hn0.le
  have hab : |(k : ℚ) / n| ≤ 1 := by rw [abs_of_nonneg hq0]; exact hq
  obtain ⟨v, h3, h4⟩ := div_err h1 h2 hn0.ne' (hab.trans (by simpa using big_ge (k := 0) (by norm_num)))
  refine ⟨v, h3, h4.trans ?_⟩
  have h5 := mul_le_mul_of_nonneg_left hab u_pos.le
  have h6 : tiny ≤ u := by
    unfold tiny u
    exact one_div_le_one_div_of_le (by norm_num) (pow_le_pow_right₀ (by norm_num) (by norm_num))
  have h7 : (1 : ℚ) / 2 ^ 52 = u + u := by unfold u; norm_num
  rw [h7]
  linarith

theorem matchCount_le (preds labels : List (List B64)) : matchCount preds labels ≤ preds.length := by
  unfold matchCount
  refine (List.countP_le_length).trans ?_
  simp

/-- **C69** (accuracy).  The accuracy of a tree, of a multi-class ensemble and of an AMG ensemble on at least one and at most `2^53` rows
is within `2^-52` of the fraction of the rows that are predicted correctly. -/
theorem C69_accuracy (test : DataSet B64) (h0 : test.featureRows ≠ []) (hn : test.featureRows.length ≤ 2 ^ 53) (a : B64) :
    (∀ tree, calculateAccuracy test tree = .ok a → ∃ preds v, test.featureRows.mapM (fun row => predictClass row tree) = .ok preds ∧
      a.val = .fin v ∧ |v - (matchCount preds test.labels : ℚ) / test.featureRows.length| ≤ 1 / 2 ^ 52) ∧
    (∀ m, multiClassScore m test = .ok a → ∃ preds v, test.featureRows.mapM (multiClassPredict m) = .ok preds ∧
      a.val = .fin v ∧ |v - (matchCount preds test.labels : ℚ) / test.featureRows.length| ≤ 1 / 2 ^ 52) ∧
    (∀ m, amgScore m test = .ok a → ∃ preds v, test.featureRows.mapM (amgPredict m) = .ok preds ∧
      a.val = .fin v ∧ |v - (matchCount preds test.labels : ℚ) / test.featureRows.length| ≤ 1 / 2 ^ 52) := by
  have hpos : 0 < test.featureRows.length := List.length_pos_of_ne_nil h0
  have key : ∀ preds : List (List B64), preds.length = test.featureRows.length →
      a = F64.ofNat (matchCount preds test.labels) /. F64.ofNat test.featureRows.length →
      ∃ v, a.val = .fin v ∧ |v - (matchCount preds test.labels : ℚ) / test.featureRows.length| ≤ 1 / 2 ^ 52 := by
    rintro preds hl rfl
    exact fraction_near (by rw [← hl]; exact matchCount_le _ _) hpos hn
  refine ⟨fun tree h => ?_, fun m h => ?_, fun m h => ?_⟩
  · obtain ⟨preds, h1, _, h2⟩ := (C28_tree_accuracy test tree a hn).mp h
    obtain ⟨v, h3, h4⟩ := key preds (mapM_length h1) h2
    exact ⟨preds, v, h1, h3, h4⟩
  · obtain ⟨preds, h1, _, h2⟩ := (C28_multiClass_accuracy m test a hn).mp h
    obtain ⟨v, h3, h4⟩ := key preds (mapM_length h1) h2
    exact ⟨preds, v, h1, h3, h4⟩
  · obtain ⟨preds, h1, _, h2⟩ := (C28_amg_accuracy m test a hn).mp h
    obtain ⟨v, h3, h4⟩ := key preds (mapM_length h1) h2
    exact ⟨preds, v, h1, h3, h4⟩

end

/-! ## cases that meet the hypotheses, and cases outside -/

-- the tree score of `rough4` on itself is not the exact mean squared error of the exact means
example : ∀ negZero : Bool, let _ := env negZero
    (do let tree ← regressionTreeNew rough4 { useMultiThreading := false, numberOfClasses := 1, maxLevels := 1 }
        let a ← calculateOverallMse rough4 tree
        pure (tree.questionCount, decide (a.val = Ext.fin 0), decide (a.val = Ext.fin (mseOf
          [meanVec 1 (rough4Labels.take 2), meanVec 1 (rough4Labels.take 2), meanVec 1 (rough4Labels.drop 2), meanVec 1 (rough4Labels.drop 2)]
          rough4Labels)))) = .ok (1, false, false) := by
  decide +kernel

-- a trained ensemble whose predictions for `rough4` are numbers
example : ∀ negZero : Bool, let _ := env negZero
    (do let m ← regressionTrain rough4 { useMultiThreading := false, numberOfClasses := 1, maxLevels := 1 } 2 (b64 0.5)
        let preds ← rough4.featureRows.mapM (regressionPredict m)
        let a ← regressionScore m rough4
        pure (preds.all (List.all · (fun x => match x.val with | .fin q => decide (|q| ≤ 1) | _ => false)), decide (a.val = Ext.fin 0))) = .ok (true, false) := by
  decide +kernel

/-- **C69** needs the bound on the labels: with a label of 1e200 the score of the exact prediction 0 is infinite. -/
theorem C69_violated_without_bound : ∀ negZero : Bool, let _ := env negZero
    (regressionScore { trees := [], initialGuess := [b64 0], learningRate := b64 1 } { far2 with featureRows := [[b64 1]], labels := [[b64 (10 ^ 200)]] }).map
      (fun a => decide (a.val = .posInf)) = .ok true := by
  decide +kernel

end Verif
