import Verif.Lemmas.ExactBoost
import Verif.Lemmas.Score
/-!
# Exact arithmetic: classification ensembles
-/

set_option linter.unusedSectionVars false
set_option linter.unusedSimpArgs false

namespace Verif

variable {K : Type} [Field K] [LinearOrder K] [IsStrictOrderedRing K] [FloorSemiring K] [HasExp K] {L : Type}

/-! ## soft-max -/

theorem exp_sum_pos {v : List K} (hne : v ≠ []) : 0 < (v.map HasExp.exp).sum := by
  apply List.sum_pos
  · intro x hx
    obtain ⟨y, _, rfl⟩ := List.mem_map.mp hx
    exact HasExp.exp_pos y
  · simpa using hne

theorem calculateProbabilities_exact {v : List K} (hne : v ≠ []) : calculateProbabilities (liftV v) = liftV (softmax v) := by
  have h0 := (exp_sum_pos hne).ne'
  have h1 : (liftV v).map F64.exp = liftV (v.map HasExp.exp) := by
    simp only [liftV, List.map_map]; rfl
  simp only [calculateProbabilities, h1, fsum_liftV, multiplyByScalar, Ext.one_def, Ext.fin_div _ _ h0, softmax]
  simp only [liftV, List.map_map]
  apply List.map_congr_left
  intro x _
  simp only [Function.comp, Ext.fin_mul]
  congr 1
  field_simp

theorem softmax_length (v : List K) : (softmax v).length = v.length := by simp [softmax]

theorem softmax_pos {v : List K} : ∀ x ∈ softmax v, 0 < x := by
  intro x hx
  obtain ⟨y, hy, rfl⟩ := List.mem_map.mp hx
  exact div_pos (HasExp.exp_pos y) (exp_sum_pos (List.ne_nil_of_mem hy))

theorem softmax_sum {v : List K} (hne : v ≠ []) : (softmax v).sum = 1 := by
  have h0 := (exp_sum_pos hne).ne'
  have : (softmax v).sum = (v.map HasExp.exp).sum / (v.map HasExp.exp).sum := by
    rw [softmax, div_eq_mul_inv, ← List.sum_map_mul_right]
    simp only [List.map_map, Function.comp_def, div_eq_mul_inv]
  rw [this, div_self h0]

/-- with two or more classes no probability is 1 -/
theorem softmax_lt_one {v : List K} (h2 : 2 ≤ v.length) : ∀ x ∈ softmax v, x < 1 := by
  intro x hx
  have hne : v ≠ [] := by rintro rfl; simp at h2
  have hs := softmax_sum hne
  obtain ⟨a, b, hab⟩ := List.append_of_mem hx
  have hlen := softmax_length v
  rw [hab] at hs hlen
  simp only [List.sum_append, List.sum_cons, List.length_append, List.length_cons] at hs hlen
  have hpos : 0 < (a ++ b).sum := by
    apply List.sum_pos
    · intro y hy
      refine softmax_pos (v := v) y ?_
      rw [hab]
      simp only [List.mem_append, List.mem_cons] at hy ⊢
      tauto
    · intro h0
      rw [List.append_eq_nil_iff] at h0
      rw [h0.1, h0.2] at hlen
      simp at hlen
      omega
  rw [List.sum_append] at hpos
  linarith

/-! ## residuals of one-hot labels -/

/-- the one-hot vector over the field -/
def hot (t k : Nat) : List K := (List.range t).map (fun j => if j = k then 1 else 0)

theorem oneHot_lift (t k : Nat) : (oneHot t k : List (Ext K)) = liftV (hot t k) := by
  rw [hot, liftV_range, oneHot]
  apply List.map_congr_left
  intro j _
  split <;> rfl

theorem hot_length (t k : Nat) : (hot t k : List K).length = t := by simp [hot]

theorem hot_sum {t k : Nat} (hk : k < t) : (hot t k : List K).sum = 1 := by
  induction t with
  | zero => omega
  | succ t ih =>
    rw [hot, List.range_succ, List.map_append, List.sum_append]
    rcases Nat.lt_or_ge k t with h | h
    · have := ih h
      rw [hot] at this
      rw [this]
      simp; omega
    · have hkt : k = t := by omega
      subst hkt
      have : ((List.range k).map (fun j => if j = k then (1 : K) else 0)).sum = 0 := by
        apply List.sum_eq_zero
        intro x hx
        obtain ⟨j, hj, rfl⟩ := List.mem_map.mp hx
        rw [List.mem_range] at hj
        simp [Nat.ne_of_lt hj]
      rw [this]; simp

/-- residuals that keep the leaf denominators positive -/
def Good (r : List K) : Prop := ∀ x ∈ r, 0 < |x| ∧ |x| < 1

theorem residual_good {t k : Nat} {v : List K} (hv : v.length = t) (h2 : 2 ≤ t) :
    Good (List.zipWith (· - ·) (hot t k) (softmax v)) := by
  intro x hx
  obtain ⟨i, hi, rfl⟩ := List.getElem_of_mem hx
  simp only [List.length_zipWith, hot_length, softmax_length, hv, min_self] at hi
  simp only [List.getElem_zipWith]
  have hp := softmax_pos (v := v) _ (List.getElem_mem (n := i) (by rw [softmax_length]; omega))
  have hl := softmax_lt_one (v := v) (by omega) _ (List.getElem_mem (n := i) (by rw [softmax_length]; omega))
  have hh : (hot t k : List K)[i]'(by rw [hot_length]; exact hi) = if i = k then 1 else 0 := by simp [hot]
  rw [hh]
  split
  · rw [abs_of_pos (by linarith)]
    constructor <;> linarith
  · rw [abs_of_neg (by linarith)]
    constructor <;> linarith

theorem residual_sum {t k : Nat} (hk : k < t) {v : List K} (hv : v.length = t) :
    (List.zipWith (· - ·) (hot t k) (softmax v)).sum = 0 := by
  have hne : v ≠ [] := by rintro rfl; simp at hv; omega
  have : ∀ (a b : List K), a.length = b.length → (List.zipWith (· - ·) a b).sum = a.sum - b.sum := by
    intro a
    induction a with
    | nil => intro b hb; rw [List.length_eq_zero_iff.mp hb.symm]; simp
    | cons x a ih =>
      intro b hb
      cases b with
      | nil => simp at hb
      | cons y b => simp only [List.zipWith_cons_cons, List.sum_cons, ih b (by simpa using hb)]; ring
  rw [this _ _ (by rw [hot_length, softmax_length, hv]), hot_sum hk, softmax_sum hne, sub_self]

/-! ## leaf outputs -/

theorem denomOf_exact {t : Nat} {rs : List (List K)} (hw : ∀ r ∈ rs, r.length = t) :
    denomOf t (lift rs) = liftV ((List.range t).map (fun j => ((target rs j).map (fun x => |x| * (1 - |x|))).sum)) := by
  have h1 : (lift rs).map (fun v => v.map denomTerm) = lift (rs.map (fun r => r.map (fun x => |x| * (1 - |x|)))) := by
    simp only [lift, liftV, List.map_map]
    apply List.map_congr_left
    intro r _
    simp only [Function.comp, liftV, List.map_map]
    apply List.map_congr_left
    intro x _
    simp [denomTerm]
  rw [denomOf, h1, vecSum_exact (by
    intro v hv
    obtain ⟨r, hr, rfl⟩ := List.mem_map.mp hv
    rw [List.length_map, hw r hr]), sumsOf]
  congr 1
  apply List.map_congr_left
  intro j hj
  rw [List.mem_range] at hj
  congr 1
  simp only [target, List.map_map]
  apply List.map_congr_left
  intro r hr
  have : j < r.length := by rw [hw r hr]; exact hj
  simp [this]

theorem denom_pos {rs : List (List K)} (hne : rs ≠ []) {j : Nat} (h : ∀ r ∈ rs, 0 < |r.getD j 0| ∧ |r.getD j 0| < 1) :
    0 < ((target rs j).map (fun x => |x| * (1 - |x|))).sum := by
  apply List.sum_pos
  · intro x hx
    simp only [target, List.map_map, List.mem_map] at hx
    obtain ⟨r, hr, rfl⟩ := hx
    obtain ⟨h1, h2⟩ := h r hr
    simp only [Function.comp]
    exact mul_pos h1 (by linarith)
  · simpa [target] using hne

theorem multiOut_exact {t : Nat} {rs : List (List K)} (hw : ∀ r ∈ rs, r.length = t) (hne : rs ≠ []) (hg : ∀ r ∈ rs, Good r) :
    multiOut t (lift rs) = liftV (classLeaf t rs) := by
  rcases Nat.eq_zero_or_pos t with rfl | ht
  · simp [multiOut, multiplyByScalar, denomOf_exact hw, vecSum_exact hw, sumsOf, classLeaf, liftV]
  have htn : (t : K) ≠ 0 := by exact_mod_cast ht.ne'
  simp only [multiOut, multiplyByScalar, vecSum_exact hw, denomOf_exact hw, sumsOf, liftV_range, zipWith_range_range, classLeaf,
    List.map_map, Ext.ofNat_def, Ext.one_def, Ext.fin_sub, Ext.fin_div _ _ htn]
  apply List.map_congr_left
  intro j hj
  rw [List.mem_range] at hj
  have hd := denom_pos hne (j := j) (by
    intro r hr
    have hjr : j < r.length := by rw [hw r hr]; exact hj
    have : r.getD j 0 ∈ r := by simp [hjr]
    exact hg r hr _ this)
  simp only [Function.comp, Ext.fin_div _ _ hd.ne', Ext.fin_mul]
  congr 1
  ring

theorem classLeaf_length (t : Nat) (rs : List (List K)) : (classLeaf t rs).length = t := by simp [classLeaf]

/-! ## the loop for one-hot labels -/

theorem probResid_lift {ls ps : List (List K)} {t : Nat} (ht : 0 < t) (hp : ∀ p ∈ ps, p.length = t) :
    List.zipWith (fun l v => List.zipWith F64.sub l (calculateProbabilities v)) (lift ls) (lift ps) = lift (probResid ls ps) := by
  apply List.ext_getElem (by simp [probResid, lift])
  intro i h1 h2
  simp [lift] at h1
  simp only [lift, probResid, List.getElem_zipWith, List.getElem_map]
  have : ps[i] ≠ [] := by
    intro h0
    have := hp _ (List.getElem_mem h1.2)
    rw [h0] at this; simp at this; omega
  rw [calculateProbabilities_exact this, liftV_zip_sub]

theorem probResid_length {ls ps : List (List K)} (h : ps.length = ls.length) : (probResid ls ps).length = ls.length := by
  simp [probResid, h]

theorem probResid_width {ls ps : List (List K)} {t : Nat} (hl : ∀ l ∈ ls, l.length = t) (hp : ∀ p ∈ ps, p.length = t) :
    ∀ r ∈ probResid ls ps, r.length = t := by
  intro r hr
  obtain ⟨i, hi, rfl⟩ := List.getElem_of_mem hr
  simp only [probResid, List.getElem_zipWith, List.length_zipWith, softmax_length]
  rw [hl _ (List.getElem_mem _), hp _ (List.getElem_mem _)]
  simp

theorem probResid_wf {d : DataSet (Ext K)} {c t : Nat} (h : d.WF c t) {ls ps : List (List K)} (hls : d.labels = lift ls)
    (hlen : ps.length = d.labels.length) (hw : ∀ p ∈ ps, p.length = t) :
    ({ d with labels := lift (probResid ls ps) } : DataSet (Ext K)).WF c t := by
  refine h.relabel ?_ ?_
  · rw [lift_length, probResid_length, hls, lift_length]
    rw [hlen, hls, lift_length]
  · intro l hl
    obtain ⟨v, hv, rfl⟩ := mem_lift.mp hl
    rw [liftV_length]
    exact probResid_width (lift_width hls h.label_len) hw v hv

theorem probResid_good {ls ps : List (List K)} {t : Nat} (h2 : 2 ≤ t) (hl : ∀ l ∈ ls, ∃ k < t, l = hot t k)
    (hp : ∀ p ∈ ps, p.length = t) : ∀ r ∈ probResid ls ps, Good r := by
  intro r hr
  obtain ⟨i, hi, rfl⟩ := List.getElem_of_mem hr
  simp only [probResid, List.getElem_zipWith]
  obtain ⟨k, _, hk⟩ := hl _ (List.getElem_mem (show i < ls.length by simp [probResid] at hi; omega))
  rw [hk]
  exact residual_good (hp _ (List.getElem_mem _)) h2

theorem labels_hot {d : DataSet (Ext K)} {t : Nat} (h : ∀ l ∈ d.labels, ∃ k < t, l = oneHot t k) :
    ∃ ls : List (List K), d.labels = lift ls ∧ ∀ l ∈ ls, ∃ k < t, l = hot t k := by
  have hf : ∀ l ∈ d.labels, ∃ v : List K, l = liftV v := by
    intro l hl
    obtain ⟨k, _, rfl⟩ := h l hl
    exact ⟨_, oneHot_lift t k⟩
  refine ⟨vals d.labels, (lift_vals hf).symm, ?_⟩
  intro l hl
  have : liftV l ∈ d.labels := by
    rw [← lift_vals hf, mem_lift]; exact ⟨l, hl, rfl⟩
  obtain ⟨k, hk, he⟩ := h _ this
  exact ⟨k, hk, liftV_injective (by rw [he, oneHot_lift])⟩

theorem mates_mem {tree : TreeNode (Ext K) L} {rows : List (List (Ext K))} {rs : List (List K)} {row : List (Ext K)} :
    ∀ r ∈ mates tree (rows.zip rs) row, r ∈ rs := by
  intro r hr
  obtain ⟨e, he, rfl⟩ := List.mem_map.mp hr
  exact (List.of_mem_zip (show (e.1, e.2) ∈ _ from List.mem_of_mem_filter he)).2

theorem gradOut_class_exact {c t : Nat} (m : Nat) {d : DataSet (Ext K)} (h : d.WF c t) {rs : List (List K)} (hrs : d.labels = lift rs)
    (hg : ∀ r ∈ rs, Good r) {row : List (Ext K)} (hrow : c ≤ row.length) :
    gradOut row (treeOf (gradLeaf .multiClassClassification t) c t m d) =
      .ok (liftV (classLeaf t (mates (treeOf (gradLeaf .multiClassClassification t) c t m d) (d.featureRows.zip rs) row))) := by
  obtain ⟨dd, hw, ho, he⟩ := gradOut_ok .multiClassClassification m h hrow
  obtain ⟨h1, h2, h3⟩ := mates_ok hrs hw he
  rw [ho, h1]
  simp only [leafOut]
  rw [multiOut_exact h3 h2 (fun r hr => hg r (mates_mem r hr))]

/-- the largest entry of a finite vector -/
theorem findMax_exact {v : List K} (hne : v ≠ []) :
    ∃ (k : Nat) (hk : k < v.length), findMaxValueAndIndex (liftV v) = (.fin v[k], k) ∧ ∀ x ∈ v, x ≤ v[k] := by
  have hlt : (findMaxValueAndIndex (liftV v)).2 < v.length := by
    have := findMax_lt (liftV v) (by simpa [liftV] using hne)
    rwa [liftV_length] at this
  rcases findMax_spec (liftV v) with ⟨_, _, h3⟩ | ⟨h1, _, h3, _⟩
  · obtain ⟨x, hx⟩ := List.exists_mem_of_ne_nil v hne
    have := h3 (.fin x) (List.mem_map.mpr ⟨x, hx, rfl⟩)
    exact Bool.noConfusion (show true = false from this)
  · refine ⟨_, hlt, ?_, ?_⟩
    · have h4 : (liftV v)[(findMaxValueAndIndex (liftV v)).2]? = some (.fin v[(findMaxValueAndIndex (liftV v)).2]) := by
        simp [liftV, hlt]
      rw [h4] at h1
      have := Option.some.inj h1
      exact Prod.ext this.symm rfl
    · intro x hx
      have h4 : (liftV v)[(findMaxValueAndIndex (liftV v)).2]? = some (.fin v[(findMaxValueAndIndex (liftV v)).2]) := by
        simp [liftV, hlt]
      rw [h4] at h1
      have h5 := h3 (.fin x) (List.mem_map.mpr ⟨x, hx, rfl⟩)
      rw [← Option.some.inj h1, Ext.fin_lt, decide_eq_false_iff_not] at h5
      exact _root_.not_lt.mp h5

/-- the vector an AMG leaf stands for, over the field -/
def amgField (t : Nat) (mx : K) (k : Nat) : List K := (List.replicate t (-mx / ((t : K) - 1))).set k mx

theorem amgVec_exact {t : Nat} (h2 : 2 ≤ t) {v : List K} (hv : v.length = t) :
    ∃ (k : Nat) (hk : k < v.length), amgVec t (liftV v) = liftV (amgField t v[k] k) ∧ (∀ x ∈ v, x ≤ v[k]) := by
  have hne : v ≠ [] := by rintro rfl; simp at hv; omega
  obtain ⟨k, hk, h1, h3⟩ := findMax_exact hne
  have ht : ((t : K) - 1) ≠ 0 := by
    have : (1 : K) < t := by exact_mod_cast (by omega : 1 < t)
    linarith
  refine ⟨k, hk, ?_, h3⟩
  rw [amgVec, h1]
  simp only [calculateApproximateValue, Ext.fin_neg, Ext.ofNat_def, Ext.one_def, Ext.fin_sub, Ext.fin_div _ _ ht, amgField,
    liftV, List.map_set, List.map_replicate]

theorem amgField_length (t : Nat) (mx : K) (k : Nat) : (amgField t mx k).length = t := by simp [amgField]

theorem amgField_sum {t : Nat} (h2 : 2 ≤ t) (mx : K) {k : Nat} (hk : k < t) : (amgField t mx k).sum = 0 := by
  have ht : ((t : K) - 1) ≠ 0 := by
    have : (1 : K) < t := by exact_mod_cast (by omega : 1 < t)
    linarith
  have key : ∀ (n k : Nat) (a b : K), k < n → ((List.replicate n a).set k b).sum = (n - 1) * a + b := by
    intro n
    induction n with
    | zero => intro k a b hk; omega
    | succ n ih =>
      intro k a b hk
      cases k with
      | zero => simp [List.replicate_succ]; ring
      | succ k =>
        rw [List.replicate_succ, List.set_cons_succ, List.sum_cons, ih k a b (by omega)]
        push_cast; ring
  rw [amgField, key _ _ _ _ hk]
  field_simp
  ring

end Verif
