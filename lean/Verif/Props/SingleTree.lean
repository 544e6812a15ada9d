import Verif.Lemmas.ExactAmg
import Verif.Spec.Fit
/-!
# C65: boosting for one iteration is a single tree

In exact arithmetic: with one iteration all ensembles ask the questions of the regression tree grown with the same settings, and their
predictions are determined by the labels in the leaf of that tree.
-/

set_option linter.unusedSectionVars false

namespace Verif

variable {K : Type} [Field K] [LinearOrder K] [IsStrictOrderedRing K] [FloorSemiring K] [HasExp K]

open Sample

theorem reorders_id (t : Nat) : Reorders t id := ⟨fun _ h => h, fun _ _ _ _ h => h⟩

section
variable {d : DataSet (Ext K)} {c t : Nat} {ls : List (List K)}

/-- subtracting one vector from all labels does not change the questions -/
theorem shifted_tree {L L' : Type} {leafOf : DataSet (Ext K) → L} {leafOf' : DataSet (Ext K) → L'} (h : d.WF c t) (hls : d.labels = lift ls)
    (m : Nat) (b : Nat → K) :
    (∀ p, (treeOf leafOf' c t m (withLabels d (ls.map (relabel t id 1 b)))).questionAt p = (treeOf leafOf c t m d).questionAt p) ∧
      ∀ row, mates (treeOf leafOf' c t m (withLabels d (ls.map (relabel t id 1 b)))) (d.featureRows.zip (ls.map (relabel t id 1 b))) row =
        (mates (treeOf leafOf c t m d) (d.featureRows.zip ls) row).map (relabel t id 1 b) := by
  obtain ⟨h1, h2, _⟩ := treeOf_relabel (b := b) (leafOf := leafOf) (leafOf' := leafOf') (reorders_id t) (one_ne_zero (α := K)) m d h ls hls
  exact ⟨h1, fun row => mates_relabel h2 d.featureRows ls _ row⟩

theorem resid_const (hlw : ∀ l ∈ ls, l.length = t) {g : List K} (hg : g.length = t) :
    resid ls (List.replicate ls.length g) = ls.map (relabel t id 1 (fun j => -g.getD j 0)) := by
  apply List.ext_getElem (by simp [resid])
  intro i h1 h2
  simp only [resid, List.getElem_zipWith, List.getElem_map, List.getElem_replicate]
  rw [zipWith_getD (hlw _ (List.getElem_mem _)) hg 0 0, relabel]
  apply List.map_congr_left
  intro j _
  simp only [id]
  ring

theorem sqErr_comm {p a : List K} (h : p.length = a.length) : sqErr p a = sqErr a p := by
  rw [sqErr_eq rfl h.symm, sqErr_eq h.symm rfl, h]
  congr 2
  apply List.map_congr_left
  intro j _
  ring

theorem mseOf_comm {ps as : List (List K)} (h : ps.length = as.length) (hp : ∀ p ∈ ps, p.length = t) (ha : ∀ a ∈ as, a.length = t) :
    mseOf ps as = mseOf as ps := by
  rw [mseOf, mseOf, h]
  congr 2
  apply List.ext_getElem (by simp [h])
  intro i h1 h2
  simp only [List.getElem_zipWith]
  exact sqErr_comm (by rw [hp _ (List.getElem_mem _), ha _ (List.getElem_mem _)])

end

/-- **C65** (regression).  One iteration: the only tree asks the questions of the regression tree, and a prediction lies between the
average label of all training rows and the average label in the row's leaf of the regression tree: `lr` is the weight of the latter. -/
theorem C65_regression (d : DataSet (Ext K)) (c t : Nat) (h : d.WF c t) (ls : List (List K)) (hls : d.labels = lift ls) (cfg : TreeConfig)
    (hc : cfg.numberOfClasses = t) (lr : K) :
    ∃ m only tree, regressionTrain d cfg 1 (.fin lr) = .ok m ∧ m.trees = [only] ∧ regressionTreeNew d cfg = .ok tree ∧
      (∀ p, only.questionAt p = tree.questionAt p) ∧
      ∀ row : List (Ext K), c ≤ row.length →
        regressionPredict m row = .ok (liftV (between t lr (meanVec t (mates tree (d.featureRows.zip ls) row)) (meanVec t ls))) := by
  have hlw := lift_width hls h.label_len
  have hs0 := regState_start (cfg := cfg) (lr := lr) h hls
  obtain ⟨s1, q1, e1, r1, _⟩ := regState_step h hls hc hs0
  have hg : (liftV (meanVec t ls) : List (Ext K)).length = t := by rw [liftV_length, meanVec_length]
  obtain ⟨f1, g1⟩ := regression_step_exact h hls hc hg hs0.finite e1
  rw [resid_const hlw (meanVec_length t ls)] at g1
  have hl : regLoopAt d cfg lr (liftV (meanVec t ls)) 1 = .ok s1 := by
    rw [regLoopAt, boostLoop_succ]; exact e1
  obtain ⟨k1, k2⟩ := shifted_tree (leafOf := regLeaf) (leafOf' := gradLeaf .regression t) h hls cfg.maxLevels (fun j => -(meanVec t ls).getD j 0)
  refine ⟨_, _, _, regressionTrain_of_loop h hls hl, g1, regressionTreeNew_ok h hc, k1, ?_⟩
  intro row hrow
  have hne := mates_ne h hls cfg.maxLevels regLeaf hrow
  rw [regressionPredict, predictInstance_eq, g1]
  refine (rawScore_exact (outs := [_]) (meanVec_length _ _) (.cons ⟨gradOut_regression_exact cfg.maxLevels
    (withLabels_wf (σ := id) (a := 1) (b := fun j => -(meanVec t ls).getD j 0) h hls) (ls := ls.map _) rfl hrow, meanVec_length _ _⟩ .nil)).trans ?_
  rw [k2 row, meanVec_relabel (reorders_id t) (.inl hne), between]
  congr 2
  apply List.map_congr_left
  intro j hj
  rw [List.mem_range] at hj
  simp only [List.map_cons, List.map_nil, List.sum_cons, List.sum_nil, relabel, getD_range hj, id]
  ring

/-- **C65** (score).  With learning rate 1, one iteration scores exactly what the regression tree scores, on every test set. -/
theorem C65_regression_score (d : DataSet (Ext K)) (c t : Nat) (h : d.WF c t) (ht0 : 0 < t) (ls : List (List K)) (hls : d.labels = lift ls)
    (cfg : TreeConfig) (hc : cfg.numberOfClasses = t) (test : DataSet (Ext K)) (hrows : ∀ row ∈ test.featureRows, c ≤ row.length)
    (as : List (List K)) (has : test.labels = lift as) (haw : ∀ v ∈ as, v.length = t) (hcount : as.length = test.featureRows.length)
    (hne : test.featureRows ≠ []) :
    ∃ m tree e, regressionTrain d cfg 1 (.fin 1) = .ok m ∧ regressionTreeNew d cfg = .ok tree ∧
      regressionScore m test = .ok (.fin e) ∧ calculateOverallMse test tree = .ok (.fin e) := by
  obtain ⟨m, only, tree, h1, h2, h3, _, h4⟩ := C65_regression d c t h ls hls cfg hc 1
  have ht : tree = treeOf regLeaf c t cfg.maxLevels d := Except.ok.inj (h3.symm.trans (regressionTreeNew_ok h hc))
  have hb : ∀ u v : List K, u.length = t → between t 1 u v = u := by
    intro u v hu
    rw [between]
    conv_rhs => rw [eq_range_getD hu 0]
    apply List.map_congr_left
    intro j _
    ring
  have hp : test.featureRows.mapM (regressionPredict m) =
      .ok (lift (test.featureRows.map (fun row => meanVec t (mates tree (d.featureRows.zip ls) row)))) := by
    rw [lift, List.map_map]
    refine mapM_ok ?_
    intro row hr
    rw [h4 row (hrows row hr), hb _ _ (meanVec_length _ _)]
    rfl
  have hw : ∀ p ∈ test.featureRows.map (fun row => meanVec t (mates tree (d.featureRows.zip ls) row)), p.length = t := by
    intro p hp
    obtain ⟨row, _, rfl⟩ := List.mem_map.mp hp
    exact meanVec_length _ _
  refine ⟨m, tree, _, h1, h3, (C29_ensemble_exact m test t ht0 _ as hp has hw haw hcount hne).1, ?_⟩
  rw [mseOf_comm (by simpa using hcount) haw hw, ht]
  exact overallMse_exact h ht0 hls cfg.maxLevels hrows has haw hcount hne

/-! ## classification -/

section
variable {d : DataSet (Ext K)} {c t : Nat} {ls : List (List K)}

theorem softmax_const {n : Nat} (h : 0 < n) (x : K) : softmax (List.replicate n x) = List.replicate n (1 / (n : K)) := by
  have hx : HasExp.exp x ≠ 0 := (HasExp.exp_pos x).ne'
  have hn : (n : K) ≠ 0 := by exact_mod_cast h.ne'
  simp only [softmax, List.map_replicate, List.sum_replicate, nsmul_eq_mul]
  congr 1
  field_simp

theorem probResid_const (ht : 0 < t) (hlw : ∀ l ∈ ls, l.length = t) (x : K) :
    probResid ls (List.replicate ls.length (List.replicate t x)) = ls.map (relabel t id 1 (fun _ => -(1 / (t : K)))) := by
  apply List.ext_getElem (by simp [probResid])
  intro i h1 h2
  simp only [probResid, List.getElem_zipWith, List.getElem_map, List.getElem_replicate]
  rw [softmax_const ht, zipWith_getD (hlw _ (List.getElem_mem _)) (List.length_replicate ..) 0 0, relabel]
  apply List.map_congr_left
  intro j hj
  rw [List.mem_range] at hj
  simp only [id, List.getD_eq_getElem?_getD, List.getElem?_replicate, hj, if_true, Option.getD_some]
  ring

/-- the leaf output after the constant guess: `t` times the frequency, minus one -/
theorem classLeaf_const (h2 : 2 ≤ t) {ms : List (List K)} (hne : ms ≠ []) (hh : ∀ l ∈ ms, ∃ k < t, l = hot t k) :
    classLeaf t (ms.map (relabel t id 1 (fun _ => -(1 / (t : K))))) = (List.range t).map (fun j => t * meanOf (target ms j) - 1) := by
  have ht : (0 : K) < t := by exact_mod_cast (by omega : 0 < t)
  have ht1 : (1 : K) < t := by exact_mod_cast (by omega : 1 < t)
  have hn := length_cast_ne (K := K) hne
  rw [classLeaf]
  apply List.map_congr_left
  intro j hj
  rw [List.mem_range] at hj
  rw [target_relabel ms hj, sum_affine]
  have hd : ((target ms (id j)).map (fun x => 1 * x + -(1 / (t : K)))).map (fun x => |x| * (1 - |x|)) =
      List.replicate ms.length (1 / (t : K) * (1 - 1 / t)) := by
    rw [List.eq_replicate_iff]
    refine ⟨by simp [target], ?_⟩
    intro y hy
    simp only [target, List.map_map, List.mem_map, Function.comp_apply, id] at hy
    obtain ⟨l, hl, rfl⟩ := hy
    obtain ⟨k, _, rfl⟩ := hh l hl
    rw [hot, getD_range hj]
    have hp : 0 < 1 / (t : K) := by positivity
    have hq : 1 / (t : K) < 1 := by rw [div_lt_one ht]; exact ht1
    split
    · rw [abs_of_pos (by linarith)]; ring
    · rw [abs_of_neg (by linarith)]; ring
  rw [hd, List.sum_replicate, nsmul_eq_mul, meanOf, target_length, target_length]
  simp only [id]
  have h3 : ((t : K) - 1) ≠ 0 := by linarith
  have h4 : (1 - 1 / (t : K)) = ((t : K) - 1) / t := by field_simp
  rw [h4]
  field_simp
  ring

/-- counting a class is adding its entries -/
theorem target_sum_count {ms : List (List K)} (hh : ∀ l ∈ ms, ∃ k < t, l = hot t k) {j : Nat} (hj : j < t) :
    (target ms j).sum = (classCount (lift ms) j : K) := by
  induction ms with
  | nil => simp [target, classCount, lift]
  | cons l ms ih =>
    obtain ⟨k, hk, rfl⟩ := hh l (by simp)
    have ih := ih (fun l hl => hh l (by simp [hl]))
    have e : (liftV (hot t k : List K))[j]? = some (.fin (if j = k then 1 else 0)) := by simp [liftV, hot, hj]
    simp only [target, List.map_cons, List.sum_cons] at ih ⊢
    rw [ih]
    simp only [classCount, lift, List.map_cons, List.countP_cons, e]
    rw [hot, getD_range hj, Ext.one_def, Ext.fin_eq]
    by_cases hjk : j = k
    · simp [hjk]; ring
    · simp [hjk]

/-- scores that grow with the counts put the same class first -/
theorem firstTop_of_majority {ms : List (List K)} (hne : ms ≠ []) (hh : ∀ l ∈ ms, ∃ k < t, l = hot t k) {k : Nat}
    (hk : FirstMajority (lift ms) t k) {lr : K} (hlr : 0 < lr) (g : K) (h2 : 2 ≤ t) :
    FirstTop ((List.range t).map (fun j => g + lr * (t * meanOf (target ms j) - 1))) k := by
  obtain ⟨h1, h3, h4⟩ := hk
  have ht : (0 : K) < t := by exact_mod_cast (by omega : 0 < t)
  have hn : (0 : K) < ms.length := by exact_mod_cast List.length_pos_of_ne_nil hne
  have mono : ∀ i < t, ∀ j < t, classCount (lift ms) i < classCount (lift ms) j →
      g + lr * (t * meanOf (target ms i) - 1) < g + lr * (t * meanOf (target ms j) - 1) := by
    intro i hi j hj hij
    have : (classCount (lift ms) i : K) < classCount (lift ms) j := by exact_mod_cast hij
    have h5 : meanOf (target ms i) < meanOf (target ms j) := by
      rw [meanOf, meanOf, target_length, target_length, target_sum_count hh hi, target_sum_count hh hj]
      exact div_lt_div_of_pos_right this hn
    have := mul_lt_mul_of_pos_left (sub_lt_sub_right (mul_lt_mul_of_pos_left h5 ht) 1) hlr
    linarith
  refine ⟨by simpa using h1, ?_, ?_⟩
  · intro j hj
    rw [List.length_map, List.length_range] at hj
    rw [getD_range hj, getD_range h1]
    rcases Nat.lt_or_ge (classCount (lift ms) j) (classCount (lift ms) k) with h | h
    · exact (mono j hj k h1 h).le
    · have he : classCount (lift ms) j = classCount (lift ms) k := Nat.le_antisymm (h3 j hj) h
      rw [meanOf, meanOf, target_length, target_length, target_sum_count hh hj, target_sum_count hh h1, he]
  · intro j hj
    have hj' : j < t := by omega
    rw [getD_range hj', getD_range h1]
    exact mono j hj' k h1 (h4 j hj)

theorem classLeaf_const_sum {ms : List (List K)} (hne : ms ≠ []) (hh : ∀ l ∈ ms, ∃ k < t, l = hot t k) :
    ((List.range t).map (fun j => t * meanOf (target ms j) - 1)).sum = 0 := by
  have hn := length_cast_ne (K := K) hne
  have hs : ∀ ms : List (List K), (∀ l ∈ ms, ∃ k < t, l = hot t k) → ((List.range t).map (fun j => (target ms j).sum)).sum = ms.length := by
    intro ms
    induction ms with
    | nil => intro _; simp [target]
    | cons l ms ih =>
      intro hh
      obtain ⟨k, hk, rfl⟩ := hh l (by simp)
      have := ih (fun l hl => hh l (by simp [hl]))
      simp only [target, List.map_cons, List.sum_cons, List.sum_map_add] at this ⊢
      rw [this, ← eq_range_getD (hot_length t k) 0, hot_sum hk]
      simp; ring
  have e : (List.range t).map (fun j => (t : K) * meanOf (target ms j) - 1) =
      (List.range t).map (fun j => (t : K) / ms.length * (target ms j).sum + -1) := by
    apply List.map_congr_left
    intro j _
    rw [meanOf, target_length]
    ring
  rw [e, List.sum_map_add, List.sum_map_mul_left, hs ms hh]
  simp
  field_simp
  ring

theorem sum_nonpos {o : List K} (h : ∀ x ∈ o, x ≤ 0) : o.sum ≤ 0 := by
  induction o with
  | nil => simp
  | cons x o ih =>
    have := ih (fun y hy => h y (by simp [hy]))
    have := h x (by simp)
    rw [List.sum_cons]; linarith

theorem sum_neg {o : List K} (hne : o ≠ []) (h : ∀ x ∈ o, x < 0) : o.sum < 0 := by
  cases o with
  | nil => exact absurd rfl hne
  | cons x o =>
    have := sum_nonpos (o := o) (fun y hy => (h y (by simp [hy])).le)
    have := h x (by simp)
    rw [List.sum_cons]; linarith

/-- keeping only the largest entry does not move it -/
theorem firstTop_keepTop {o : List K} (h2 : 2 ≤ t) (ho : o.length = t) (hz : o.sum = 0) {k : Nat} (hk : FirstTop o k) {lr : K} (hlr : 0 < lr)
    (g : K) : FirstTop ((List.range t).map (fun j => g + lr * (keepTop t o).getD j 0)) k := by
  have hne : o ≠ [] := by rintro rfl; simp at ho; omega
  have hk2 : (findMaxValueAndIndex (liftV o)).2 = k := (findMax_top hne).unique hk
  obtain ⟨h1, h3, h4⟩ := hk
  rw [ho] at h1
  have ht1 : (0 : K) < (t : K) - 1 := by
    have : (1 : K) < t := by exact_mod_cast (by omega : 1 < t)
    linarith
  have hv : ∀ j < t, ((List.range t).map (fun j => g + lr * (keepTop t o).getD j 0)).getD j 0 =
      g + lr * (if j = k then o.getD k 0 else -o.getD k 0 / ((t : K) - 1)) := by
    intro j hj
    rw [getD_range hj, keepTop, amgField_getD _ hj, hk2]
  have hnn : 0 ≤ o.getD k 0 := by
    by_contra hneg
    rw [_root_.not_le] at hneg
    have : o.sum < 0 := by
      have hall : ∀ x ∈ o, x < 0 := by
        intro x hx
        obtain ⟨i, hi, rfl⟩ := List.getElem_of_mem hx
        have := h3 i hi
        rw [List.getD_eq_getElem?_getD, List.getElem?_eq_getElem hi, Option.getD_some] at this
        exact this.trans_lt hneg
      exact sum_neg hne hall
    linarith
  have hle : -o.getD k 0 / ((t : K) - 1) ≤ 0 := div_nonpos_of_nonpos_of_nonneg (by linarith) ht1.le
  refine ⟨by simpa using h1, ?_, ?_⟩
  · intro j hj
    rw [List.length_map, List.length_range] at hj
    rw [hv j hj, hv k h1, if_pos rfl]
    split
    · exact le_rfl
    · have := mul_le_mul_of_nonneg_left (hle.trans hnn) hlr.le
      linarith
  · intro j hj
    have hj' : j < t := by omega
    rw [hv j hj', hv k h1, if_pos rfl, if_neg (by omega)]
    -- with a tie at zero there is no earlier position
    have hpos : 0 < o.getD k 0 := by
      rcases hnn.lt_or_eq with h | h
      · exact h
      · exfalso
        have h5 := h4 j hj
        rw [← h] at h5
        have hall : ∀ x ∈ o, x ≤ 0 := by
          intro x hx
          obtain ⟨i, hi, rfl⟩ := List.getElem_of_mem hx
          have := h3 i hi
          rwa [← h, List.getD_eq_getElem?_getD, List.getElem?_eq_getElem hi, Option.getD_some] at this
        have hjo : j < o.length := by omega
        have hsplit : o.sum = (o.take j).sum + (o[j] + (o.drop (j + 1)).sum) := by
          conv_lhs => rw [← List.take_append_drop j o, List.sum_append, List.drop_eq_getElem_cons hjo, List.sum_cons]
        have a1 := sum_nonpos (fun x hx => hall x (List.mem_of_mem_take (i := j) hx))
        have a2 := sum_nonpos (fun x hx => hall x (List.mem_of_mem_drop (i := j + 1) hx))
        rw [List.getD_eq_getElem?_getD, List.getElem?_eq_getElem hjo, Option.getD_some] at h5
        linarith
    have : -o.getD k 0 / ((t : K) - 1) < o.getD k 0 := hle.trans_lt hpos
    have := mul_lt_mul_of_pos_left this hlr
    linarith

end

/-- **C65** (classification).  One-hot labels of two or more classes, one iteration, positive learning rate: the only tree of either
ensemble asks the questions of the regression tree, the multi-class score of a class is `1/t + lr (t f - 1)` with `f` its frequency in
the row's leaf of the regression tree, and both ensembles predict the class that `predict_class` gives for that tree. -/
theorem C65_classification (d : DataSet (Ext K)) (c t : Nat) (h : d.WF c t) (h2 : 2 ≤ t) (ht : t ≤ 2 ^ 53) (ls : List (List K))
    (hls : d.labels = lift ls) (hot : ∀ l ∈ d.labels, ∃ k < t, l = oneHot t k) (hn : d.featureRows.length < 2 ^ 32) (cfg : TreeConfig)
    (hc : cfg.numberOfClasses = t) (lr : K) (hlr : 0 < lr) :
    ∃ m m' only only' tree, multiClassTrain d cfg 1 (.fin lr) = .ok m ∧ amgTrain d cfg 1 (.fin lr) = .ok m' ∧
      regressionTreeNew d cfg = .ok tree ∧ m.trees = [only] ∧ m'.trees = [only'] ∧
      (∀ p, only.questionAt p = tree.questionAt p ∧ only'.questionAt p = tree.questionAt p) ∧
      ∀ row : List (Ext K), c ≤ row.length →
        predictInstance row m.trees m.initialGuess m.learningRate = .ok (liftV ((List.range t).map (fun k =>
          1 / (t : K) + lr * (t * meanOf (target (mates tree (d.featureRows.zip ls) row) k) - 1)))) ∧
        multiClassPredict m row = predictClass row tree ∧ amgPredict m' row = predictClass row tree ∧
        ∃ k, FirstMajority (companions d tree row) t k ∧ predictClass row tree = .ok (oneHot t k) := by
  have hlw := lift_width hls h.label_len
  have hh : ∀ l ∈ ls, ∃ k < t, l = Verif.hot t k := by
    obtain ⟨ls', h1, h3⟩ := labels_hot hot
    rw [hls] at h1
    rw [lift_injective h1]
    exact h3
  have hll : d.labels.length = ls.length := by rw [hls, lift_length]
  have hg : (liftV (List.replicate t (1 / (t : K))) : List (Ext K)).length = t := by simp [liftV]
  have s0 := (class_start (d := d) (t := t) (m := 0) (ls := ls) (leafOf := fun _ => (⟨none⟩ : GradBoostLeaf (Ext K))) (c := c) (lr := lr)
    (out := gradOut) (List.replicate t (1 / (t : K))) (by simp)).finite
  have s0' := (class_start (d := d) (t := t) (m := 0) (ls := ls) (leafOf := fun _ => (⟨none, none⟩ : AMGBoostLeaf (Ext K))) (c := c) (lr := lr)
    (out := amgOut t) (List.replicate t (1 / (t : K))) (by simp)).finite
  obtain ⟨s1, e1, f1, g1⟩ := class_step_explicit h h2 hls hh hc hg s0
  obtain ⟨s1', e1', f1', g1'⟩ := amg_step_explicit h h2 hls hh hc hg s0'
  have hl := multi_train (n := 1) h h2 ht (by rw [boostLoop_succ]; exact e1)
  have hl' := amg_train (n := 1) h h2 ht (by rw [boostLoop_succ]; exact e1')
  have hgood := probResid_good h2 hh s0.width
  rw [hll, probResid_const (by omega) hlw] at g1 g1' hgood
  have hwf := withLabels_wf (σ := id) (a := 1) (b := fun _ => -(1 / (t : K))) h hls
  obtain ⟨k1, k2⟩ := shifted_tree (leafOf := regLeaf) (leafOf' := gradLeaf .multiClassClassification t) h hls cfg.maxLevels (fun _ => -(1 / (t : K)))
  obtain ⟨k1', k2'⟩ := shifted_tree (leafOf := regLeaf) (leafOf' := amgLeaf .multiClassClassification t) h hls cfg.maxLevels (fun _ => -(1 / (t : K)))
  refine ⟨_, _, _, _, _, hl, hl', regressionTreeNew_ok h hc, g1, g1', fun p => ⟨k1 p, k1' p⟩, ?_⟩
  intro row hrow
  set ms := mates (treeOf regLeaf c t cfg.maxLevels d) (d.featureRows.zip ls) row with hms
  have hne : ms ≠ [] := mates_ne h hls cfg.maxLevels regLeaf hrow
  have hmh : ∀ l ∈ ms, ∃ k < t, l = Verif.hot t k := fun l hl => hh l (mates_mem l hl)
  obtain ⟨k, hk, hp⟩ := C27_first_majority d c t h (by omega) ht hn cfg hc _ (regressionTreeNew_ok h hc) row hrow
  have hk' := hk
  rw [companions_lift hls] at hk'
  have hrep : ∀ j < t, (List.replicate t (1 / (t : K))).getD j 0 = 1 / t := by
    intro j hj
    simp [hj]
  have score : predictInstance row s1.2 (liftV (List.replicate t (1 / (t : K)))) (.fin lr) = .ok (liftV ((List.range t).map (fun k =>
      1 / (t : K) + lr * (t * meanOf (target ms k) - 1)))) := by
    rw [predictInstance_eq, g1]
    refine (rawScore_exact (outs := [_]) (by simp) (.cons ⟨gradOut_class_exact cfg.maxLevels hwf (rs := ls.map _) rfl hgood hrow,
      classLeaf_length _ _⟩ .nil)).trans ?_
    rw [k2 row, classLeaf_const h2 hne hmh]
    congr 2
    apply List.map_congr_left
    intro j hj
    rw [List.mem_range] at hj
    rw [hrep j hj]
    simp only [List.map_cons, List.map_nil, List.sum_cons, List.sum_nil, getD_range hj]
    ring
  have score' : amgPredictInstance row s1'.2 (liftV (List.replicate t (1 / (t : K)))) (.fin lr) t = .ok (liftV ((List.range t).map (fun j =>
      1 / (t : K) + lr * (keepTop t ((List.range t).map (fun j => t * meanOf (target ms j) - 1))).getD j 0))) := by
    rw [amgPredictInstance_eq, g1']
    refine (rawScore_exact (outs := [_]) (by simp) (.cons ⟨amgOut_class_exact h2 cfg.maxLevels hwf hgood hrow, keepTop_length _ _⟩ .nil)).trans ?_
    rw [amgOutAt, k2' row, classLeaf_const h2 hne hmh]
    congr 2
    apply List.map_congr_left
    intro j hj
    rw [List.mem_range] at hj
    rw [hrep j hj]
    simp only [List.map_cons, List.map_nil, List.sum_cons, List.sum_nil, add_zero]
  have hvl : ∀ f : Nat → K, (liftV ((List.range t).map f)).length = t := fun f => by simp [liftV]
  have hvn : ∀ f : Nat → K, liftV ((List.range t).map f) ≠ [] := by
    intro f h0
    have := congrArg List.length h0
    rw [hvl] at this
    simp at this
    omega
  refine ⟨score, ?_, ?_, k, hk, hp⟩
  · obtain ⟨k', q1, q2, q3⟩ := (C39_multiClass_one_hot ⟨s1.2, liftV (List.replicate t (1 / (t : K))), .fin lr⟩ row _ score).1 (hvn _)
    rw [hvl] at q3
    rw [hp, q3, C39_unique _ _ _ q2 (firstTop_of_majority hne hmh hk' hlr _ h2).firstMax]
  · obtain ⟨k', q1, q2, q3⟩ := (C39_amg_one_hot ⟨s1'.2, liftV (List.replicate t (1 / (t : K))), .fin lr⟩ row _ (by rw [hg]; exact score')).1 (hvn _)
    rw [hvl] at q3
    have htop := firstTop_of_majority hne hmh hk' (one_pos (α := K)) 0 h2
    simp only [one_mul, zero_add] at htop
    have := firstTop_keepTop h2 (by simp) (classLeaf_const_sum hne hmh) htop hlr (1 / (t : K))
    rw [hp, q3, C39_unique _ _ _ q2 this.firstMax]

/-- **C65** (accuracy).  Hence the three score the same accuracy on every test set. -/
theorem C65_accuracy (d : DataSet (Ext K)) (c t : Nat) (h : d.WF c t) (h2 : 2 ≤ t) (ht : t ≤ 2 ^ 53)
    (hot : ∀ l ∈ d.labels, ∃ k < t, l = oneHot t k) (hn : d.featureRows.length < 2 ^ 32) (cfg : TreeConfig)
    (hc : cfg.numberOfClasses = t) (lr : K) (hlr : 0 < lr) (test : DataSet (Ext K)) (hrows : ∀ row ∈ test.featureRows, c ≤ row.length)
    (hcount : test.featureRows.length ≤ test.labels.length) (htn : test.featureRows.length ≤ 2 ^ 53) :
    ∃ m m' tree a, multiClassTrain d cfg 1 (.fin lr) = .ok m ∧ amgTrain d cfg 1 (.fin lr) = .ok m' ∧ regressionTreeNew d cfg = .ok tree ∧
      multiClassScore m test = .ok a ∧ amgScore m' test = .ok a ∧ calculateAccuracy test tree = .ok a := by
  obtain ⟨ls, hls, _⟩ := labels_hot hot
  obtain ⟨m, m', _, _, tree, h1, h3, h4, _, _, _, h5⟩ := C65_classification d c t h h2 ht ls hls hot hn cfg hc lr hlr
  have hp : ∀ row ∈ test.featureRows, ∃ p, predictClass row tree = .ok p := by
    intro row hr
    obtain ⟨_, _, _, k, _, hk⟩ := h5 row (hrows row hr)
    exact ⟨_, hk⟩
  obtain ⟨preds, hpreds⟩ := mapM_ok_iff.mpr hp
  refine ⟨m, m', tree, _, h1, h3, h4, ?_, ?_, (C28_tree_accuracy test tree _ htn).mpr ⟨preds, hpreds, hcount, rfl⟩⟩
  · refine (C28_multiClass_accuracy m test _ htn).mpr ⟨preds, ?_, hcount, rfl⟩
    rw [← hpreds]
    exact mapM_congr (fun row hr => (h5 row (hrows row hr)).2.1)
  · refine (C28_amg_accuracy m' test _ htn).mpr ⟨preds, ?_, hcount, rfl⟩
    rw [← hpreds]
    exact mapM_congr (fun row hr => (h5 row (hrows row hr)).2.2.1)

-- one iteration on three classes, a leaf with several rows
example : (do
    let cfg : TreeConfig := { useMultiThreading := true, numberOfClasses := 3, maxLevels := 1 }
    let m ← multiClassTrain d5 cfg 1 (.fin (1 / 2))
    let m' ← amgTrain d5 cfg 1 (.fin (1 / 2))
    let tree ← regressionTreeNew d5 cfg
    pure (← multiClassPredictAll m d5, ← amgPredictAll m' d5, ← d5.featureRows.mapM (fun row => predictClass row tree))) =
    (.ok ([[1, 0, 0], [0, 1, 0], [0, 1, 0], [1, 0, 0], [1, 0, 0]], [[1, 0, 0], [0, 1, 0], [0, 1, 0], [1, 0, 0], [1, 0, 0]],
      [[1, 0, 0], [0, 1, 0], [0, 1, 0], [1, 0, 0], [1, 0, 0]]) : R (List (List E) × List (List E) × List (List E))) := by decide +kernel
-- more iterations can change the class
example : (do
    let cfg : TreeConfig := { useMultiThreading := true, numberOfClasses := 3, maxLevels := 1 }
    let m ← multiClassTrain d5 cfg 3 (.fin (1 / 2))
    multiClassPredictAll m d5) = (.ok [[1, 0, 0], [0, 1, 0], [0, 1, 0], [0, 0, 1], [1, 0, 0]] : R (List (List E))) := by decide +kernel
-- regression: learning rates 1 and 1/2; the average label is 11/4
example : (do
    let cfg : TreeConfig := { useMultiThreading := true, numberOfClasses := 1, maxLevels := 1 }
    let m ← regressionTrain d4 cfg 1 1
    let m' ← regressionTrain d4 cfg 1 (.fin (1 / 2))
    let tree ← regressionTreeNew d4 cfg
    pure (← regressionPredictAll m d4, ← regressionPredictAll m' d4, ← regressionScore m d4, ← calculateOverallMse d4 tree)) =
    (.ok ([[0], [.fin (11 / 3)], [.fin (11 / 3)], [.fin (11 / 3)]], [[.fin (11 / 8)], [.fin (77 / 24)], [.fin (77 / 24)], [.fin (77 / 24)]],
      .fin (19 / 6), .fin (19 / 6)) : R (List (List E) × List (List E) × E × E)) := by decide +kernel

end Verif
