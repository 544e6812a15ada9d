import Verif.Spec.NearTrend
import Verif.Props.NearMean
import Verif.Props.Trend
/-!
# C124: with integer labels, trends and ranges survive rounding
-/

set_option linter.unusedSectionVars false

namespace Verif

open B64 Sample

section
variable [B64Env]

/-- two rows that part at a question about feature `f` end among examples that differ in this feature -/
theorem parted {d : DataSet B64} {c t f : ℕ} (h : d.WF c t) (hf : f < c) {L : Type} {tree : TreeNode B64 L} {x y : List B64} {v : B64}
    (hv : ∀ z : List B64, (tree.route z = tree.route x → satisfies { column := f, value := v } z = false) ∧
      (tree.route z = tree.route y → satisfies { column := f, value := v } z = true))
    {e e' : List B64 × List B64} (he : e ∈ d.examples) (he' : e' ∈ d.examples) (hre : tree.route e.1 = tree.route x)
    (hre' : tree.route e'.1 = tree.route y) : ∃ a b, e.1[f]? = some a ∧ e'.1[f]? = some b ∧ (a <. b) = true := by
  have h1 := (hv e.1).1 hre
  have h2 := (hv e'.1).2 hre'
  have hm := (List.of_mem_zip (show (e.1, e.2) ∈ _ from he)).1
  have hm' := (List.of_mem_zip (show (e'.1, e'.2) ∈ _ from he')).1
  have hl := h.row_len e.1 hm
  have hl' := h.row_len e'.1 hm'
  have ha := List.getElem?_eq_getElem (l := e.1) (show f < e.1.length by omega)
  have hb := List.getElem?_eq_getElem (l := e'.1) (show f < e'.1.length by omega)
  simp only [satisfies, ha, hb] at h1 h2
  refine ⟨_, _, ha, hb, ?_⟩
  have hna := nn_of_isNaN_false (h.no_nan e.1 hm _ (List.mem_of_getElem? ha))
  have hnv := (LawfulOrder.le_nan h2).1
  have hav : (e.1[f] <=. v) = true := by
    rcases LawfulOrder.le_total hna hnv with h3 | h3
    · exact h3
    · rw [h1] at h3
      cases h3
  rw [LawfulOrder.lt_iff]
  refine ⟨LawfulOrder.le_trans hav h2, ?_⟩
  cases hc : (e'.1[f] <=. e.1[f]) with
  | false => rfl
  | true =>
    rw [LawfulOrder.le_trans h2 hc] at h1
    cases h1

theorem RoundedMeans.le_of {t : ℕ} {labels labels' : List (List B64)} {a a' : List B64} (h : RoundedMeans t labels a)
    (h' : RoundedMeans t labels' a') {i j : ℕ} (hi : i < t) (hj : j < t) (hle : exactMean labels i ≤ exactMean labels' j) :
    (a.getD i F64.zero <=. a'.getD j F64.zero) = true := by
  rw [le_val, h.entry hi, h'.entry hj]
  exact roundE_mono (by simpa using hle)

theorem companions_rises {d : DataSet B64} {c t f j : ℕ} (h : d.WF c t) (hf : f < c) (hj : j < t) {L : Type} {tree : TreeNode B64 L} {x y : List B64}
    (hxy : RaisesOnly f x y) {u v : List B64} (hu : RoundedMeans t (companions d tree x) u) (hv : RoundedMeans t (companions d tree y) v)
    (hbu : BetweenLabels t (companions d tree x) u) (hbv : BetweenLabels t (companions d tree y) v) :
    (RisesWith d.examples f j → (u.getD j F64.zero <=. v.getD j F64.zero) = true) ∧
    (FallsWith d.examples f j → (v.getD j F64.zero <=. u.getD j F64.zero) = true) := by
  rcases route_raises hxy tree with hr | ⟨w, hw⟩
  · have : companions d tree y = companions d tree x := by rw [companions, companions, hr]
    rw [this] at hv
    exact ⟨fun _ => hu.le_of hv hj hj _root_.le_rfl, fun _ => hv.le_of hu hj hj _root_.le_rfl⟩
  · obtain ⟨l1, hl1, l2, hl2, p1, p2⟩ := hbu j hj
    obtain ⟨m1, hm1, m2, hm2, q1, q2⟩ := hbv j hj
    have key : ∀ l ∈ companions d tree x, ∀ l' ∈ companions d tree y, ∃ e ∈ d.examples, ∃ e' ∈ d.examples, e.2 = l ∧ e'.2 = l' ∧
        ∃ a b, e.1[f]? = some a ∧ e'.1[f]? = some b ∧ (a <. b) = true := by
      intro l hl l' hl'
      obtain ⟨e, he, rfl⟩ := List.mem_map.mp hl
      obtain ⟨e', he', rfl⟩ := List.mem_map.mp hl'
      rw [List.mem_filter, decide_eq_true_eq] at he he'
      exact ⟨e, he.1, e', he'.1, rfl, rfl, parted h hf hw he.1 he'.1 he.2 he'.2⟩
    constructor
    · intro hR
      obtain ⟨e, he, e', he', rfl, rfl, a, b, ha, hb, hab⟩ := key l2 hl2 m1 hm1
      exact LawfulOrder.le_trans p2 (LawfulOrder.le_trans (hR e he e' he' a b ha hb hab) q1)
    · intro hR
      obtain ⟨e, he, e', he', rfl, rfl, a, b, ha, hb, hab⟩ := key l1 hl1 m2 hm2
      exact LawfulOrder.le_trans q2 (LawfulOrder.le_trans (hR e he e' he' a b ha hb hab) p1)

/-- **C124** (trends, regression trees).  In binary64, with integer labels whose sums are exact: if a target never falls in the training data when a
feature rises, raising this feature of a row, and nothing else, never lowers the prediction for the target; if the target never rises, it never raises it. -/
theorem C124_trend (d : DataSet B64) (c t b : ℕ) (h : d.WF c t) (hI : IntLabels b d.labels) (hs : ExactSums d.labels.length b)
    (f j : ℕ) (hf : f < c) (hj : j < t) (cfg : TreeConfig) (ht : cfg.numberOfClasses = t) :
    ∃ tree, regressionTreeNew d cfg = .ok tree ∧ ∀ x y : List B64, c ≤ x.length → c ≤ y.length → RaisesOnly f x y →
      ∃ u v, treePredicts tree x u ∧ treePredicts tree y v ∧
        (RisesWith d.examples f j → (u.getD j F64.zero <=. v.getD j F64.zero) = true) ∧
        (FallsWith d.examples f j → (v.getD j F64.zero <=. u.getD j F64.zero) = true) := by
  refine ⟨_, regressionTreeNew_ok h ht, fun x y hx hy hxy => ?_⟩
  obtain ⟨dx, u, hx1, hx2, hx3, _, hx4⟩ := C123_predictions d c t b h hI hs cfg ht _ (regressionTreeNew_ok h ht) x hx
  obtain ⟨dy, v, hy1, hy2, hy3, _, hy4⟩ := C123_predictions d c t b h hI hs cfg ht _ (regressionTreeNew_ok h ht) y hy
  exact ⟨u, v, ⟨dx, hx1, hx2⟩, ⟨dy, hy1, hy2⟩, companions_rises h hf hj hxy hx3 hy3 hx4 hy4⟩

theorem boost_lookup {d : DataSet B64} {c t b : ℕ} (h : d.WF c t) (hI : IntLabels b d.labels) (hs : ExactSums d.labels.length b) {cfg : TreeConfig}
    (ht : cfg.numberOfClasses = t) {tree : TreeNode B64 (GradBoostLeaf B64)} (hb : gradBoostTreeNew d cfg .regression = .ok tree) {x : List B64}
    (hx : c ≤ x.length) : ∃ u, findLeafNodeForData x tree = .ok { leafOutput := some u } ∧ RoundedMeans t (companions d tree x) u ∧
      BetweenLabels t (companions d tree x) u ∧ companions d tree x ≠ [] := by
  rw [gradBoostTreeNew_ok h ht] at hb
  have hb := Except.ok.inj hb
  subst hb
  obtain ⟨dx, hwx, h1, hex⟩ := tree_lookup (leafOf := fun d => GradBoostLeaf.mk (some (leafOut .regression t d.labels))) cfg.maxLevels h hx
  have hl := congrArg (List.map Prod.snd) hex
  rw [examples_snd hwx] at hl
  obtain ⟨hI2, hf2⟩ := companions_int h hI hs (treeOf (fun d => GradBoostLeaf.mk (some (leafOut .regression t d.labels))) c t cfg.maxLevels d) x
  rw [companions, ← hl] at hI2 hf2
  have hR := avgVec_rounded hI2 hf2 hwx.label_len hwx.labels_ne
  have hB := hR.between hI2 hwx.labels_ne
  have hne := hwx.labels_ne
  rw [hl] at hR hB hne
  refine ⟨_, h1, ?_, ?_, ?_⟩
  · rw [hl]; exact hR
  · rw [hl]; exact hB
  · exact hne

/-- **C124** (trends, boosting trees).  The same holds of the outputs of a regression boosting tree trained on integer labels. -/
theorem C124_trend_boost (d : DataSet B64) (c t b : ℕ) (h : d.WF c t) (hI : IntLabels b d.labels) (hs : ExactSums d.labels.length b)
    (f j : ℕ) (hf : f < c) (hj : j < t) (cfg : TreeConfig) (ht : cfg.numberOfClasses = t) :
    ∃ tree, gradBoostTreeNew d cfg .regression = .ok tree ∧ ∀ x y : List B64, c ≤ x.length → c ≤ y.length → RaisesOnly f x y →
      ∃ u v, findLeafNodeForData x tree = .ok { leafOutput := some u } ∧ findLeafNodeForData y tree = .ok { leafOutput := some v } ∧
        (RisesWith d.examples f j → (u.getD j F64.zero <=. v.getD j F64.zero) = true) ∧
        (FallsWith d.examples f j → (v.getD j F64.zero <=. u.getD j F64.zero) = true) := by
  refine ⟨_, gradBoostTreeNew_ok h ht _, fun x y hx hy hxy => ?_⟩
  obtain ⟨u, hx1, hx3, hx4, _⟩ := boost_lookup h hI hs ht (gradBoostTreeNew_ok h ht _) hx
  obtain ⟨v, hy1, hy3, hy4, _⟩ := boost_lookup h hI hs ht (gradBoostTreeNew_ok h ht _) hy
  exact ⟨u, v, hx1, hy1, companions_rises h hf hj hxy hx3 hy3 hx4 hy4⟩

/-- what holds of rounded means -/
theorem means_respect {t b : ℕ} {labels : List (List B64)} {a : List B64} (hR : RoundedMeans t labels a) (hB : BetweenLabels t labels a)
    (hI : IntLabels b labels) :
    (∀ j < t, ∀ lo : B64, (∀ l ∈ labels, (lo <=. l.getD j F64.zero) = true) → (lo <=. a.getD j F64.zero) = true) ∧
    (∀ j < t, ∀ hi : B64, (∀ l ∈ labels, (l.getD j F64.zero <=. hi) = true) → (a.getD j F64.zero <=. hi) = true) ∧
    (∀ j < t, ∀ x : B64, (∀ l ∈ labels, (l.getD j F64.zero ==. x) = true) → (a.getD j F64.zero ==. x) = true) ∧
    (∀ i < t, ∀ j < t, (∀ l ∈ labels, (l.getD i F64.zero <=. l.getD j F64.zero) = true) → (a.getD i F64.zero <=. a.getD j F64.zero) = true) := by
  have hlo : ∀ j < t, ∀ lo : B64, (∀ l ∈ labels, (lo <=. l.getD j F64.zero) = true) → (lo <=. a.getD j F64.zero) = true := by
    intro j hj lo h
    obtain ⟨l, hl, _, _, h1, _⟩ := hB j hj
    exact LawfulOrder.le_trans (h l hl) h1
  have hhi : ∀ j < t, ∀ hi : B64, (∀ l ∈ labels, (l.getD j F64.zero <=. hi) = true) → (a.getD j F64.zero <=. hi) = true := by
    intro j hj hi h
    obtain ⟨_, _, l, hl, _, h1⟩ := hB j hj
    exact LawfulOrder.le_trans h1 (h l hl)
  refine ⟨hlo, hhi, ?_, ?_⟩
  · intro j hj x h
    rw [LawfulOrder.eq_iff]
    exact ⟨hhi j hj x (fun l hl => (LawfulOrder.eq_iff.mp (h l hl)).1), hlo j hj x (fun l hl => (LawfulOrder.eq_iff.mp (h l hl)).2)⟩
  · intro i hi j hj h
    refine hR.le_of hR hi hj ?_
    have : ∀ l ∈ labels, (l.getD i F64.zero).number ≤ (l.getD j F64.zero).number := by
      intro l hl
      obtain ⟨v, hv, _⟩ := hI l hl
      have h1 := h l hl
      rw [le_val, ofInts_getD hv, ofInts_getD hv] at h1
      rw [number_fin (ofInts_getD hv i), number_fin (ofInts_getD hv j)]
      simpa using h1
    rw [exactMean, exactMean, meanOf, meanOf, List.length_map, List.length_map]
    exact div_le_div_of_nonneg_right (List.sum_le_sum this) (by positivity)

/-- **C124** (ranges).  In binary64, with integer labels whose sums are exact: a bound that holds for a target in all training labels holds for every
prediction of a regression tree; a target that is the same in all training labels is predicted exactly; and a target that is never larger than
another one in the training labels is never predicted larger. -/
theorem C124_ranges (d : DataSet B64) (c t b : ℕ) (h : d.WF c t) (hI : IntLabels b d.labels) (hs : ExactSums d.labels.length b)
    (cfg : TreeConfig) (ht : cfg.numberOfClasses = t) :
    ∃ tree, regressionTreeNew d cfg = .ok tree ∧ ∀ x : List B64, c ≤ x.length → ∃ a, treePredicts tree x a ∧
      (∀ j < t, ∀ lo : B64, (∀ l ∈ d.labels, (lo <=. l.getD j F64.zero) = true) → (lo <=. a.getD j F64.zero) = true) ∧
      (∀ j < t, ∀ hi : B64, (∀ l ∈ d.labels, (l.getD j F64.zero <=. hi) = true) → (a.getD j F64.zero <=. hi) = true) ∧
      (∀ j < t, ∀ y : B64, (∀ l ∈ d.labels, (l.getD j F64.zero ==. y) = true) → (a.getD j F64.zero ==. y) = true) ∧
      (∀ i < t, ∀ j < t, (∀ l ∈ d.labels, (l.getD i F64.zero <=. l.getD j F64.zero) = true) →
        (a.getD i F64.zero <=. a.getD j F64.zero) = true) := by
  refine ⟨_, regressionTreeNew_ok h ht, fun x hx => ?_⟩
  obtain ⟨dx, u, hx1, hx2, hx3, _, hx4⟩ := C123_predictions d c t b h hI hs cfg ht _ (regressionTreeNew_ok h ht) x hx
  obtain ⟨hI2, _⟩ := companions_int h hI hs (treeOf regLeaf c t cfg.maxLevels d) x
  have hmem : ∀ l ∈ companions d (treeOf regLeaf c t cfg.maxLevels d) x, l ∈ d.labels := by
    intro l hl
    obtain ⟨e, he, rfl⟩ := List.mem_map.mp hl
    exact examples_snd_mem (List.mem_filter.mp he).1
  obtain ⟨r1, r2, r3, r4⟩ := means_respect hx3 hx4 hI2
  exact ⟨u, ⟨dx, hx1, hx2⟩, fun j hj lo hlo => r1 j hj lo (fun l hl => hlo l (hmem l hl)), fun j hj hi hhi => r2 j hj hi (fun l hl => hhi l (hmem l hl)),
    fun j hj y hy => r3 j hj y (fun l hl => hy l (hmem l hl)), fun i hi j hj hij => r4 i hi j hj (fun l hl => hij l (hmem l hl))⟩

/-- **C124** (ranges, boosting trees).  The same holds of the outputs of a regression boosting tree trained on integer labels. -/
theorem C124_ranges_boost (d : DataSet B64) (c t b : ℕ) (h : d.WF c t) (hI : IntLabels b d.labels) (hs : ExactSums d.labels.length b)
    (cfg : TreeConfig) (ht : cfg.numberOfClasses = t) :
    ∃ tree, gradBoostTreeNew d cfg .regression = .ok tree ∧ ∀ x : List B64, c ≤ x.length →
      ∃ a, findLeafNodeForData x tree = .ok { leafOutput := some a } ∧
      (∀ j < t, ∀ lo : B64, (∀ l ∈ d.labels, (lo <=. l.getD j F64.zero) = true) → (lo <=. a.getD j F64.zero) = true) ∧
      (∀ j < t, ∀ hi : B64, (∀ l ∈ d.labels, (l.getD j F64.zero <=. hi) = true) → (a.getD j F64.zero <=. hi) = true) ∧
      (∀ j < t, ∀ y : B64, (∀ l ∈ d.labels, (l.getD j F64.zero ==. y) = true) → (a.getD j F64.zero ==. y) = true) ∧
      (∀ i < t, ∀ j < t, (∀ l ∈ d.labels, (l.getD i F64.zero <=. l.getD j F64.zero) = true) →
        (a.getD i F64.zero <=. a.getD j F64.zero) = true) := by
  refine ⟨_, gradBoostTreeNew_ok h ht _, fun x hx => ?_⟩
  obtain ⟨u, hx1, hx3, hx4, _⟩ := boost_lookup h hI hs ht (gradBoostTreeNew_ok h ht _) hx
  obtain ⟨hI2, _⟩ := companions_int h hI hs (treeOf (fun d => GradBoostLeaf.mk (some (leafOut .regression t d.labels))) c t cfg.maxLevels d) x
  have hmem : ∀ l ∈ companions d (treeOf (fun d => GradBoostLeaf.mk (some (leafOut .regression t d.labels))) c t cfg.maxLevels d) x, l ∈ d.labels := by
    intro l hl
    obtain ⟨e, he, rfl⟩ := List.mem_map.mp hl
    exact examples_snd_mem (List.mem_filter.mp he).1
  obtain ⟨r1, r2, r3, r4⟩ := means_respect hx3 hx4 hI2
  exact ⟨u, hx1, fun j hj lo hlo => r1 j hj lo (fun l hl => hlo l (hmem l hl)), fun j hj hi hhi => r2 j hj hi (fun l hl => hhi l (hmem l hl)),
    fun j hj y hy => r3 j hj y (fun l hl => hy l (hmem l hl)), fun i hi j hj hij => r4 i hi j hj (fun l hl => hij l (hmem l hl))⟩

end

/-! ## a case that meets the hypotheses -/

-- in `ints5` (integer labels with exact sums, see C122) the first target falls and the second rises with the feature; neither holds of the other
example : ∀ negZero : Bool, let _ := env negZero
    FallsWith ints5.examples 0 0 ∧ RisesWith ints5.examples 0 1 ∧ RaisesOnly 0 [b64 (-3)] [b64 1] := by
  intro negZero
  refine ⟨?_, ?_, ?_, b64 (-3), b64 1, rfl, rfl, by revert negZero; decide +kernel⟩
  · have h : ∀ e ∈ ints5.examples, ∀ e' ∈ ints5.examples, (@F64.lt _ (@instF64B64OfB64Env (env negZero)) (e.1.getD 0 (b64 0)) (e'.1.getD 0 (b64 0))) = true →
        (@F64.le _ (@instF64B64OfB64Env (env negZero)) (e'.2.getD 0 (@F64.zero _ (@instF64B64OfB64Env (env negZero))))
          (e.2.getD 0 (@F64.zero _ (@instF64B64OfB64Env (env negZero))))) = true := by
      revert negZero
      decide +kernel
    intro e he e' he' a b ha hb hab
    refine h e he e' he' ?_
    rw [List.getD, List.getD, ha, hb]
    exact hab
  · have h : ∀ e ∈ ints5.examples, ∀ e' ∈ ints5.examples, (@F64.lt _ (@instF64B64OfB64Env (env negZero)) (e.1.getD 0 (b64 0)) (e'.1.getD 0 (b64 0))) = true →
        (@F64.le _ (@instF64B64OfB64Env (env negZero)) (e.2.getD 1 (@F64.zero _ (@instF64B64OfB64Env (env negZero))))
          (e'.2.getD 1 (@F64.zero _ (@instF64B64OfB64Env (env negZero))))) = true := by
      revert negZero
      decide +kernel
    intro e he e' he' a b ha hb hab
    refine h e he e' he' ?_
    rw [List.getD, List.getD, ha, hb]
    exact hab
  · intro j hj
    rw [List.getElem?_eq_none (by simp; omega), List.getElem?_eq_none (by simp; omega)]

/-- the predictions of a tree in one target for a list of rows -/
def predictedTargets [B64Env] (d : DataSet B64) (cfg : TreeConfig) (j : ℕ) (rows : List (List B64)) : R (List (Ext ℚ)) := do
  let tree ← regressionTreeNew d cfg
  rows.mapM (fun row => do
    let leaf ← findLeafNodeForData row tree
    let a ← calculateAverageLabelVector (← unwrap leaf.data).labels
    pure (a.getD j F64.zero).val)

-- the predictions for rising values of the feature, rounded averages among them
example : ∀ negZero : Bool, let _ := env negZero
    predictedTargets ints5 (exCfg 2) 0 [[b64 (-3)], [b64 1], [b64 2], [b64 9]] = .ok [.fin 3, .fin 3, .fin (-7), .fin (-7)] ∧
    predictedTargets ints5 (exCfg 2) 1 [[b64 (-3)], [b64 1], [b64 2], [b64 9]] = .ok [(b64 (-7 / 3)).val, (b64 (-7 / 3)).val, .fin 2, .fin 2] := by
  decide +kernel

end Verif
