import Verif.Lemmas.Ties
import Verif.Props.Repeat
/-!
# C12, C13, C60 and C61: rows that share feature values

Exact arithmetic.  The search for a threshold also looks at cuts inside groups of rows with the same value.  This does no harm when the
rows of such a group have the same label; the smallest value of a feature may be shared by any rows.
-/

set_option linter.unusedSectionVars false

namespace Verif

variable {K : Type} [Field K] [LinearOrder K] [IsStrictOrderedRing K] [FloorSemiring K] [HasExp K]

open Sample

/-! ## the conditions -/

/-- columns in which only the smallest value is repeated: there are no ties that could disagree -/
theorem tiesAgree_of_unique {d : DataSet (Ext K)} {c t : Nat} (h : d.WF c t) (hu : ∀ j < c, TiesOnlyAtMinimum (column d.featureRows j)) :
    d.TiesIdentical c := by
  intro j hj e he e' he' heq ⟨row, hrow, hlt⟩
  obtain ⟨i, hi⟩ := List.getElem?_of_mem he
  obtain ⟨i', hi'⟩ := List.getElem?_of_mem he'
  have hzip : ∀ {i : Nat} {e : List (Ext K) × List (Ext K)}, d.examples[i]? = some e → (column d.featureRows j)[i]? = some (e.1.getD j F64.zero) := by
    intro i e hi
    have := (List.getElem?_zip_eq_some.mp hi).1
    rw [column, List.getElem?_map, this]; rfl
  have h1 := hzip hi
  have h2 := hzip hi'
  have hcount := hu j hj _ (List.mem_of_getElem? h1) ⟨_, List.mem_map_of_mem (f := fun r : List (Ext K) => r.getD j F64.zero) hrow, hlt⟩
  rw [← heq] at h2
  have hii : i = i' := by
    by_contra hne
    have hnv : NN (e.1.getD j F64.zero) := nn_of_isNaN_false (h.col_nan hj _ (List.mem_of_getElem? h1))
    have key : ∀ (l : List (Ext K)) (v : Ext K) (a b : Nat), a < b → NN v → l[a]? = some v → l[b]? = some v →
        2 ≤ (l.filter (fun x => x ==. v)).length := by
      intro l v a b hab hv ha hb
      have hsub : [v, v].Sublist l := by
        obtain ⟨ha1, ha2⟩ := List.getElem?_eq_some_iff.mp ha
        obtain ⟨hb1, hb2⟩ := List.getElem?_eq_some_iff.mp hb
        rw [← List.take_append_drop b l]
        refine List.Sublist.append (l₁ := [v]) (r₁ := [v]) ?_ ?_
        · rw [List.singleton_sublist]
          exact List.mem_take_iff_getElem.mpr ⟨a, by omega, ha2⟩
        · rw [List.singleton_sublist]
          exact List.mem_drop_iff_getElem.mpr ⟨0, by omega, by simpa using hb2⟩
      have := (hsub.filter (fun x => x ==. v)).length_le
      have hvv : (v ==. v) = true := hv
      simpa [hvv] using this
    rcases Nat.lt_or_gt_of_ne hne with hlt | hlt
    · have := key _ _ i i' hlt hnv h1 h2; omega
    · have := key _ _ i' i hlt hnv h2 h1; omega
  subst hii
  rw [hi] at hi'
  exact Option.some.inj hi'

theorem DataSet.TiesIdentical.agree {d : DataSet (Ext K)} {c : Nat} (h : d.TiesIdentical c) : d.TiesAgree c :=
  fun j hj e he e' he' heq hlow => congrArg Prod.snd (h j hj e he e' he' heq hlow)

/-! ## C12 and C13 -/

/-- **C12**, stronger form.  If rows that share a value of a feature, other than its smallest value, have the same label, a non-zero gain
is the variance reduction of the reported question and no question achieves more. -/
theorem C12_optimal_if_ties_agree (d : DataSet (Ext K)) (c t : Nat) (h : d.WF c t) (ls : List (List K)) (hls : d.labels = lift ls)
    (hties : d.TiesAgree c) (s : BestSplitResult (Ext K)) (hs : findBestSplit d t = .ok s) (hg : (s.gain ==. F64.zero) = false) :
    s.gain = .fin (varianceReduction t d.featureRows ls s.question) ∧
      ∀ q : Question (Ext K), q.column < c → varianceReduction t d.featureRows ls q ≤ varianceReduction t d.featureRows ls s.question := by
  rw [findBestSplit_ok h] at hs
  cases hs
  have h1 := splitOf_truthful h hls hties hg
  obtain ⟨g, h2, _, _, h4, _⟩ := splitOf_exact h hls
  refine ⟨h1, fun q hq => ?_⟩
  have := h4 q hq
  rw [h1] at h2
  rw [Ext.fin.inj h2]
  exact this

/-- **C13**, stronger form.  Under the same condition permuting the training rows changes neither the question nor the gain. -/
theorem C13_order_irrelevant_if_ties_agree (d d' : DataSet (Ext K)) (c t : Nat) (h : d.WF c t) (h' : d'.WF c t) (ls : List (List K))
    (hls : d.labels = lift ls) (hties : d.TiesAgree c) (hp : d.examples.Perm d'.examples) : findBestSplit d t = findBestSplit d' t := by
  rw [findBestSplit_ok h, findBestSplit_ok h', splitOf_perm_agree h h' hls hties hp]

/-- **C13**, whole trees.  Under the same condition the trees learned from permuted rows ask the same questions and send every row the
same way; leaves at the same position hold the same examples up to order. -/
theorem C13_tree_if_ties_agree (d d' : DataSet (Ext K)) (c t : Nat) (h : d.WF c t) (h' : d'.WF c t) (ls : List (List K))
    (hls : d.labels = lift ls) (hties : d.TiesAgree c) (hp : d.examples.Perm d'.examples) (cfg : TreeConfig) (ht : cfg.numberOfClasses = t) :
    ∃ tree tree', regressionTreeNew d cfg = .ok tree ∧ regressionTreeNew d' cfg = .ok tree' ∧
      (∀ p, tree'.questionAt p = tree.questionAt p) ∧ (∀ row, tree'.route row = tree.route row) ∧
      ∀ p, Option.Rel (fun l l' : RegressionLeaf (Ext K) => ∃ dd dd', l.data = some dd ∧ l'.data = some dd' ∧ dd.examples.Perm dd'.examples)
        (tree.leafAt p) (tree'.leafAt p) :=
  ⟨_, _, regressionTreeNew_ok h ht, regressionTreeNew_ok h' ht,
    treeOf_perm_corr (leafOf := regLeaf) (fun d d' _ _ _ _ hp => ⟨d, d', rfl, rfl, hp⟩) cfg.maxLevels d h hls hties d' h' hp⟩

/-- **C13**, boosting trees.  Under the same condition the gradient boosting and AMG trees are equal. -/
theorem C13_boosting_trees_if_ties_agree (d d' : DataSet (Ext K)) (c t : Nat) (h : d.WF c t) (h' : d'.WF c t) (ls : List (List K))
    (hls : d.labels = lift ls) (hties : d.TiesAgree c) (hp : d.examples.Perm d'.examples) (cfg : TreeConfig) (hc : cfg.numberOfClasses = t)
    (o : LeafOutputType) : gradBoostTreeNew d' cfg o = gradBoostTreeNew d cfg o ∧ amgTreeNew d' cfg o = amgTreeNew d cfg o := by
  rw [gradBoostTreeNew_ok h hc, gradBoostTreeNew_ok h' hc, amgTreeNew_ok h hc, amgTreeNew_ok h' hc, gradTree_perm o h h' hls hties hp,
    amgTree_perm o h h' hls hties hp]
  exact ⟨rfl, rfl⟩

/-! ## C61: ensembles -/

section ensembles
variable {d d' : DataSet (Ext K)} {c t : Nat} {ls : List (List K)} {cfg : TreeConfig} {lr : K}

/-- **C61** (regression ensemble).  If rows that share a value of a feature, other than its smallest value, are copies of each other,
training on the rows in another order returns the same model. -/
theorem C61_regression_ensemble (d d' : DataSet (Ext K)) (c t : Nat) (h : d.WF c t) (h' : d'.WF c t) (ls : List (List K))
    (hls : d.labels = lift ls) (hties : d.TiesIdentical c) (hp : d.examples.Perm d'.examples) (cfg : TreeConfig)
    (hc : cfg.numberOfClasses = t) (n : Nat) (lr : K) :
    regressionTrain d' cfg n (.fin lr) = regressionTrain d cfg n (.fin lr) := by
  obtain ⟨ls', hls', hpl, _⟩ := perm_lift h h' hls hp
  have hg : (liftV (meanVec t ls) : List (Ext K)).length = t := by rw [liftV_length, meanVec_length]
  have hm := meanVec_perm hpl t
  obtain ⟨s, ps, h1, _⟩ := regState_loop (lr := lr) h hls hc n
  obtain ⟨s', ps', h2, _⟩ := regState_loop (lr := lr) h' hls' hc n
  rw [regressionTrain_of_loop h hls h1, regressionTrain_of_loop h' hls' h2, hm]
  rw [← hm] at h2
  have : s'.2 = s.2 := by
    refine loop_perm h.label_count.symm h'.label_count.symm hp (grad_updateAdds _ _) (List.zipWith F64.sub)
      (fun a ta => regressionResiduals_ok h hg ta) (fun a ta => regressionResiduals_ok h' hg ta) ?_ h1 h2
    intro n a a' e1 e2 x y hxy hx
    obtain ⟨s, ps, k1, k2⟩ := regState_loop (lr := lr) h hls hc n
    obtain ⟨s', ps', k1', k2'⟩ := regState_loop (lr := lr) h' hls' hc n
    rw [← hm] at k1'
    rw [regLoopAt] at k1 k1'
    rw [k1] at e1
    rw [k1'] at e2
    cases e1
    cases e2
    obtain ⟨σ, hx⟩ := hx
    have hxa : x.TiesAgree c := relabel_agree (x := x) hties rfl hx
    have hxl : x.labels = lift (resid ls ps) := by
      show List.zipWith _ d.labels _ = _
      rw [k2.finite.labels, hls, resid_lift]
    have hyl : y.labels = lift (resid ls' ps') := by
      show List.zipWith _ d'.labels _ = _
      rw [k2'.finite.labels, hls', resid_lift]
    have hxw : x.WF c t := by
      have := resid_wf h hls k2.finite.len k2.finite.width
      rw [← hxl] at this; exact this
    have hyw : y.WF c t := by
      have := resid_wf h' hls' k2'.finite.len k2'.finite.width
      rw [← hyl] at this; exact this
    exact (C13_boosting_trees_if_ties_agree x y c t hxw hyw _ hxl hxa hxy cfg hc .regression).1
  rw [this]

/-- **C61** (multi-class ensemble).  One-hot labels of two or more classes, the same condition: training on the rows in another order
returns the same model. -/
theorem C61_multiClass_ensemble (d d' : DataSet (Ext K)) (c t : Nat) (h : d.WF c t) (h' : d'.WF c t) (h2 : 2 ≤ t) (ht : t ≤ 2 ^ 53)
    (hot : ∀ l ∈ d.labels, ∃ j < t, l = oneHot t j) (hties : d.TiesIdentical c) (hp : d.examples.Perm d'.examples) (cfg : TreeConfig)
    (hc : cfg.numberOfClasses = t) (n : Nat) (lr : K) :
    multiClassTrain d' cfg n (.fin lr) = multiClassTrain d cfg n (.fin lr) := by
  obtain ⟨ls, hls, hh⟩ := labels_hot hot
  obtain ⟨ls', hls', hpl, _⟩ := perm_lift h h' hls hp
  have hh' : ∀ l ∈ ls', ∃ j < t, l = Verif.hot t j := fun l hl => hh l (hpl.mem_iff.mpr hl)
  have hg : (liftV (List.replicate t (1 / (t : K))) : List (Ext K)).length = t := by simp [liftV]
  obtain ⟨s, ps, h3, _⟩ := multi_loop (lr := lr) h h2 hls hh hc n
  obtain ⟨s', ps', h4, _⟩ := multi_loop (lr := lr) h' h2 hls' hh' hc n
  rw [multi_train h h2 ht h3, multi_train h' h2 ht h4]
  have : s'.2 = s.2 := by
    refine loop_perm h.label_count.symm h'.label_count.symm hp (grad_updateAdds _ _)
      (fun l v => List.zipWith F64.sub l (calculateProbabilities v))
      (fun a ta => multiClassResiduals_ok h hg ta) (fun a ta => multiClassResiduals_ok h' hg ta) ?_ h3 h4
    intro n a a' e1 e2 x y hxy hx
    obtain ⟨s, ps, k1, k2⟩ := multi_loop (lr := lr) h h2 hls hh hc n
    obtain ⟨s', ps', k1', k2'⟩ := multi_loop (lr := lr) h' h2 hls' hh' hc n
    rw [k1] at e1
    rw [k1'] at e2
    cases e1
    cases e2
    obtain ⟨σ, hx⟩ := hx
    have hxa : x.TiesAgree c := relabel_agree (x := x) (f := fun l v => List.zipWith F64.sub l (calculateProbabilities v)) hties rfl hx
    have hxl : x.labels = lift (probResid ls ps) := by
      show List.zipWith _ d.labels _ = _
      rw [k2.finite.labels, hls, probResid_lift (by omega) k2.finite.width]
    have hyl : y.labels = lift (probResid ls' ps') := by
      show List.zipWith _ d'.labels _ = _
      rw [k2'.finite.labels, hls', probResid_lift (by omega) k2'.finite.width]
    have hxw : x.WF c t := by
      have := probResid_wf h hls k2.finite.len k2.finite.width
      rw [← hxl] at this; exact this
    have hyw : y.WF c t := by
      have := probResid_wf h' hls' k2'.finite.len k2'.finite.width
      rw [← hyl] at this; exact this
    exact (C13_boosting_trees_if_ties_agree x y c t hxw hyw _ hxl hxa hxy cfg hc _).1
  rw [this]

/-- **C61** (AMG ensemble).  One-hot labels of two or more classes, the same condition: training on the rows in another order returns the
same model. -/
theorem C61_amg_ensemble (d d' : DataSet (Ext K)) (c t : Nat) (h : d.WF c t) (h' : d'.WF c t) (h2 : 2 ≤ t) (ht : t ≤ 2 ^ 53)
    (hot : ∀ l ∈ d.labels, ∃ j < t, l = oneHot t j) (hties : d.TiesIdentical c) (hp : d.examples.Perm d'.examples) (cfg : TreeConfig)
    (hc : cfg.numberOfClasses = t) (n : Nat) (lr : K) :
    amgTrain d' cfg n (.fin lr) = amgTrain d cfg n (.fin lr) := by
  obtain ⟨ls, hls, hh⟩ := labels_hot hot
  obtain ⟨ls', hls', hpl, _⟩ := perm_lift h h' hls hp
  have hh' : ∀ l ∈ ls', ∃ j < t, l = Verif.hot t j := fun l hl => hh l (hpl.mem_iff.mpr hl)
  have hg : (liftV (List.replicate t (1 / (t : K))) : List (Ext K)).length = t := by simp [liftV]
  obtain ⟨s, ps, h3, _⟩ := amg_loop (lr := lr) h h2 hls hh hc n
  obtain ⟨s', ps', h4, _⟩ := amg_loop (lr := lr) h' h2 hls' hh' hc n
  rw [amg_train h h2 ht h3, amg_train h' h2 ht h4]
  have : s'.2 = s.2 := by
    refine loop_perm (out := amgOut t) h.label_count.symm h'.label_count.symm hp (by rw [hg]; exact amg_updateAdds _ _)
      (fun l v => List.zipWith F64.sub l (calculateProbabilities v))
      (fun a ta => multiClassResiduals_ok h hg ta) (fun a ta => multiClassResiduals_ok h' hg ta) ?_ h3 h4
    intro n a a' e1 e2 x y hxy hx
    obtain ⟨s, ps, k1, k2⟩ := amg_loop (lr := lr) h h2 hls hh hc n
    obtain ⟨s', ps', k1', k2'⟩ := amg_loop (lr := lr) h' h2 hls' hh' hc n
    rw [k1] at e1
    rw [k1'] at e2
    cases e1
    cases e2
    obtain ⟨σ, hx⟩ := hx
    have hxa : x.TiesAgree c := relabel_agree (x := x) (f := fun l v => List.zipWith F64.sub l (calculateProbabilities v)) hties rfl hx
    have hxl : x.labels = lift (probResid ls ps) := by
      show List.zipWith _ d.labels _ = _
      rw [k2.finite.labels, hls, probResid_lift (by omega) k2.finite.width]
    have hyl : y.labels = lift (probResid ls' ps') := by
      show List.zipWith _ d'.labels _ = _
      rw [k2'.finite.labels, hls', probResid_lift (by omega) k2'.finite.width]
    have hxw : x.WF c t := by
      have := probResid_wf h hls k2.finite.len k2.finite.width
      rw [← hxl] at this; exact this
    have hyw : y.WF c t := by
      have := probResid_wf h' hls' k2'.finite.len k2'.finite.width
      rw [← hyl] at this; exact this
    exact (C13_boosting_trees_if_ties_agree x y c t hxw hyw _ hxl hxa hxy cfg hc _).2
  rw [this]

end ensembles

/-! ## C60: copies in any order -/

theorem repeated_examples (k : Nat) (d : DataSet (Ext K)) : (d.repeated k).examples = repeatEach k d.examples := repeatEach_zip _ _ _

theorem repeated_identical {d : DataSet (Ext K)} {c k : Nat} (hk : 0 < k) (h : d.TiesIdentical c) : (d.repeated k).TiesIdentical c := by
  intro j hj e he e' he' heq ⟨row, hrow, hlt⟩
  rw [repeated_examples, mem_repeatEach hk] at he he'
  exact h j hj e he e' he' heq ⟨row, (mem_repeatEach hk).mp hrow, hlt⟩

theorem repeated_agree {d : DataSet (Ext K)} {c k : Nat} (hk : 0 < k) (h : d.TiesAgree c) : (d.repeated k).TiesAgree c := by
  intro j hj e he e' he' heq ⟨row, hrow, hlt⟩
  rw [repeated_examples, mem_repeatEach hk] at he he'
  exact h j hj e he e' he' heq ⟨row, (mem_repeatEach hk).mp hrow, hlt⟩

/-- **C60**, copies anywhere.  If rows that share a value of a feature, other than its smallest value, have the same label, the `k` copies
of the examples may stand in any order: the search finds the same question and the same gain, and the boosting trees are equal. -/
theorem C60_copies_in_any_order (d d' : DataSet (Ext K)) (c t : Nat) (h : d.WF c t) (h' : d'.WF c t) (ls : List (List K))
    (hls : d.labels = lift ls) (hties : d.TiesAgree c) (k : Nat) (hk : 0 < k) (hp : (d.repeated k).examples.Perm d'.examples)
    (cfg : TreeConfig) (hc : cfg.numberOfClasses = t) (o : LeafOutputType) :
    findBestSplit d' t = findBestSplit d t ∧ gradBoostTreeNew d' cfg o = gradBoostTreeNew d cfg o ∧ amgTreeNew d' cfg o = amgTreeNew d cfg o := by
  have hw := repeated_wf hk h
  have hl : (d.repeated k).labels = lift (repeatEach k ls) := by rw [lift_repeat, ← hls]; rfl
  have ha := repeated_agree hk hties
  obtain ⟨e1, e2⟩ := C60_boosting_trees d c t h ls hls k hk cfg hc o
  obtain ⟨e3, e4⟩ := C13_boosting_trees_if_ties_agree _ d' c t hw h' _ hl ha hp cfg hc o
  exact ⟨by rw [← C13_order_irrelevant_if_ties_agree _ d' c t hw h' _ hl ha hp, C60_split d c t h ls hls k hk], by rw [e3, e1], by rw [e4, e2]⟩

/-- **C60**, copies anywhere, ensembles.  If rows that share a value of a feature, other than its smallest value, are copies of each
other, the `k` copies of the examples may stand in any order: training returns the same regression ensemble, and for one-hot labels the
same multi-class and AMG ensembles. -/
theorem C60_ensemble_copies_in_any_order (d d' : DataSet (Ext K)) (c t : Nat) (h : d.WF c t) (h' : d'.WF c t) (ls : List (List K))
    (hls : d.labels = lift ls) (hties : d.TiesIdentical c) (k : Nat) (hk : 0 < k) (hp : (d.repeated k).examples.Perm d'.examples)
    (cfg : TreeConfig) (hc : cfg.numberOfClasses = t) (n : Nat) (lr : K) :
    regressionTrain d' cfg n (.fin lr) = regressionTrain d cfg n (.fin lr) ∧
    (2 ≤ t → t ≤ 2 ^ 53 → (∀ l ∈ d.labels, ∃ j < t, l = oneHot t j) →
      multiClassTrain d' cfg n (.fin lr) = multiClassTrain d cfg n (.fin lr) ∧ amgTrain d' cfg n (.fin lr) = amgTrain d cfg n (.fin lr)) := by
  have hw := repeated_wf hk h
  have hl : (d.repeated k).labels = lift (repeatEach k ls) := by rw [lift_repeat, ← hls]; rfl
  have hi := repeated_identical hk hties
  refine ⟨by rw [C61_regression_ensemble _ d' c t hw h' _ hl hi hp cfg hc, C60_regression_ensemble d c t h ls hls k hk cfg hc], ?_⟩
  intro h2 ht hot
  have hot' : ∀ l ∈ (d.repeated k).labels, ∃ j < t, l = oneHot t j := fun l hl => hot l ((mem_repeatEach hk).mp hl)
  exact ⟨by rw [C61_multiClass_ensemble _ d' c t hw h' h2 ht hot' hi hp cfg hc, C60_multiClass_ensemble d c t h h2 ht hot k hk cfg hc],
    by rw [C61_amg_ensemble _ d' c t hw h' h2 ht hot' hi hp cfg hc, C60_amg_ensemble d c t h h2 ht hot k hk cfg hc]⟩

/-! ## sample data -/

instance (c : Nat) (d : DataSet (Ext ℚ)) : Decidable (d.TiesAgree c) := by unfold DataSet.TiesAgree; infer_instance
instance (c : Nat) (d : DataSet (Ext ℚ)) : Decidable (d.TiesIdentical c) := by unfold DataSet.TiesIdentical; infer_instance

/-- four rows; the rows that share the value 1 of the second feature have the same label -/
def mixed4 : DataSet E :=
  { featureRows := [[1, 0], [2, 1], [0, 1], [0, 0]]
    labels := lift [[3], [2], [2], [0]]
    featureColumns := [[1, 2, 0, 0], [0, 1, 1, 0]] }

/-- the same rows in the opposite order -/
def mixed4rev : DataSet E :=
  { featureRows := [[0, 0], [0, 1], [2, 1], [1, 0]]
    labels := lift [[0], [2], [2], [3]]
    featureColumns := [[0, 0, 2, 1], [0, 1, 1, 0]] }

theorem mixed4_wf : mixed4.WF 2 1 :=
  ⟨by decide +kernel, by decide +kernel, by decide +kernel, by decide +kernel, by decide +kernel, by decide +kernel,
    by decide +kernel⟩

theorem mixed4rev_wf : mixed4rev.WF 2 1 :=
  ⟨by decide +kernel, by decide +kernel, by decide +kernel, by decide +kernel, by decide +kernel, by decide +kernel,
    by decide +kernel⟩

/-- **C61**, finding.  Equal labels are not enough for ensembles.  With learning rate 1 and trees of one question, the two orders of the
same four rows give different second trees and different predictions (9/4 and 2) for the same row. -/
theorem C61_violated_if_ties_only_agree : mixed4.WF 2 1 ∧ mixed4rev.WF 2 1 ∧ mixed4.TiesAgree 2 ∧ ¬mixed4.TiesIdentical 2 ∧
    mixed4.examples.Perm mixed4rev.examples ∧
    ((regressionTrain mixed4 (exCfg 1) 2 1) >>= fun m => regressionPredict m [2, 0]) = .ok [.fin (9 / 4)] ∧
    ((regressionTrain mixed4rev (exCfg 1) 2 1) >>= fun m => regressionPredict m [2, 0]) = .ok [2] :=
  ⟨mixed4_wf, mixed4rev_wf, by decide +kernel, by decide +kernel, by decide +kernel, by decide +kernel, by decide +kernel⟩

-- the conditions of C12 and C13 are met by data that the older form does not cover
example : mixed4.TiesAgree 2 ∧ ¬(∀ j < 2, TiesOnlyAtMinimum (column mixed4.featureRows j)) ∧
    (findBestSplit mixed4 1).map (fun s => (s.gain ==. F64.zero)) = .ok false := ⟨by decide +kernel, by decide +kernel, by decide +kernel⟩

/-- three copies of one example, two of another, one of a third; the smallest value 1 is shared by different examples -/
def copies6 : DataSet E :=
  { featureRows := [[5, 2], [1, 1], [5, 2], [1, 4], [5, 2], [1, 4]]
    labels := lift [[1, 0], [1, 0], [1, 0], [0, 1], [1, 0], [0, 1]]
    featureColumns := [[5, 1, 5, 1, 5, 1], [2, 1, 2, 4, 2, 4]] }

/-- the same examples, sorted -/
def copies6sorted : DataSet E :=
  { featureRows := [[1, 1], [1, 4], [1, 4], [5, 2], [5, 2], [5, 2]]
    labels := lift [[1, 0], [0, 1], [0, 1], [1, 0], [1, 0], [1, 0]]
    featureColumns := [[1, 1, 1, 5, 5, 5], [1, 4, 4, 2, 2, 2]] }

-- the conditions of C61 are met
example : copies6.WF 2 2 ∧ copies6sorted.WF 2 2 ∧ copies6.TiesIdentical 2 ∧ copies6.examples.Perm copies6sorted.examples ∧
    (∀ l ∈ copies6.labels, ∃ j < 2, l = (oneHot 2 j : List E)) :=
  ⟨⟨by decide +kernel, by decide +kernel, by decide +kernel, by decide +kernel, by decide +kernel, by decide +kernel, by decide +kernel⟩,
    ⟨by decide +kernel, by decide +kernel, by decide +kernel, by decide +kernel, by decide +kernel, by decide +kernel, by decide +kernel⟩,
    by decide +kernel, by decide +kernel, by decide +kernel⟩

-- a copy of the whole data set appended at its end is a special case
example : mixed4.twice.WF 2 1 ∧ (mixed4.repeated 2).examples.Perm mixed4.twice.examples :=
  ⟨⟨by decide +kernel, by decide +kernel, by decide +kernel, by decide +kernel, by decide +kernel, by decide +kernel, by decide +kernel⟩,
    by decide +kernel⟩

end Verif
