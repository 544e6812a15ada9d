import Verif.Props.FixedBest
import Verif.Props.Distance
/-!
# C128: with few integer labels only the distances between the labels matter in binary64
-/

set_option linter.unusedSectionVars false

namespace Verif

open B64 Sample

theorem varianceReduction_similar {t t' : ℕ} {μ : ℚ} {rows : List (List (Ext ℚ))} {zs : List (List ℚ × List ℚ)} (h : Alike t t' μ zs)
    (q : Question (Ext ℚ)) : varianceReduction t' rows (zs.map Prod.snd) q = μ * varianceReduction t rows (zs.map Prod.fst) q := by
  have hpick : ∀ p : List (Ext ℚ) → Bool, ∃ ys : List (List ℚ × List ℚ), (∀ y ∈ ys, y ∈ zs) ∧
      ((rows.zip (zs.map Prod.fst)).filter (fun e => p e.1)).map Prod.snd = ys.map Prod.fst ∧
      ((rows.zip (zs.map Prod.snd)).filter (fun e => p e.1)).map Prod.snd = ys.map Prod.snd := by
    intro p
    refine ⟨((rows.zip zs).filter (fun e => p e.1)).map Prod.snd, ?_, ?_, ?_⟩
    · intro y hy
      obtain ⟨e, he, rfl⟩ := List.mem_map.mp hy
      exact (List.of_mem_zip (List.mem_filter.mp he).1).2
    · rw [List.zip_map_right, List.filter_map, List.map_map, List.map_map]
      rfl
    · rw [List.zip_map_right, List.filter_map, List.map_map, List.map_map]
      rfl
  obtain ⟨ys, y1, y2, y3⟩ := hpick (fun r => satisfies q r)
  obtain ⟨ns, n1, n2, n3⟩ := hpick (fun r => !satisfies q r)
  have ey : yesLabels rows (zs.map Prod.fst) q = ys.map Prod.fst := y2
  have ey' : yesLabels rows (zs.map Prod.snd) q = ys.map Prod.snd := y3
  have en : noLabels rows (zs.map Prod.fst) q = ns.map Prod.fst := n2
  have en' : noLabels rows (zs.map Prod.snd) q = ns.map Prod.snd := n3
  rw [varianceReduction, varianceReduction, ey, ey', en, en', h.totalVar, (h.subset y1).totalVar, (h.subset n1).totalVar]
  simp only [List.length_map]
  ring

theorem eq_of_sqDist {t : ℕ} {v w : List ℚ} (hv : v.length = t) (hw : w.length = t) (h : sqDist v w = 0) : v = w := by
  rw [sqDist_eq hv hw] at h
  apply List.ext_getElem (by rw [hv, hw])
  intro j h1 h2
  have := List.all_zero_of_le_zero_le_of_sum_eq_zero (l := (List.range t).map (fun j => (v.getD j 0 - w.getD j 0) ^ 2)) (by
    intro x hx
    obtain ⟨j, _, rfl⟩ := List.mem_map.mp hx
    positivity) h (List.mem_map.mpr ⟨j, List.mem_range.mpr (by omega), rfl⟩)
  have h3 : v.getD j 0 - w.getD j 0 = 0 := by simpa using this
  simp only [List.getD, List.getElem?_eq_getElem h1, List.getElem?_eq_getElem h2, Option.getD_some] at h3
  linarith

section setting
variable [B64Env] {d d' : DataSet B64} {c t t' b b' : ℕ} {ls ls' : List (List ℚ)} {μ : ℚ}

theorem lift_zip_contra {rows : List (List (Ext ℚ))} {zs : List (List ℚ × List ℚ)} (hz : Alike t t' μ zs)
    (hn : NoContradictions rows (lift (zs.map Prod.fst))) : NoContradictions rows (lift (zs.map Prod.snd)) := by
  have hm : ∀ e ∈ rows.zip (lift (zs.map Prod.snd)), ∃ z ∈ zs, e.2 = liftV z.2 ∧ (e.1, liftV z.1) ∈ rows.zip (lift (zs.map Prod.fst)) := by
    intro e he
    rw [lift, List.map_map, List.zip_map_right] at he
    obtain ⟨⟨r, z⟩, hrz, rfl⟩ := List.mem_map.mp he
    refine ⟨z, (List.of_mem_zip hrz).2, rfl, ?_⟩
    rw [lift, List.map_map, List.zip_map_right]
    exact List.mem_map.mpr ⟨(r, z), hrz, rfl⟩
  intro e he e' he' hs
  obtain ⟨z, hz1, h1, h2⟩ := hm e he
  obtain ⟨w, hw1, h3, h4⟩ := hm e' he'
  have h5 : z.1 = w.1 := liftV_injective (hn _ h2 _ h4 hs)
  have h6 := hz.dist z hz1 w hw1
  rw [h5, show sqDist w.1 w.1 = 0 by rw [sqDist_eq (hz.fst_len w hw1) (hz.fst_len w hw1)]; simp, mul_zero] at h6
  rw [h1, h3, eq_of_sqDist (hz.snd_len z hz1) (hz.snd_len w hw1) h6]

/-- ties are ties for the other labels -/
theorem noExactTie_alike {L L' : Type} (hμ : 0 < μ) {zs : List (List ℚ × List ℚ)} (hz : Alike t t' μ zs) (hls : d.exact.labels = lift (zs.map Prod.fst))
    (hls' : d'.exact.labels = lift (zs.map Prod.snd)) (hrows : d'.featureRows = d.featureRows)
    {u : TreeNode (Ext ℚ) L} {u' : TreeNode (Ext ℚ) L'} (hq : ∀ p, u'.questionAt p = u.questionAt p) (hr : ∀ row, u'.route row = u.route row)
    (hx : NoExactTie d c t u) : NoExactTie d' c t' u' := by
  intro p q hp
  obtain ⟨ms, m1, m2, m3⟩ := hx p q (by rw [← hq]; exact hp)
  set R := (d.exact.featureRows.zip zs).filter (fun e => p.isPrefixOf (u.route e.1)) with hR
  have hre : d'.exact.featureRows = d.exact.featureRows := by simp [DataSet.exact, hrows]
  have e1 : reaching d.exact u p = R.map (fun e => (e.1, liftV e.2.1)) := by
    rw [reaching, DataSet.examples, hls, lift, List.map_map, List.zip_map_right, List.filter_map]
    rfl
  have e2 : reaching d'.exact u' p = R.map (fun e => (e.1, liftV e.2.2)) := by
    rw [reaching, DataSet.examples, hls', hre, lift, List.map_map, List.zip_map_right, List.filter_map]
    simp only [Function.comp_def, hr]
    rfl
  have hfst : (reaching d'.exact u' p).map Prod.fst = (reaching d.exact u p).map Prod.fst := by
    rw [e1, e2, List.map_map, List.map_map]; rfl
  have hms : ms = (R.map Prod.snd).map Prod.fst := by
    refine List.map_injective_iff.mpr (fun _ _ h => liftV_injective h) (?_ : lift ms = lift _)
    rw [← m1, e1, lift, List.map_map, List.map_map, List.map_map]
    rfl
  have hsub : Alike t t' μ (R.map Prod.snd) := by
    refine hz.subset ?_
    intro y hy
    obtain ⟨e, he, rfl⟩ := List.mem_map.mp hy
    exact (List.of_mem_zip (List.mem_filter.mp he).1).2
  refine ⟨(R.map Prod.snd).map Prod.snd, ?_, by rw [hfst]; exact m2, ?_⟩
  · rw [e2, lift, List.map_map, List.map_map, List.map_map]
    rfl
  · intro q' hj ⟨e, he, hv⟩ hne
    rw [e2] at he
    obtain ⟨e', he', rfl⟩ := List.mem_map.mp he
    have := m3 q' hj ⟨(e'.1, liftV e'.2.1), by rw [e1]; exact List.mem_map_of_mem he', hv⟩ hne
    rw [hfst, varianceReduction_similar hsub, varianceReduction_similar hsub, ← hms]
    exact mul_lt_mul_of_pos_left this hμ

end setting

/-- **C128** (trees).  In binary64, let two data sets have the same features and integer labels, few and small enough, possibly with different
numbers of targets, such that the distances between the label vectors are proportional.  If there are no contradictory examples and exact
arithmetic never has to choose between equally good questions, the trees of both data sets ask the same questions and send every row the same way.
(The thresholds are compared by value: the same training value may be written as 0 or -0.) -/
theorem C128_trees [B64Env] (d d' : DataSet B64) (c t t' b b' : ℕ) (h : d.WF c t) (h' : d'.WF c t') (hrows : d'.featureRows = d.featureRows)
    (hcols : d'.featureColumns = d.featureColumns) (hI : IntLabels b d.labels) (hI' : IntLabels b' d'.labels)
    (hf : GapInts d.labels.length t b) (hf' : GapInts d'.labels.length t' b')
    (ls ls' : List (List ℚ)) (hls : d.exact.labels = lift ls) (hls' : d'.exact.labels = lift ls') (μ : ℚ) (hμ : 0 < μ)
    (hp : ProportionalDistances μ ls ls') (hn : NoContradictions d.exact.featureRows d.exact.labels)
    (cfg cfg' : TreeConfig) (hc : cfg.numberOfClasses = t) (hc' : cfg'.numberOfClasses = t') (hm : cfg'.maxLevels = cfg.maxLevels)
    (k k' : LeafOutputType) :
    (∀ u, regressionTreeNew d.exact cfg = .ok u → NoExactTie d c t u →
      ∃ x y, regressionTreeNew d cfg = .ok x ∧ regressionTreeNew d' cfg' = .ok y ∧
        (∀ p, (y.questionAt p).map Question.exact = (x.questionAt p).map Question.exact) ∧ ∀ row, y.route row = x.route row) ∧
    (∀ u, gradBoostTreeNew d.exact cfg k = .ok u → NoExactTie d c t u →
      ∃ x y, gradBoostTreeNew d cfg k = .ok x ∧ gradBoostTreeNew d' cfg' k' = .ok y ∧
        (∀ p, (y.questionAt p).map Question.exact = (x.questionAt p).map Question.exact) ∧ ∀ row, y.route row = x.route row) ∧
    (∀ u, amgTreeNew d.exact cfg k = .ok u → NoExactTie d c t u →
      ∃ x y, amgTreeNew d cfg k = .ok x ∧ amgTreeNew d' cfg' k' = .ok y ∧
        (∀ p, (y.questionAt p).map Question.exact = (x.questionAt p).map Question.exact) ∧ ∀ row, y.route row = x.route row) := by
  obtain ⟨hz, z1, z2⟩ := hp.alike (lift_width hls h.exact.label_len) (lift_width hls' h'.exact.label_len)
  have hsame : ({ d.exact with labels := lift ls' } : DataSet (Ext ℚ)) = d'.exact := by
    rw [← hls']
    simp [DataSet.exact, hrows, hcols]
  have hn' : NoContradictions d'.exact.featureRows d'.exact.labels := by
    rw [hls', ← z2, show d'.exact.featureRows = d.exact.featureRows by simp [DataSet.exact, hrows]]
    refine lift_zip_contra hz ?_
    rw [z1, ← hls]
    exact hn
  have pass : ∀ {L L' : Type} {u : TreeNode (Ext ℚ) L} {u' : TreeNode (Ext ℚ) L'}, (∀ p, u'.questionAt p = u.questionAt p) →
      (∀ row, u'.route row = u.route row) → NoExactTie d c t u → NoExactTie d' c t' u' := fun hq hr hx =>
    noExactTie_alike hμ hz (by rw [z1, hls]) (by rw [z2, hls']) hrows hq hr hx
  obtain ⟨q1, q2, q3⟩ := C83_trees d.exact c t h.exact ls hls t' ls' (lift_width hls' h'.exact.label_len) μ hμ hp cfg cfg' hc hc' hm k k'
  rw [hsame] at q1 q2 q3
  obtain ⟨s1, s2, s3⟩ := C127_same_tree d c t b h hI hf hn cfg hc k
  obtain ⟨r1, r2, r3⟩ := C127_same_tree d' c t' b' h' hI' hf' hn' cfg' hc' k'
  refine ⟨?_, ?_, ?_⟩
  · intro u hu hx
    obtain ⟨v, v', hv, hv', hq, hr, -⟩ := q1
    have e : v = u := by rw [hu] at hv; exact (Except.ok.inj hv).symm
    subst e
    obtain ⟨x, hx1, hx2⟩ := s1 v hv hx
    obtain ⟨y, hy1, hy2⟩ := r1 v' hv' (pass hq hr hx)
    refine ⟨x, y, hx1, hy1, fun p => by rw [hx2 p, hy2 p, hq], fun row => ?_⟩
    rw [regressionTreeNew_ok h hc] at hx1
    rw [regressionTreeNew_ok h' hc'] at hy1
    rw [regressionTreeNew_ok h.exact hc] at hv
    rw [regressionTreeNew_ok h'.exact hc'] at hv'
    cases hx1; cases hy1; cases hv; cases hv'
    rw [route_of_asks (treeOf_proper _ _) (treeOf_proper _ _) hx2 row, route_of_asks (treeOf_proper _ _) (treeOf_proper _ _) hy2 row, hr]
  · intro u hu hx
    obtain ⟨v, v', hv, hv', hq, hr⟩ := q2
    have e : v = u := by rw [hu] at hv; exact (Except.ok.inj hv).symm
    subst e
    obtain ⟨x, hx1, hx2⟩ := s2 v hv hx
    obtain ⟨y, hy1, hy2⟩ := r2 v' hv' (pass hq hr hx)
    refine ⟨x, y, hx1, hy1, fun p => by rw [hx2 p, hy2 p, hq], fun row => ?_⟩
    rw [gradBoostTreeNew_ok h hc] at hx1
    rw [gradBoostTreeNew_ok h' hc'] at hy1
    rw [gradBoostTreeNew_ok h.exact hc] at hv
    rw [gradBoostTreeNew_ok h'.exact hc'] at hv'
    cases hx1; cases hy1; cases hv; cases hv'
    rw [route_of_asks (treeOf_proper _ _) (treeOf_proper _ _) hx2 row, route_of_asks (treeOf_proper _ _) (treeOf_proper _ _) hy2 row, hr]
  · intro u hu hx
    obtain ⟨v, v', hv, hv', hq, hr⟩ := q3
    have e : v = u := by rw [hu] at hv; exact (Except.ok.inj hv).symm
    subst e
    obtain ⟨x, hx1, hx2⟩ := s3 v hv hx
    obtain ⟨y, hy1, hy2⟩ := r3 v' hv' (pass hq hr hx)
    refine ⟨x, y, hx1, hy1, fun p => by rw [hx2 p, hy2 p, hq], fun row => ?_⟩
    rw [amgTreeNew_ok h hc] at hx1
    rw [amgTreeNew_ok h' hc'] at hy1
    rw [amgTreeNew_ok h.exact hc] at hv
    rw [amgTreeNew_ok h'.exact hc'] at hv'
    cases hx1; cases hy1; cases hv; cases hv'
    rw [route_of_asks (treeOf_proper _ _) (treeOf_proper _ _) hx2 row, route_of_asks (treeOf_proper _ _) (treeOf_proper _ _) hy2 row, hr]

theorem predicts_mates {d : DataSet (Ext ℚ)} {c t : ℕ} (h : d.WF c t) {ls : List (List ℚ)} (hls : d.labels = lift ls) (mx : ℕ)
    {row : List (Ext ℚ)} (hrow : c ≤ row.length) {m : List ℚ} (hm : treePredicts (treeOf regLeaf c t mx d) row (liftV m)) :
    m = meanVec t (mates (treeOf regLeaf c t mx d) (d.featureRows.zip ls) row) ∧ mates (treeOf regLeaf c t mx d) (d.featureRows.zip ls) row ≠ [] := by
  obtain ⟨dd, hw, hf, he⟩ := tree_lookup (leafOf := regLeaf) mx h hrow
  obtain ⟨m1, m2, m3⟩ := mates_ok hls hw he
  obtain ⟨dd', hf', ha⟩ := hm
  rw [hf] at hf'
  have e : dd = dd' := by simpa [regLeaf] using hf'
  subst e
  refine ⟨?_, m2⟩
  rw [m1, calculateAverageLabelVector_eq, calculateAverageVector_ok (by simpa [lift] using m2) (t := t) (by
    intro l hl
    obtain ⟨v, hv, rfl⟩ := mem_lift.mp hl
    simpa [liftV] using m3 v hv), avgVec_exact m3 m2] at ha
  exact (liftV_injective (Except.ok.inj ha)).symm

/-- **C128** (predictions).  If the second labels are moreover the images of the first under an affine similarity `f`, then for every row there is a
vector `m` such that the first regression tree predicts `m` and the second `f m`, each entry rounded once. -/
theorem C128_predictions [B64Env] (d d' : DataSet B64) (c t t' b b' : ℕ) (h : d.WF c t) (h' : d'.WF c t') (hrows : d'.featureRows = d.featureRows)
    (hcols : d'.featureColumns = d.featureColumns) (hI : IntLabels b d.labels) (hI' : IntLabels b' d'.labels)
    (hf : GapInts d.labels.length t b) (hf' : GapInts d'.labels.length t' b') (ls : List (List ℚ)) (hls : d.exact.labels = lift ls)
    (A : ℕ → ℕ → ℚ) (β : ℕ → ℚ) (μ : ℚ) (hμ : 0 < μ) (hsim : IsSimilarity t μ (affineMap t t' A β))
    (hls' : d'.exact.labels = lift (ls.map (affineMap t t' A β))) (hn : NoContradictions d.exact.featureRows d.exact.labels)
    (cfg cfg' : TreeConfig) (hc : cfg.numberOfClasses = t) (hc' : cfg'.numberOfClasses = t') (hm : cfg'.maxLevels = cfg.maxLevels)
    (u : TreeNode (Ext ℚ) (RegressionLeaf (Ext ℚ))) (hu : regressionTreeNew d.exact cfg = .ok u) (hx : NoExactTie d c t u) :
    ∃ x y, regressionTreeNew d cfg = .ok x ∧ regressionTreeNew d' cfg' = .ok y ∧ ∀ row : List B64, c ≤ row.length →
      y.route row = x.route row ∧ ∃ a a' m, treePredicts x row a ∧ treePredicts y row a' ∧ m.length = t ∧
        a.map B64.val = m.map (fun q => roundE (.fin q)) ∧ a'.map B64.val = (affineMap t t' A β m).map (fun q => roundE (.fin q)) := by
  have hlw := lift_width hls h.exact.label_len
  have hz := hsim.alike (t' := t') (fun v => affineMap_length v) hlw
  have z1 : (ls.map (fun l => (l, affineMap t t' A β l))).map Prod.fst = ls := by simp [Function.comp_def]
  have z2 : (ls.map (fun l => (l, affineMap t t' A β l))).map Prod.snd = ls.map (affineMap t t' A β) := by simp [Function.comp_def]
  have hre : d'.exact.featureRows = d.exact.featureRows := by simp [DataSet.exact, hrows]
  have hsame : withLabels d.exact (ls.map (affineMap t t' A β)) = d'.exact := by
    rw [withLabels, ← hls']
    simp [DataSet.exact, hrows, hcols]
  have hn' : NoContradictions d'.exact.featureRows d'.exact.labels := by
    rw [hls', ← z2, hre]
    refine lift_zip_contra hz ?_
    rw [z1, ← hls]
    exact hn
  have hshape := treeOf_alike hμ (leafOf := regLeaf) (leafOf' := regLeaf) cfg.maxLevels d.exact h.exact _ hz (by rw [z1, hls])
  rw [z2, hsame] at hshape
  have hu0 := hu
  rw [regressionTreeNew_ok h.exact hc] at hu0
  have hu0 := Except.ok.inj hu0
  subst hu0
  have hu' := regressionTreeNew_ok h'.exact hc'
  rw [hm] at hu'
  have hx' : NoExactTie d' c t' (treeOf regLeaf c t' cfg.maxLevels d'.exact) :=
    noExactTie_alike hμ hz (by rw [z1, hls]) (by rw [z2, hls']) hrows hshape.1 hshape.2.1 hx
  obtain ⟨x, hx1, hx2⟩ := C127_predictions d c t b h hI hf hn cfg hc _ hu hx
  obtain ⟨y, hy1, hy2⟩ := C127_predictions d' c t' b' h' hI' hf' hn' cfg' hc' _ hu' hx'
  refine ⟨x, y, hx1, hy1, fun row hrow => ?_⟩
  obtain ⟨r1, a, m, p1, p2, p3, p4⟩ := hx2 row hrow
  obtain ⟨r1', a', m', p1', p2', p3', p4'⟩ := hy2 row hrow
  refine ⟨by rw [r1, r1', hshape.2.1], a, a', m, p1, p1', p3, p4, ?_⟩
  obtain ⟨e1, e2⟩ := predicts_mates h.exact hls _ (by simpa using hrow) p2
  obtain ⟨e3, e4⟩ := predicts_mates h'.exact hls' _ (by simpa using hrow) p2'
  rw [hre, mates_relabel hshape.2.1, meanVec_affine (.inl e2), ← e1] at e3
  rw [p4', e3]

section units
variable {t : ℕ} {σ : ℕ → ℕ} {a : ℚ} {β : ℕ → ℚ}

theorem relabel_affine (hσ : Reorders t σ) (v : List ℚ) :
    relabel t σ a β v = affineMap t t (fun i j => if σ i = j then a else 0) β v := by
  rw [relabel, affineMap]
  apply List.map_congr_left
  intro i hi
  rw [List.mem_range] at hi
  have h1 : ((List.range t).map (fun j => (if σ i = j then a else 0) * v.getD j 0)) =
      (List.range t).map (fun j => (if σ i = j then 1 else 0) * (a * v.getD j 0)) := by
    apply List.map_congr_left
    intro j _
    split <;> simp
  rw [h1, sum_pick, if_pos (hσ.1 i hi)]

theorem relabel_similarity (hσ : Reorders t σ) :
    IsSimilarity t (a ^ 2) (affineMap t t (fun i j => if σ i = j then a else 0) β) := by
  intro v w hv hw
  rw [← relabel_affine hσ, ← relabel_affine hσ, sqDist_eq (relabel_length v) (relabel_length w), sqDist_eq hv hw, ← List.sum_map_mul_left]
  have h1 : (List.range t).map (fun j => ((relabel t σ a β v).getD j 0 - (relabel t σ a β w).getD j 0) ^ 2) =
      ((List.range t).map σ).map (fun j => a ^ 2 * (v.getD j 0 - w.getD j 0) ^ 2) := by
    rw [List.map_map]
    apply List.map_congr_left
    intro j hj
    rw [List.mem_range] at hj
    simp only [Function.comp, relabel, getD_range hj]
    ring
  rw [h1]
  exact (hσ.perm.map _).sum_eq

end units

/-- **C128** (units and order of the targets).  In particular, if the targets are listed in another order, multiplied by a common factor and given
other zero points such that the labels remain few small integers, then the tree asks the same questions, and its predictions are the old exact
means in the new units, rounded once. -/
theorem C128_units [B64Env] (d d' : DataSet B64) (c t b b' : ℕ) (h : d.WF c t) (h' : d'.WF c t) (hrows : d'.featureRows = d.featureRows)
    (hcols : d'.featureColumns = d.featureColumns) (hI : IntLabels b d.labels) (hI' : IntLabels b' d'.labels)
    (hf : GapInts d.labels.length t b) (hf' : GapInts d'.labels.length t b') (ls : List (List ℚ)) (hls : d.exact.labels = lift ls)
    (σ : ℕ → ℕ) (hσ : Reorders t σ) (a : ℚ) (ha : a ≠ 0) (β : ℕ → ℚ)
    (hls' : d'.exact.labels = lift (ls.map (relabel t σ a β))) (hn : NoContradictions d.exact.featureRows d.exact.labels)
    (cfg : TreeConfig) (hc : cfg.numberOfClasses = t)
    (u : TreeNode (Ext ℚ) (RegressionLeaf (Ext ℚ))) (hu : regressionTreeNew d.exact cfg = .ok u) (hx : NoExactTie d c t u) :
    ∃ x y, regressionTreeNew d cfg = .ok x ∧ regressionTreeNew d' cfg = .ok y ∧ ∀ row : List B64, c ≤ row.length →
      y.route row = x.route row ∧ ∃ p p' m, treePredicts x row p ∧ treePredicts y row p' ∧ m.length = t ∧
        p.map B64.val = m.map (fun q => roundE (.fin q)) ∧ p'.map B64.val = (relabel t σ a β m).map (fun q => roundE (.fin q)) := by
  have he : ∀ v, relabel t σ a β v = affineMap t t (fun i j => if σ i = j then a else 0) β v := relabel_affine hσ
  simp only [he]
  refine C128_predictions d d' c t t b b' h h' hrows hcols hI hI' hf hf' ls hls _ β (a ^ 2) (by positivity) (relabel_similarity hσ) ?_ hn cfg cfg
    hc hc rfl u hu hx
  rw [hls', show relabel t σ a β = _ from funext he]

/-! ## cases that meet the hypotheses, and what happens with exact ties -/

namespace Sample

/-- the labels `v` of `apart5`, replaced by the pairs `3 * v` and `4 * v + 1`: all distances are five times as large -/
def apartPairs5 : DataSet B64 :=
  { featureRows := [[b64 0], [b64 1], [b64 2], [b64 3], [b64 4]]
    labels := [[b64 0, b64 1], [b64 3, b64 5], [b64 21, b64 29], [b64 9, b64 13], [b64 9, b64 13]]
    featureColumns := [[b64 0, b64 1, b64 2, b64 3, b64 4]] }

/-- the map in question -/
def pairCoeff (i _j : ℕ) : ℚ := if i = 0 then 3 else 4
@[inherit_doc pairCoeff] def pairOffset (i : ℕ) : ℚ := if i = 0 then 0 else 1

end Sample

theorem pairs_similarity : IsSimilarity 1 25 (affineMap 1 2 pairCoeff pairOffset) := by
  intro v w hv hw
  obtain ⟨x, rfl⟩ := List.length_eq_one_iff.mp hv
  obtain ⟨y, rfl⟩ := List.length_eq_one_iff.mp hw
  simp [sqDist, affineMap, pairCoeff, pairOffset, List.range_succ]
  ring

-- `apart5` and `apartPairs5` meet the hypotheses of `C128_predictions` (those about `apart5` alone are checked in `Props/NearBest.lean`) …
example : ∀ negZero : Bool, let _ := env negZero
    apartPairs5.WF 1 2 := by
  intro negZero
  dsimp only
  refine @DataSet.WF.mk _ (@instF64B64OfB64Env (env negZero)) _ _ _ ?_ ?_ ?_ ?_ ?_ ?_ ?_ <;> revert negZero <;> decide +kernel

example : apartPairs5.featureRows = apart5.featureRows ∧ apartPairs5.featureColumns = apart5.featureColumns ∧
    apart5.exact.labels = lift [[0], [1], [7], [3], [3]] ∧
    apartPairs5.exact.labels = lift ([[0], [1], [7], [3], [3]].map (affineMap 1 2 pairCoeff pairOffset)) ∧
    GapInts apartPairs5.labels.length 2 29 := by
  exact ⟨rfl, rfl, by decide +kernel, by decide +kernel, by decide, by decide, by decide⟩

example : IntLabels 29 apartPairs5.labels := by
  have : ∀ l ∈ apartPairs5.labels, l.map B64.val = [.fin 0, .fin 1] ∨ l.map B64.val = [.fin 3, .fin 5] ∨ l.map B64.val = [.fin 21, .fin 29] ∨
      l.map B64.val = [.fin 9, .fin 13] := by decide +kernel
  intro l hl
  rcases this l hl with h | h | h | h
  · exact ⟨[0, 1], by rw [h]; rfl, by decide⟩
  · exact ⟨[3, 5], by rw [h]; rfl, by decide⟩
  · exact ⟨[21, 29], by rw [h]; rfl, by decide⟩
  · exact ⟨[9, 13], by rw [h]; rfl, by decide⟩

-- … and those of `C128_trees`: the distances are proportional
example : ProportionalDistances 25 [[0], [1], [7], [3], [3]] ([[0], [1], [7], [3], [3]].map (affineMap 1 2 pairCoeff pairOffset)) := by
  have hw : ∀ v ∈ ([[0], [1], [7], [3], [3]] : List (List ℚ)), v.length = 1 := by decide
  refine ⟨by simp, ?_⟩
  intro i j v w v' w' h1 h2 h3 h4
  rw [List.getElem?_map, h1] at h3
  rw [List.getElem?_map, h2] at h4
  cases h3
  cases h4
  exact pairs_similarity v w (hw v (List.mem_of_getElem? h1)) (hw w (List.mem_of_getElem? h2))

namespace Sample

/-- the labels of `even4`, times `a`, plus `z` -/
def evenUnits4 (a z : ℚ) : DataSet B64 :=
  { featureRows := [[b64 0], [b64 1], [b64 2], [b64 3]]
    labels := [[b64 z], [b64 (a + z)], [b64 (a + z)], [b64 (2 * a + z)]]
    featureColumns := [[b64 0, b64 1, b64 2, b64 3]] }

end Sample

/-- **C128**: between equally good questions the units do decide.  For the labels 0, 1, 1, 2 the last question is asked; for the labels 0, 3, 3, 6, and
for 1, 2, 2, 3, it is the first. -/
theorem C128_units_decide_ties : ∀ negZero : Bool, let _ := env negZero
    GapInts 4 1 6 ∧
    (findBestSplit (evenUnits4 1 0) 1).map (fun s => s.question.exact) = .ok { column := 0, value := .fin 3 } ∧
    (findBestSplit (evenUnits4 3 0) 1).map (fun s => s.question.exact) = .ok { column := 0, value := .fin 1 } ∧
    (findBestSplit (evenUnits4 1 1) 1).map (fun s => s.question.exact) = .ok { column := 0, value := .fin 1 } := by
  intro negZero
  refine ⟨⟨by decide, by decide, by decide⟩, ?_⟩
  revert negZero
  decide +kernel

end Verif
