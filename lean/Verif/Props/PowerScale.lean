import Verif.Lemmas.PowerScale
import Verif.Props.Special
import Verif.Props.ClearCut
/-!
# C86: labels multiplied by a power of two

In binary64, with all roundings.
-/

set_option linter.unusedSectionVars false

namespace Verif

open Sample B64

variable [B64Env]

theorem TimesPowLabels.pairs {k : ℤ} {d d' : DataSet B64} {c t : ℕ} (h : d.WF c t) (hd : TimesPowLabels k d d')
    (ho : ∀ l ∈ d.labels, ∀ x ∈ l, Ordinary x) :
    (∀ z ∈ d.labels.zip d'.labels, ScVec k t z.1 z.2) ∧ d.labels = (d.labels.zip d'.labels).map Prod.fst ∧
      d' = { d with labels := (d.labels.zip d'.labels).map Prod.snd } ∧ d'.WF c t := by
  have hlen := hd.labels.length_eq
  have hpair : ∀ z ∈ d.labels.zip d'.labels, List.Forall₂ (TimesPow k) z.1 z.2 ∧ z.1 ∈ d.labels := by
    intro z hz
    obtain ⟨i, hi⟩ := List.getElem?_of_mem hz
    rw [List.getElem?_zip_eq_some] at hi
    obtain ⟨b, h1, h2⟩ := forall₂_get hd.labels hi.1
    rw [hi.2] at h1
    cases h1
    exact ⟨h2, List.mem_of_getElem? hi.1⟩
  have e2 : d' = { d with labels := (d.labels.zip d'.labels).map Prod.snd } := by
    rw [List.map_snd_zip (by omega)]
    obtain ⟨r, l, cc⟩ := d'
    obtain ⟨r', l', cc'⟩ := d
    have := hd.rows
    have := hd.columns
    simp_all
  refine ⟨?_, (List.map_fst_zip (by omega)).symm, e2, ?_⟩
  · intro z hz
    obtain ⟨h1, h2⟩ := hpair z hz
    have hl := h.label_len _ h2
    refine ⟨hl, by rw [← h1.length_eq, hl], ?_⟩
    intro j hj
    have hj1 : j < z.1.length := by omega
    have hj2 : j < z.2.length := by rw [← h1.length_eq]; omega
    have ht := h1.get hj1 hj2
    rw [List.getD_eq_getElem?_getD, List.getD_eq_getElem?_getD, List.getElem?_eq_getElem hj1, List.getElem?_eq_getElem hj2]
    exact (ho _ h2 _ (List.getElem_mem hj1)).sc ht
  · refine ⟨by rw [hd.rows]; exact h.rows_ne, by rw [hd.rows]; exact h.row_len, by rw [hd.rows, ← hlen]; exact h.label_count, ?_,
      by rw [hd.rows, hd.columns]; exact h.cols, by rw [hd.rows]; exact h.no_nan, h.cols_u32⟩
    intro l hl
    obtain ⟨i, hi, rfl⟩ := List.getElem_of_mem hl
    have h1 := hd.labels.get (by omega) hi
    simp only [List.get_eq_getElem] at h1
    rw [← h1.length_eq]
    exact h.label_len _ (List.getElem_mem _)

/-- **C86** (split search).  In binary64, if all labels are of ordinary size, multiplying them all by the same power of two (at most `2^100`,
at least `2^-100`) does not change the question the search reports, and multiplies the gain by exactly the square of that power: no
rounding of either run differs. -/
theorem C86_split (k : ℤ) (hk : |k| ≤ 100) (d d' : DataSet B64) (c t : ℕ) (h : d.WF c t) (hn : d.labels.length ≤ 2 ^ 24) (ht : t ≤ 2 ^ 24)
    (ho : ∀ l ∈ d.labels, ∀ x ∈ l, Ordinary x) (hd : TimesPowLabels k d d') :
    ∃ s s', findBestSplit d t = .ok s ∧ findBestSplit d' t = .ok s' ∧ s'.question = s.question ∧ TimesPow (2 * k) s.gain s'.gain := by
  obtain ⟨h1, h2, h3, h4⟩ := hd.pairs h ho
  have hs := splitOf_sc hk h h1 h2 hn ht
  rw [← h3] at hs
  refine ⟨_, _, findBestSplit_ok h, findBestSplit_ok h4, hs.1, ?_⟩
  rw [two_mul]
  exact hs.2

/-- **C86** (trees).  In binary64, if all labels are of ordinary size, multiplying them all by the same power of two gives the same tree: the
same question at every position and the same way for every row.  The leaves of a regression tree hold the same rows, with averages that
are exactly that power of two times as large; so are the leaf vectors of the trees of a regression ensemble. -/
theorem C86_trees (k : ℤ) (hk : |k| ≤ 100) (d d' : DataSet B64) (c t : ℕ) (h : d.WF c t) (hn : d.labels.length ≤ 2 ^ 24) (ht : t ≤ 2 ^ 24)
    (ho : ∀ l ∈ d.labels, ∀ x ∈ l, Ordinary x) (hd : TimesPowLabels k d d') (cfg : TreeConfig) (hc : cfg.numberOfClasses = t) :
    (∃ tree tree', regressionTreeNew d cfg = .ok tree ∧ regressionTreeNew d' cfg = .ok tree' ∧
      (∀ p, tree'.questionAt p = tree.questionAt p) ∧ (∀ row, tree'.route row = tree.route row) ∧
      ∀ p leaf, tree.leafAt p = some leaf → ∃ dd dd' avg avg', leaf.data = some dd ∧ tree'.leafAt p = some { data := some dd' } ∧
        dd'.featureRows = dd.featureRows ∧ calculateAverageLabelVector dd.labels = .ok avg ∧ calculateAverageLabelVector dd'.labels = .ok avg' ∧
        List.Forall₂ (TimesPow k) avg avg') ∧
    (∃ tree tree', gradBoostTreeNew d cfg .regression = .ok tree ∧ gradBoostTreeNew d' cfg .regression = .ok tree' ∧
      (∀ p, tree'.questionAt p = tree.questionAt p) ∧ (∀ row, tree'.route row = tree.route row) ∧
      ∀ p leaf, tree.leafAt p = some leaf → ∃ v v', leaf.leafOutput = some v ∧ tree'.leafAt p = some { leafOutput := some v' } ∧
        List.Forall₂ (TimesPow k) v v') ∧
    (∀ o, ∃ tree tree', gradBoostTreeNew d cfg o = .ok tree ∧ gradBoostTreeNew d' cfg o = .ok tree' ∧
      (∀ p, tree'.questionAt p = tree.questionAt p) ∧ ∀ row, tree'.route row = tree.route row) ∧
    ∀ o, ∃ tree tree', amgTreeNew d cfg o = .ok tree ∧ amgTreeNew d' cfg o = .ok tree' ∧
      (∀ p, tree'.questionAt p = tree.questionAt p) ∧ ∀ row, tree'.route row = tree.route row := by
  obtain ⟨h1, h2, h3, h4⟩ := hd.pairs h ho
  have hzl : (d.labels.zip d'.labels).length ≤ 2 ^ 24 := by rw [List.length_zip]; omega
  have key : ∀ {L : Type} (leafOf : DataSet B64 → L),
      ScShape c t k leafOf leafOf (treeOf leafOf c t cfg.maxLevels d) (treeOf leafOf c t cfg.maxLevels d') := by
    intro L leafOf
    have := treeOf_sc hk ht (leafOf := leafOf) (leafOf' := leafOf) cfg.maxLevels d h _ h1 h2 hzl
    rwa [← h3] at this
  have avg : ∀ {dd : DataSet B64} {zs : List (List B64 × List B64)}, dd.WF c t → (∀ z ∈ zs, ScVec k t z.1 z.2) → dd.labels = zs.map Prod.fst →
      zs.length ≤ 2 ^ 24 → zs.map Prod.fst ≠ [] ∧ (∀ l ∈ zs.map Prod.snd, l.length = t) ∧ zs.map Prod.snd ≠ [] ∧
        List.Forall₂ (TimesPow k) (avgVec t (zs.map Prod.fst)) (avgVec t (zs.map Prod.snd)) := by
    intro dd zs hw hz hls hlen
    have hne : zs ≠ [] := by
      have := hw.labels_ne
      rw [hls] at this
      simpa using this
    obtain ⟨a1, a2, a3⟩ := avgVec_sc hk hz hne hlen
    refine ⟨by simpa using hne, ?_, by simpa using hne, forall₂_getD a1 a2 (fun j hj => (a3 j hj).times)⟩
    intro l hl
    obtain ⟨z, hz', rfl⟩ := List.mem_map.mp hl
    exact (hz z hz').2.1
  refine ⟨⟨_, _, regressionTreeNew_ok h hc, regressionTreeNew_ok h4 hc, (key _).1, (key _).2.1, ?_⟩,
    ⟨_, _, gradBoostTreeNew_ok h hc _, gradBoostTreeNew_ok h4 hc _, (key _).1, (key _).2.1, ?_⟩,
    fun o => ⟨_, _, gradBoostTreeNew_ok h hc o, gradBoostTreeNew_ok h4 hc o, (key _).1, (key _).2.1⟩,
    fun o => ⟨_, _, amgTreeNew_ok h hc o, amgTreeNew_ok h4 hc o, (key _).1, (key _).2.1⟩⟩
  · intro p leaf hp
    obtain ⟨dd, zs, hw, hz, hls, hlen, rfl, hy⟩ := (key regLeaf).2.2 p leaf hp
    obtain ⟨n1, n2, n3, n4⟩ := avg hw hz hls hlen
    refine ⟨dd, _, _, _, rfl, hy, rfl, ?_, ?_, n4⟩
    · rw [calculateAverageLabelVector_eq, calculateAverageVector_ok hw.labels_ne hw.label_len, hls]
    · rw [calculateAverageLabelVector_eq]
      exact calculateAverageVector_ok n3 n2
  · intro p leaf hp
    obtain ⟨dd, zs, hw, hz, hls, hlen, rfl, hy⟩ := (key (gradLeaf .regression t)).2.2 p leaf hp
    obtain ⟨_, _, _, n4⟩ := avg hw hz hls hlen
    refine ⟨_, _, rfl, hy, ?_⟩
    simp only [leafOut, hls]
    exact n4

/-! ## Ensembles -/

section ensemble
variable {k : ℤ} {c t : ℕ}

/-- corresponding trees of two ensembles -/
def ScTree (k : ℤ) (c t : ℕ) (tree tree' : TreeNode B64 (GradBoostLeaf B64)) : Prop :=
  (∀ p, tree'.questionAt p = tree.questionAt p) ∧ (∀ row, tree'.route row = tree.route row) ∧
    ∀ row : List B64, c ≤ row.length → ∃ o o' : List B64, gradOut row tree = .ok o ∧ gradOut row tree' = .ok o' ∧ o.length = t ∧ o'.length = t ∧
      ∀ j < t, Sc k (-276) 1 225 (o.getD j F64.zero) (o'.getD j F64.zero)

theorem rawScore_sc (hk : |k| ≤ 100) {g g' : List B64} (hg : g.length = t) (hg' : g'.length = t)
    (hgs : ∀ j < t, Sc k (-276) 1 225 (g.getD j F64.zero) (g'.getD j F64.zero)) {lr : B64} (hlr : Sc 0 (-104) 1 0 lr lr)
    {trees trees' : List (TreeNode B64 (GradBoostLeaf B64))} (ht : List.Forall₂ (ScTree k c t) trees trees') (hn : trees.length ≤ 2 ^ 20)
    {row : List B64} (hrow : c ≤ row.length) :
    ∃ s s', rawScore gradOut g lr trees row = .ok s ∧ rawScore gradOut g' lr trees' row = .ok s' ∧ s.length = t ∧ s'.length = t ∧
      ∀ j < t, Sc k (-380) (2 ^ 21) 225 (s.getD j F64.zero) (s'.getD j F64.zero) := by
  have hk' := abs_le.mp hk
  have houts : ∃ outs outs' : List (List B64),
      trees.mapM (fun tree => do
        let o ← gradOut row tree
        pure (o.map (fun x => lr *. x))) = .ok outs ∧
      trees'.mapM (fun tree => do
        let o ← gradOut row tree
        pure (o.map (fun x => lr *. x))) = .ok outs' ∧
      outs.length = trees.length ∧
      List.Forall₂ (fun o o' => o.length = t ∧ o'.length = t ∧ ∀ j < t, Sc k (-380) 1 225 (o.getD j F64.zero) (o'.getD j F64.zero)) outs outs' := by
    clear hn
    induction ht with
    | nil => exact ⟨[], [], rfl, rfl, rfl, .nil⟩
    | @cons a b as bs hab _ ih =>
      obtain ⟨outs, outs', i1, i2, i4, i3⟩ := ih
      obtain ⟨o, o', e1, e2, e3, e4, e5⟩ := hab.2.2 row hrow
      refine ⟨o.map (fun x => lr *. x) :: outs, o'.map (fun x => lr *. x) :: outs', ?_, ?_, by simp [i4],
        .cons ⟨by simpa using e3, by simpa using e4, ?_⟩ i3⟩
      · rw [mapM_cons_R, i1, e1]; rfl
      · rw [mapM_cons_R, i2, e2]; rfl
      · intro j hj
        have := hlr.mul (e5 j hj) (by norm_num) (by omega) (by omega) (by omega) (by omega) (by omega)
        have e : ∀ {v : List B64}, v.length = t → (v.map (fun x => lr *. x)).getD j F64.zero = lr *. v.getD j F64.zero := by
          intro v hv
          simp [List.getD, show j < v.length by omega]
        rw [e e3, e e4]
        simpa using this
  obtain ⟨outs, outs', o1, o2, o4, o3⟩ := houts
  have hfold : ∀ (outs outs' : List (List B64)) (m : ℕ) (g g' : List B64), g.length = t → g'.length = t →
      (∀ j < t, Sc k (-380) m 225 (g.getD j F64.zero) (g'.getD j F64.zero)) →
      List.Forall₂ (fun o o' => o.length = t ∧ o'.length = t ∧ ∀ j < t, Sc k (-380) 1 225 (o.getD j F64.zero) (o'.getD j F64.zero)) outs outs' →
      m + outs.length ≤ 2 ^ 21 →
      (outs.foldl (fun a b => List.zipWith F64.add a b) g).length = t ∧ (outs'.foldl (fun a b => List.zipWith F64.add a b) g').length = t ∧
      ∀ j < t, Sc k (-380) (m + outs.length) 225 ((outs.foldl (fun a b => List.zipWith F64.add a b) g).getD j F64.zero)
        ((outs'.foldl (fun a b => List.zipWith F64.add a b) g').getD j F64.zero) := by
    intro outs outs' m g g' hg hg' hgs ho
    induction ho generalizing m g g' with
    | nil => intro _; exact ⟨hg, hg', by simpa using hgs⟩
    | @cons o o' os os' hoo _ ih =>
      intro hm
      rw [List.length_cons] at hm ⊢
      obtain ⟨l1, l2, l3⟩ := hoo
      have := ih (m + 1) (List.zipWith F64.add g o) (List.zipWith F64.add g' o') (by simp [hg, l1]) (by simp [hg', l2]) (by
        intro j hj
        rw [zipWith_getD_of (a := F64.zero) (b := F64.zero) (by omega) (by omega), zipWith_getD_of (a := F64.zero) (b := F64.zero) (by omega) (by omega)]
        exact (hgs j hj).add (l3 j hj) (by omega) (by omega) (by omega) (by omega) (by omega) (by omega)) (by omega)
      rw [List.foldl_cons, List.foldl_cons]
      rwa [show m + (os.length + 1) = m + 1 + os.length by omega]
  have hlen1 : ∀ o ∈ outs, o.length = g.length := by
    intro o ho
    obtain ⟨i, hi⟩ := List.getElem?_of_mem ho
    obtain ⟨o', _, h1, _⟩ := forall₂_get o3 hi
    rw [hg, h1]
  have hlen2 : ∀ o ∈ outs', o.length = g'.length := by
    intro o ho
    obtain ⟨i, hi⟩ := List.getElem?_of_mem ho
    obtain ⟨o', _, _, h1, _⟩ := forall₂_get o3.flip hi
    rw [hg', h1]
  obtain ⟨f1, f2, f3⟩ := hfold outs outs' 1 g g' hg hg'
    (fun j hj => (hgs j hj).weaken (e := 0) (by omega) (by omega) (by omega)) o3 (by omega)
  refine ⟨_, _, ?_, ?_, f1, f2, fun j hj => (f3 j hj).weaken (e := 0) (by omega) (by omega) (by omega)⟩
  · rw [rawScore, o1, R.ok_bind, sumLeafOutputs_ok hlen1]
  · rw [rawScore, o2, R.ok_bind, sumLeafOutputs_ok hlen2]

theorem train_facts {F : Type} [F64 F] {d : DataSet F} {c t : ℕ} (h : d.WF c t) {cfg : TreeConfig} {n : ℕ} {lr : F} {m : BoostModel F (GradBoostLeaf F)}
    (hm : regressionTrain d cfg n lr = .ok m) : m.initialGuess = avgVec t d.labels ∧ m.learningRate = lr ∧ m.trees.length = n := by
  obtain ⟨f, h1⟩ := train_inv hm
  obtain ⟨g1, g2, g3⟩ := boostingLoop_inv h1
  rw [determineInitialGuess_regression h] at g1
  simp only [regressionLoop_eq] at g3
  exact ⟨(Except.ok.inj g1).symm, g2, boostLoop_length g3⟩

/-- the trees for corresponding residuals -/
theorem residual_tree_sc (hk : |k| ≤ 100) (ht : t ≤ 2 ^ 24) {d : DataSet B64} (h : d.WF c t) (hn : d.labels.length ≤ 2 ^ 24)
    {zs : List (List B64 × List B64)} (hz : ∀ z ∈ zs, ScVec k t z.1 z.2) (hls : d.labels = zs.map Prod.fst) (m : ℕ) :
    ScTree k c t (treeOf (gradLeaf .regression t) c t m d) (treeOf (gradLeaf .regression t) c t m { d with labels := zs.map Prod.snd }) := by
  have hlen : zs.length ≤ 2 ^ 24 := by
    rw [hls, List.length_map] at hn
    exact hn
  have hs := treeOf_sc hk ht (leafOf := gradLeaf .regression t) (leafOf' := gradLeaf .regression t) m d h zs hz hls hlen
  refine ⟨hs.1, hs.2.1, fun row hrow => ?_⟩
  obtain ⟨leaf, f1, f2⟩ := TreeNode.find_of_proper (treeOf_proper (leafOf := gradLeaf .regression t) (c := c) (t := t) m d) (row := row)
    (fun p q hq => Nat.lt_of_lt_of_le (treeOf_questions m d h p q hq).1 hrow)
  obtain ⟨leaf', f3, f4⟩ := TreeNode.find_of_proper
    (treeOf_proper (leafOf := gradLeaf .regression t) (c := c) (t := t) m { d with labels := zs.map Prod.snd }) (row := row)
    (fun p q hq => Nat.lt_of_lt_of_le (treeOf_questions m d h p q (by rw [← hs.1]; exact hq)).1 hrow)
  obtain ⟨dd, ys, hw, hy, hl, hyl, rfl, e⟩ := hs.2.2 _ _ f2
  rw [hs.2.1, e] at f4
  cases f4
  have hne : ys ≠ [] := by
    have := hw.labels_ne
    rw [hl] at this
    simpa using this
  obtain ⟨a1, a2, a3⟩ := avgVec_sc hk hy hne hyl
  refine ⟨avgVec t dd.labels, avgVec t (ys.map Prod.snd), by simp only [gradOut, f1, R.ok_bind, gradLeaf, unwrap, leafOut],
    by simp only [gradOut, f3, R.ok_bind, gradLeaf, unwrap, leafOut], ?_, a2, ?_⟩
  · rw [hl]; exact a1
  · rw [hl]; exact a3

/-- **C86** (ensembles).  In binary64, multiply all training labels by the same power of two.  If the labels, and the residuals the ensemble is
fitted to on the original data, are of ordinary size, then the ensemble trained on the new labels has the same questions and its predictions
are, for every row, exactly that power of two times as large. -/
theorem C86_ensembles (k : ℤ) (hk : |k| ≤ 100) (d d' : DataSet B64) (c t : ℕ) (h : d.WF c t) (hn : d.labels.length ≤ 2 ^ 24) (ht : t ≤ 2 ^ 24)
    (ho : ∀ l ∈ d.labels, ∀ x ∈ l, Ordinary x) (hd : TimesPowLabels k d d') (cfg : TreeConfig) (hc : cfg.numberOfClasses = t)
    (n : ℕ) (hN : n ≤ 2 ^ 20) (lr : B64) (r : ℚ) (hlr : lr.val = .fin r) (hr : r = 0 ∨ 1 / 2 ^ 52 ≤ |r|) (hr1 : |r| ≤ 1)
    (m : BoostModel B64 (GradBoostLeaf B64)) (hm : regressionTrain d cfg n lr = .ok m)
    (hres : ∀ i < n, ∀ preds, d.featureRows.mapM (regressionPredict { m with trees := m.trees.take i }) = .ok preds →
      ∀ l ∈ List.zipWith (List.zipWith F64.sub) d.labels preds, ∀ x ∈ l, Ordinary x) :
    ∃ m', regressionTrain d' cfg n lr = .ok m' ∧
      List.Forall₂ (fun tree tree' => (∀ p, TreeNode.questionAt tree' p = TreeNode.questionAt tree p) ∧
        ∀ row, TreeNode.route row tree' = TreeNode.route row tree) m.trees m'.trees ∧
      ∀ row, c ≤ row.length → ∃ p p', regressionPredict m row = .ok p ∧ regressionPredict m' row = .ok p' ∧ List.Forall₂ (TimesPow k) p p' := by
  obtain ⟨h1, h2, h3, h4⟩ := hd.pairs h ho
  have hk' := abs_le.mp hk
  have hrows := hd.rows
  have hzl : (d.labels.zip d'.labels).length ≤ 2 ^ 24 := by rw [List.length_zip]; omega
  have hzne : d.labels.zip d'.labels ≠ [] := by
    intro h0
    have := h.labels_ne
    rw [h2, h0] at this
    exact this rfl
  obtain ⟨m', hm', -⟩ := C42_regression d' c t h4 cfg hc n lr
  obtain ⟨g1, g2, g3⟩ := train_facts h hm
  obtain ⟨g1', g2', g3'⟩ := train_facts h4 hm'
  obtain ⟨a1, a2, a3⟩ := avgVec_sc hk h1 hzne hzl
  have h5 : (d.labels.zip d'.labels).map Prod.snd = d'.labels := List.map_snd_zip (by rw [hd.labels.length_eq])
  rw [← h2, h5, ← g1, ← g1'] at a3
  rw [← h2, ← g1] at a1
  rw [h5, ← g1'] at a2
  have hlrs : Sc 0 (-104) 1 0 lr lr := by
    refine ⟨r, hlr, by simpa using hlr, ?_, by simpa using hr1⟩
    have hp : (1 : ℚ) / 2 ^ 52 = 2 ^ (-52 : ℤ) := by
      rw [zpow_neg, one_div]
      norm_cast
    rw [hp] at hr
    exact (representable_of_val hlr).onGrid hr
  have score : ∀ i ≤ n, List.Forall₂ (ScTree k c t) (m.trees.take i) (m'.trees.take i) → ∀ row : List B64, c ≤ row.length →
      ∃ s s', regressionPredict { m with trees := m.trees.take i } row = .ok s ∧ regressionPredict { m' with trees := m'.trees.take i } row = .ok s' ∧
        s.length = t ∧ s'.length = t ∧ ∀ j < t, Sc k (-380) (2 ^ 21) 225 (s.getD j F64.zero) (s'.getD j F64.zero) := by
    intro i hi hf row hrow
    simp only [regressionPredict, predictInstance_eq, g2, g2']
    refine rawScore_sc hk a1 a2 a3 hlrs hf ?_ hrow
    rw [List.length_take]
    omega
  have key : ∀ i ≤ n, List.Forall₂ (ScTree k c t) (m.trees.take i) (m'.trees.take i) := by
    intro i
    induction i with
    | zero => intro _; simp
    | succ i ih =>
      intro hi
      have hprev := ih (by omega)
      have hi1 : i < m.trees.length := by omega
      have hi2 : i < m'.trees.length := by omega
      rw [List.take_add_one, List.take_add_one, List.getElem?_eq_getElem hi1, List.getElem?_eq_getElem hi2]
      refine List.rel_append hprev (.cons ?_ .nil)
      obtain ⟨preds, p1, p2, p3⟩ := C33_regression_residual_tree d h.label_count.symm cfg n lr m hm i _ (List.getElem?_eq_getElem hi1)
      obtain ⟨preds', p1', p2', p3'⟩ := C33_regression_residual_tree d' h4.label_count.symm cfg n lr m' hm' i _ (List.getElem?_eq_getElem hi2)
      have hw := residual_wf (g := id) h (fun _ => rfl) p2
      have hw' := residual_wf (g := id) h4 (fun _ => rfl) p2'
      simp only [id] at hw hw'
      rw [gradBoostTreeNew_ok hw hc] at p3
      rw [gradBoostTreeNew_ok hw' hc] at p3'
      rw [← Except.ok.inj p3, ← Except.ok.inj p3']
      have hord := hres i (by omega) preds p1
      rw [hrows] at p1'
      have ln := p2.length_eq
      have ln' := p2'.length_eq
      have lnd := hd.labels.length_eq
      have hlen1 : (List.zipWith (List.zipWith F64.sub) d.labels preds).length = d.labels.length := by rw [List.length_zipWith]; omega
      have hlen2 : (List.zipWith (List.zipWith F64.sub) d'.labels preds').length = d.labels.length := by rw [List.length_zipWith]; omega
      have hz : ∀ z ∈ (List.zipWith (List.zipWith F64.sub) d.labels preds).zip (List.zipWith (List.zipWith F64.sub) d'.labels preds'),
          ScVec k t z.1 z.2 := by
        intro z hzm
        obtain ⟨e, he⟩ := List.getElem?_of_mem hzm
        rw [List.getElem?_zip_eq_some] at he
        have he1 : e < d.labels.length := by rw [← hlen1]; exact (List.getElem?_eq_some_iff.mp he.1).1
        have lrow : e < d.featureRows.length := by rw [← h.label_count]; exact he1
        obtain ⟨s, q1, q2⟩ := mapM_get p1 (List.getElem?_eq_getElem lrow)
        obtain ⟨s', q1', q2'⟩ := mapM_get p1' (List.getElem?_eq_getElem lrow)
        obtain ⟨v, v', v1, v2, v3, v4, v5⟩ := score i (by omega) hprev d.featureRows[e] (by rw [h.row_len _ (List.getElem_mem lrow)])
        rw [v1] at q2
        rw [v2] at q2'
        cases q2
        cases q2'
        have ez1 : z.1 = List.zipWith F64.sub (d.labels[e]) s := by
          have := he.1
          rw [List.getElem?_zipWith, List.getElem?_eq_getElem he1, q1] at this
          simpa using this.symm
        have he2 : e < d'.labels.length := by omega
        have ez2 : z.2 = List.zipWith F64.sub (d'.labels[e]) s' := by
          have := he.2
          rw [List.getElem?_zipWith, List.getElem?_eq_getElem he2, q1'] at this
          simpa using this.symm
        have ll1 := h.label_len _ (List.getElem_mem he1)
        have ll2 := h4.label_len _ (List.getElem_mem he2)
        have hlab := h1 (d.labels[e], d'.labels[e]) (by
          rw [List.mem_iff_getElem]
          exact ⟨e, by rw [List.length_zip]; omega, by simp⟩)
        have hz1 : z.1.length = t := by rw [ez1, List.length_zipWith]; omega
        have hz2 : z.2.length = t := by rw [ez2, List.length_zipWith]; omega
        refine ⟨hz1, hz2, fun j hj => ?_⟩
        have hoj := hord z.1 (List.mem_of_getElem? he.1) (z.1.getD j F64.zero) (entry_mem (by omega))
        refine hoj.sc ?_
        rw [ez1, ez2, zipWith_getD_of (a := F64.zero) (b := F64.zero) (by omega) (by omega),
          zipWith_getD_of (a := F64.zero) (b := F64.zero) (by omega) (by omega)]
        have hl := (hlab.2.2 j hj).weaken (a' := -380) (M' := 1) (b' := 225) (e := 0) (by omega) (by omega) (by omega)
        exact (hl.sub (v5 j hj) (by norm_num) (by omega) (by omega) (by omega) (by omega) (by omega)).times
      have hb := residual_tree_sc hk ht hw (by show (List.zipWith (List.zipWith F64.sub) d.labels preds).length ≤ 2 ^ 24; omega) hz
        (List.map_fst_zip (l₁ := List.zipWith (List.zipWith F64.sub) d.labels preds) (by omega)).symm cfg.maxLevels
      rw [List.map_snd_zip (by omega)] at hb
      have hsame : ({ d' with labels := List.zipWith (List.zipWith F64.sub) d'.labels preds' } : DataSet B64) =
          { d with labels := List.zipWith (List.zipWith F64.sub) d'.labels preds' } := by
        rw [hd.rows, hd.columns]
      rw [hsame]
      exact hb
  have hfull := key n le_rfl
  rw [List.take_of_length_le (by omega), List.take_of_length_le (by omega)] at hfull
  refine ⟨m', hm', hfull.imp (fun _ _ hs => ⟨hs.1, hs.2.1⟩), fun row hrow => ?_⟩
  obtain ⟨s, s', s1, s2, s3, s4, s5⟩ := score n le_rfl (key n le_rfl) row hrow
  rw [List.take_of_length_le (by omega)] at s1 s2
  exact ⟨s, s', s1, s2, forall₂_getD s3 s4 (fun j hj => (s5 j hj).times)⟩

end ensemble

/-! ## Concrete cases -/

namespace Sample

/-- three rows with labels that are no multiples of each other, times `f` -/
def tenths (f : ℚ) : DataSet B64 :=
  { featureRows := [[b64 0], [b64 1], [b64 2]]
    labels := [[b64 (f * finPart (b64 0.3).val)], [b64 (f * finPart (b64 0.2).val)], [b64 (f * (finPart (b64 0.1).val + 1 / 2 ^ 55))]]
    featureColumns := [[b64 0, b64 1, b64 2]] }

end Sample

-- the hypotheses of C86 are met by labels that are rounded decimal fractions, and their multiples by 2^-7
example : ∀ negZero : Bool, let _ := env negZero
    (tenths 1).WF 1 1 := by
  intro negZero
  dsimp only
  refine @DataSet.WF.mk _ (@instF64B64OfB64Env (env negZero)) _ _ _ ?_ ?_ ?_ ?_ ?_ ?_ ?_ <;> revert negZero <;> decide +kernel

theorem ordinary_of {x : B64} (h : x.val = .fin (finPart x.val) ∧ (finPart x.val = 0 ∨ 1 / 2 ^ 148 ≤ |finPart x.val|) ∧ |finPart x.val| ≤ 2 ^ 200) :
    Ordinary x := ⟨_, h⟩

example : ∀ l ∈ (tenths 1).labels, ∀ x ∈ l, Ordinary x := by
  have key : ∀ l ∈ (tenths 1).labels, ∀ x ∈ l,
      x.val = .fin (finPart x.val) ∧ (finPart x.val = 0 ∨ 1 / 2 ^ 148 ≤ |finPart x.val|) ∧ |finPart x.val| ≤ 2 ^ 200 := by decide +kernel
  exact fun l hl x hx => ordinary_of (key l hl x hx)

example : TimesPowLabels (-7) (tenths 1) (tenths (1 / 2 ^ 7)) := by
  have e : (2 : ℚ) ^ (-7 : ℤ) = 1 / 2 ^ 7 := by norm_num
  have tp : ∀ {x y : B64}, x.val = .fin (finPart x.val) ∧ y.val = .fin (1 / 2 ^ 7 * finPart x.val) → TimesPow (-7) x y :=
    fun {x y} h => ⟨_, h.1, by rw [e]; exact h.2⟩
  exact ⟨rfl, rfl, .cons (.cons (tp (by decide +kernel)) .nil) (.cons (.cons (tp (by decide +kernel)) .nil)
    (.cons (.cons (tp (by decide +kernel)) .nil) .nil))⟩

/-- the residuals of the first `n` iterations, for the example below -/
def Sample.residualsOrdinary (d : DataSet B64) (cfg : TreeConfig) (n : ℕ) (lr : B64) : Bool :=
  match regressionTrain d cfg n lr with
  | .error _ => false
  | .ok m => (List.range n).all fun i =>
    match d.featureRows.mapM (regressionPredict { m with trees := m.trees.take i }) with
    | .error _ => false
    | .ok preds => (List.zipWith (List.zipWith F64.sub) d.labels preds).all fun l => l.all fun x =>
      decide (x.val = .fin (finPart x.val) ∧ (finPart x.val = 0 ∨ 1 / 2 ^ 148 ≤ |finPart x.val|) ∧ |finPart x.val| ≤ 2 ^ 200)

-- the residuals of four iterations are of ordinary size
example : ∀ negZero : Bool, let _ := env negZero
    residualsOrdinary (tenths 1) { useMultiThreading := false, numberOfClasses := 1, maxLevels := 1 } 4 (b64 0.1) = true := by decide +kernel

-- the question and the trees are the same for the multiples by 2^-7; with the factor 3 rounding decides for another question
example : ∀ negZero : Bool, let _ := env negZero
    (findBestSplit (tenths 1) 1).map (fun s => (s.question.column, s.question.value)) = .ok (0, b64 1) ∧
    (findBestSplit (tenths (1 / 2 ^ 7)) 1).map (fun s => (s.question.column, s.question.value)) = .ok (0, b64 1) ∧
    (findBestSplit (tenths 3) 1).map (fun s => (s.question.column, s.question.value)) = .ok (0, b64 2) := by decide +kernel

end Verif
