import Verif.Lemmas.ConstTarget
import Verif.Props.Mirror
import Verif.Lemmas.Accuracy
import Verif.Props.NearTrend
/-!
# C126: one more target, with the same integer value in all labels

In binary64, with all roundings, for all other labels (also infinities and NaN).
-/

set_option linter.unusedSectionVars false

namespace Verif

open Sample B64

section
variable [B64Env]

theorem WithTarget.pairs {i : ℕ} {x : ℤ} {d d' : DataSet B64} {c t : ℕ} (h : d.WF c t) (hd : WithTarget i x d d') :
    i ≤ t ∧ InsPairs i t x (d.labels.zip d'.labels) ∧ (d.labels.zip d'.labels).length = d.labels.length ∧
      d.labels = (d.labels.zip d'.labels).map Prod.fst ∧
      d'.labels = (d.labels.zip d'.labels).map Prod.snd ∧
      d' = { d with labels := (d.labels.zip d'.labels).map Prod.snd } ∧ d'.WF c (t + 1) := by
  have hlen := hd.labels.length_eq
  have hpair : ∀ z ∈ d.labels.zip d'.labels, WithEntry i x z.1 z.2 ∧ z.1 ∈ d.labels := by
    intro z hz
    obtain ⟨e, he⟩ := List.getElem?_of_mem hz
    rw [List.getElem?_zip_eq_some] at he
    obtain ⟨b, h1, h2⟩ := forall₂_get hd.labels he.1
    rw [he.2] at h1
    cases h1
    exact ⟨h2, List.mem_of_getElem? he.1⟩
  have hI : InsPairs i t x (d.labels.zip d'.labels) := by
    intro z hz
    obtain ⟨⟨h1, y, hy, e⟩, h2⟩ := hpair z hz
    have := h.label_len _ h2
    exact ⟨this, by omega, y, hy, e⟩
  have hl : (d.labels.zip d'.labels).length = d.labels.length := by rw [List.length_zip]; omega
  have hi : i ≤ t := by
    have h0 := List.length_pos_of_ne_nil h.labels_ne
    exact (hI _ (List.getElem_mem (by rw [hl]; exact h0))).2.1
  have e2 : d' = { d with labels := (d.labels.zip d'.labels).map Prod.snd } := by
    rw [List.map_snd_zip (by omega)]
    obtain ⟨r, l, cc⟩ := d'
    obtain ⟨r', l', cc'⟩ := d
    have := hd.rows
    have := hd.columns
    simp_all
  refine ⟨hi, hI, hl, (List.map_fst_zip (by omega)).symm, (List.map_snd_zip (by omega)).symm, e2, ?_⟩
  refine ⟨by rw [hd.rows]; exact h.rows_ne, by rw [hd.rows]; exact h.row_len, by rw [hd.rows, ← hlen]; exact h.label_count, ?_,
    by rw [hd.rows, hd.columns]; exact h.cols, by rw [hd.rows]; exact h.no_nan, h.cols_u32⟩
  intro l hl'
  rw [← List.map_snd_zip (l₁ := d.labels) (l₂ := d'.labels) (by omega)] at hl'
  obtain ⟨z, hz, rfl⟩ := List.mem_map.mp hl'
  exact (hI z hz).length

theorem Ins.withEntry {i t : ℕ} {x : ℤ} {v v' : List B64} (h : InsVec i t x v v') : WithEntry i x v v' := by
  obtain ⟨h1, h2, y, hy, e⟩ := h
  exact ⟨by omega, y, hy, e⟩

/-- **C126** (split search).  In binary64, give all labels one more target with the same integer value `x`, at any position, where the sum of the
squares of `x` over all rows is at most `2^53`.  The search reports the same question with a gain of the same value. -/
theorem C126_split (i : ℕ) (x : ℤ) (d d' : DataSet B64) (c t : ℕ) (h : d.WF c t) (hd : WithTarget i x d d') (hx : ExactConst d.labels.length x) :
    ∃ b b', findBestSplit d t = .ok b ∧ findBestSplit d' (t + 1) = .ok b' ∧ b'.question = b.question ∧ b'.gain.val = b.gain.val := by
  obtain ⟨hi, h1, hl, h2, -, h3, h4⟩ := hd.pairs h
  have hs := splitOf_ins h hi h1 (by rw [hl]; exact hx) h2
  rw [← h3] at hs
  exact ⟨_, _, findBestSplit_ok h, findBestSplit_ok h4, hs.1, hs.2⟩

/-- **C126** (trees).  All tree learners ask the same question at every position and send every row the same way.  The leaf averages of a
regression tree and the leaf vectors of a regression boosting tree are exactly the old ones, with one more entry of the value `x`. -/
theorem C126_trees (i : ℕ) (x : ℤ) (d d' : DataSet B64) (c t : ℕ) (h : d.WF c t) (hd : WithTarget i x d d') (hx : ExactConst d.labels.length x)
    (cfg : TreeConfig) (hc : cfg.numberOfClasses = t) :
    (∃ tree tree', regressionTreeNew d cfg = .ok tree ∧ regressionTreeNew d' { cfg with numberOfClasses := t + 1 } = .ok tree' ∧
      (∀ p, tree'.questionAt p = tree.questionAt p) ∧ (∀ row, tree'.route row = tree.route row) ∧
      ∀ p leaf, tree.leafAt p = some leaf → ∃ dd dd' avg avg', leaf.data = some dd ∧ tree'.leafAt p = some { data := some dd' } ∧
        dd'.featureRows = dd.featureRows ∧ calculateAverageLabelVector dd.labels = .ok avg ∧ calculateAverageLabelVector dd'.labels = .ok avg' ∧
        WithEntry i x avg avg') ∧
    (∃ tree tree', gradBoostTreeNew d cfg .regression = .ok tree ∧
      gradBoostTreeNew d' { cfg with numberOfClasses := t + 1 } .regression = .ok tree' ∧
      ∀ p leaf, tree.leafAt p = some leaf → ∃ v v', leaf.leafOutput = some v ∧ tree'.leafAt p = some { leafOutput := some v' } ∧
        WithEntry i x v v') ∧
    (∀ o, ∃ tree tree', gradBoostTreeNew d cfg o = .ok tree ∧ gradBoostTreeNew d' { cfg with numberOfClasses := t + 1 } o = .ok tree' ∧
      (∀ p, tree'.questionAt p = tree.questionAt p) ∧ ∀ row, tree'.route row = tree.route row) ∧
    ∀ o, ∃ tree tree', amgTreeNew d cfg o = .ok tree ∧ amgTreeNew d' { cfg with numberOfClasses := t + 1 } o = .ok tree' ∧
      (∀ p, tree'.questionAt p = tree.questionAt p) ∧ ∀ row, tree'.route row = tree.route row := by
  obtain ⟨hi, h1, hl, h2, -, h3, h4⟩ := hd.pairs h
  have key : ∀ {L : Type} (leafOf leafOf' : DataSet B64 → L),
      InsShape c t i x leafOf leafOf' (treeOf leafOf c t cfg.maxLevels d) (treeOf leafOf' c (t + 1) cfg.maxLevels d') := by
    intro L leafOf leafOf'
    have := treeOf_ins (leafOf := leafOf) (leafOf' := leafOf') hi cfg.maxLevels d h _ h1 (by rw [hl]; exact hx) h2
    rwa [← h3] at this
  refine ⟨⟨_, _, regressionTreeNew_ok h hc, regressionTreeNew_ok h4 rfl, (key _ _).1, (key _ _).2.1, ?_⟩,
    ⟨_, _, gradBoostTreeNew_ok h hc _, gradBoostTreeNew_ok h4 rfl _, ?_⟩,
    fun o => ⟨_, _, gradBoostTreeNew_ok h hc o, gradBoostTreeNew_ok h4 rfl o, (key _ _).1, (key _ _).2.1⟩,
    fun o => ⟨_, _, amgTreeNew_ok h hc o, amgTreeNew_ok h4 rfl o, (key _ _).1, (key _ _).2.1⟩⟩
  · intro p leaf hp
    obtain ⟨dd, zs, hw, hz, hE, hls, rfl, hy⟩ := (key regLeaf regLeaf).2.2 p leaf hp
    have hne : zs ≠ [] := by
      have := hw.labels_ne
      rw [hls] at this
      simpa using this
    have hl2 : ∀ l ∈ zs.map Prod.snd, l.length = t + 1 := by
      intro l hl
      obtain ⟨z, hz', rfl⟩ := List.mem_map.mp hl
      exact (hz z hz').length
    refine ⟨dd, _, _, _, rfl, hy, rfl, ?_, ?_, (avgVec_ins hi hz hE hne).withEntry⟩
    · rw [calculateAverageLabelVector_eq, calculateAverageVector_ok hw.labels_ne hw.label_len, hls]
    · rw [calculateAverageLabelVector_eq]
      exact calculateAverageVector_ok (by simpa using hne) hl2
  · intro p leaf hp
    obtain ⟨dd, zs, hw, hz, hE, hls, rfl, hy⟩ := (key (gradLeaf .regression t) (gradLeaf .regression (t + 1))).2.2 p leaf hp
    have hne : zs ≠ [] := by
      have := hw.labels_ne
      rw [hls] at this
      simpa using this
    refine ⟨_, _, rfl, hy, ?_⟩
    rw [hls]
    exact (avgVec_ins hi hz hE hne).withEntry

/-- **C126** (trees on pre-sorted features).  They ask the same questions and send every row the same way, too. -/
theorem C126_tree_sorted (i : ℕ) (x : ℤ) (d d' : DataSet B64) (c t : ℕ) (h : d.WF c t) (hd : WithTarget i x d d')
    (hx : ExactConst d.labels.length x) (ht : t + 1 < 2 ^ 32) (cfg : TreeConfig) (hc : cfg.numberOfClasses = t) :
    ∃ s s' tree tree', createDatasetWithSortedFeatures d = .ok s ∧ createDatasetWithSortedFeatures d' = .ok s' ∧
      regressionTreeNewPartitionNew s cfg = .ok tree ∧ regressionTreeNewPartitionNew s' { cfg with numberOfClasses := t + 1 } = .ok tree' ∧
      (∀ p, tree'.questionAt p = tree.questionAt p) ∧ ∀ row, tree'.route row = tree.route row := by
  obtain ⟨-, -, -, -, -, -, h4⟩ := hd.pairs h
  obtain ⟨⟨z, z', hz, hz', hq, hr, -⟩, -⟩ := C126_trees i x d d' c t h hd hx cfg hc
  obtain ⟨s, a, b, hs, ha, hb, e⟩ := C23_builders_agree d c t h (by omega) cfg hc
  obtain ⟨s', a', b', hs', ha', hb', e'⟩ := C23_builders_agree d' c (t + 1) h4 ht { cfg with numberOfClasses := t + 1 } rfl
  rw [ha] at hz
  rw [ha'] at hz'
  have hz := Except.ok.inj hz
  have hz' := Except.ok.inj hz'
  subst hz hz'
  refine ⟨s, s', b, b', hs, hs', hb, hb', fun p => ?_, fun row => ?_⟩
  · have e1 := congrArg (fun w => w.questionAt p) e
    have e2 := congrArg (fun w => w.questionAt p) e'
    simp only [TreeNode.questionAt_mapLeaves] at e1 e2
    rw [e1, e2, hq p]
  · have e1 := congrArg (fun w => w.route row) e
    have e2 := congrArg (fun w => w.route row) e'
    simp only [TreeNode.route_mapLeaves] at e1 e2
    rw [e1, e2, hr row]

/-! ## Ensembles -/

section ensemble
variable {i c t : ℕ} {x : ℤ}

/-- corresponding trees of two ensembles -/
def InsTree (i c t : ℕ) (tree tree' : TreeNode B64 (GradBoostLeaf B64)) : Prop :=
  (∀ p, tree'.questionAt p = tree.questionAt p) ∧ (∀ row, tree'.route row = tree.route row) ∧
    ∀ row : List B64, c ≤ row.length → ∃ o o' : List B64, gradOut row tree = .ok o ∧ gradOut row tree' = .ok o' ∧ InsVec i t 0 o o'

theorem rawScore_ins (hx : ExactConst 1 x) {g g' : List B64} (hg : InsVec i t x g g') {lr : B64} {q : ℚ} (hlr : lr.val = .fin q)
    {trees trees' : List (TreeNode B64 (GradBoostLeaf B64))} (ht : List.Forall₂ (InsTree i c t) trees trees') {row : List B64} (hrow : c ≤ row.length) :
    ∃ p p', rawScore gradOut g lr trees row = .ok p ∧ rawScore gradOut g' lr trees' row = .ok p' ∧ InsVec i t x p p' := by
  have houts : ∃ outs outs' : List (List B64),
      trees.mapM (fun tree => do
        let o ← gradOut row tree
        pure (o.map (fun x => lr *. x))) = .ok outs ∧
      trees'.mapM (fun tree => do
        let o ← gradOut row tree
        pure (o.map (fun x => lr *. x))) = .ok outs' ∧
      List.Forall₂ (InsVec i t 0) outs outs' := by
    induction ht with
    | nil => exact ⟨[], [], rfl, rfl, .nil⟩
    | @cons a b as bs hab _ ih =>
      obtain ⟨outs, outs', i1, i2, i3⟩ := ih
      obtain ⟨o, o', e1, e2, e3⟩ := hab.2.2 row hrow
      refine ⟨o.map (fun x => lr *. x) :: outs, o'.map (fun x => lr *. x) :: outs', ?_, ?_, .cons (e3.map (fun y hy => ?_)) i3⟩
      · rw [mapM_cons_R, i1, e1]; rfl
      · rw [mapM_cons_R, i2, e2]; rfl
      · rw [mul_val, hlr, hy]
        simp
  obtain ⟨outs, outs', o1, o2, o3⟩ := houts
  have hfold : ∀ (outs outs' : List (List B64)) (g g' : List B64), InsVec i t x g g' → List.Forall₂ (InsVec i t 0) outs outs' →
      InsVec i t x (outs.foldl (fun a b => List.zipWith F64.add a b) g) (outs'.foldl (fun a b => List.zipWith F64.add a b) g') := by
    intro outs outs' g g' hg ho
    induction ho generalizing g g' with
    | nil => exact hg
    | cons hoo _ ih =>
      refine ih _ _ (hg.zip hoo (fun y z hy hz => ?_))
      rw [add_val, hy, hz]
      simpa using hx.value
  have hlen1 : ∀ o ∈ outs, o.length = g.length := by
    intro o ho
    obtain ⟨j, hj⟩ := List.getElem?_of_mem ho
    obtain ⟨o', _, h1⟩ := forall₂_get o3 hj
    rw [hg.1, h1.1]
  have hlen2 : ∀ o ∈ outs', o.length = g'.length := by
    intro o ho
    obtain ⟨j, hj⟩ := List.getElem?_of_mem ho
    obtain ⟨o', _, h1⟩ := forall₂_get o3.flip hj
    rw [hg.length]
    exact Ins.length h1
  refine ⟨_, _, ?_, ?_, hfold outs outs' g g' hg o3⟩
  · rw [rawScore, o1, R.ok_bind, sumLeafOutputs_ok hlen1]
  · rw [rawScore, o2, R.ok_bind, sumLeafOutputs_ok hlen2]

/-- the trees for corresponding residuals -/
theorem residual_tree_ins {d : DataSet B64} (h : d.WF c t) (hi : i ≤ t) {zs : List (List B64 × List B64)} (hz : InsPairs i t 0 zs)
    (hn : ExactConst zs.length 0) (hls : d.labels = zs.map Prod.fst) (m : ℕ) :
    InsTree i c t (treeOf (gradLeaf .regression t) c t m d)
      (treeOf (gradLeaf .regression (t + 1)) c (t + 1) m { d with labels := zs.map Prod.snd }) := by
  have hs := treeOf_ins (leafOf := gradLeaf .regression t) (leafOf' := gradLeaf .regression (t + 1)) hi m d h zs hz hn hls
  refine ⟨hs.1, hs.2.1, fun row hrow => ?_⟩
  obtain ⟨leaf, f1, f2⟩ := TreeNode.find_of_proper (treeOf_proper (leafOf := gradLeaf .regression t) (c := c) (t := t) m d) (row := row)
    (fun p q hq => Nat.lt_of_lt_of_le (treeOf_questions m d h p q hq).1 hrow)
  obtain ⟨leaf', f3, f4⟩ := TreeNode.find_of_proper
    (treeOf_proper (leafOf := gradLeaf .regression (t + 1)) (c := c) (t := t + 1) m { d with labels := zs.map Prod.snd }) (row := row)
    (fun p q hq => Nat.lt_of_lt_of_le (treeOf_questions m d h p q (by rw [← hs.1]; exact hq)).1 hrow)
  obtain ⟨dd, ys, hw, hy, hE, hl, rfl, e⟩ := hs.2.2 _ _ f2
  rw [hs.2.1, e] at f4
  cases f4
  have hne : ys ≠ [] := by
    have := hw.labels_ne
    rw [hl] at this
    simpa using this
  refine ⟨leafOut .regression t dd.labels, leafOut .regression (t + 1) (ys.map Prod.snd), by simp only [gradOut, f1, R.ok_bind, gradLeaf, unwrap],
    by simp only [gradOut, f3, R.ok_bind, gradLeaf, unwrap], ?_⟩
  rw [hl]
  exact avgVec_ins hi hy hE hne

/-- **C126** (ensembles).  Whatever the number of iterations and the learning rate, if it is finite, all trees of the regression ensemble ask the
same questions, and every prediction is exactly the old one, with one more entry of the value `x`. -/
theorem C126_ensembles (i : ℕ) (x : ℤ) (d d' : DataSet B64) (c t : ℕ) (h : d.WF c t) (hd : WithTarget i x d d')
    (hx : ExactConst d.labels.length x) (cfg : TreeConfig) (hc : cfg.numberOfClasses = t) (n : ℕ) (lr : B64) (q : ℚ) (hlr : lr.val = .fin q) :
    ∃ m m', regressionTrain d cfg n lr = .ok m ∧ regressionTrain d' { cfg with numberOfClasses := t + 1 } n lr = .ok m' ∧
      List.Forall₂ (fun tree tree' => (∀ p, TreeNode.questionAt tree' p = TreeNode.questionAt tree p) ∧
        ∀ row, TreeNode.route row tree' = TreeNode.route row tree) m.trees m'.trees ∧
      ∀ row, c ≤ row.length → ∃ p p', regressionPredict m row = .ok p ∧ regressionPredict m' row = .ok p' ∧ WithEntry i x p p' := by
  obtain ⟨hi, h1, hl, h2, h5, h3, h4⟩ := hd.pairs h
  have hrows := hd.rows
  have hpos := List.length_pos_of_ne_nil h.labels_ne
  have hx1 : ExactConst 1 x := hx.fewer hpos
  obtain ⟨m, hm, -⟩ := C42_regression d c t h cfg hc n lr
  obtain ⟨m', hm', -⟩ := C42_regression d' c (t + 1) h4 { cfg with numberOfClasses := t + 1 } rfl n lr
  obtain ⟨g1, g2, g3⟩ := train_facts h hm
  obtain ⟨g1', g2', g3'⟩ := train_facts h4 hm'
  have hg := avgVec_ins hi h1 (by rw [hl]; exact hx) (by intro h0; rw [h0] at hl; simp at hl; omega)
  rw [← h2, ← h5, ← g1, ← g1'] at hg
  have score : ∀ j, List.Forall₂ (InsTree i c t) (m.trees.take j) (m'.trees.take j) → ∀ row : List B64, c ≤ row.length →
      ∃ p p', regressionPredict { m with trees := m.trees.take j } row = .ok p ∧ regressionPredict { m' with trees := m'.trees.take j } row = .ok p' ∧
        InsVec i t x p p' := by
    intro j hf row hrow
    simp only [regressionPredict, predictInstance_eq, g2, g2']
    exact rawScore_ins hx1 hg hlr hf hrow
  have key : ∀ j ≤ n, List.Forall₂ (InsTree i c t) (m.trees.take j) (m'.trees.take j) := by
    intro j
    induction j with
    | zero => intro _; simp
    | succ j ih =>
      intro hj
      have hprev := ih (by omega)
      have hi1 : j < m.trees.length := by omega
      have hi2 : j < m'.trees.length := by omega
      rw [List.take_add_one, List.take_add_one, List.getElem?_eq_getElem hi1, List.getElem?_eq_getElem hi2]
      refine List.rel_append hprev (.cons ?_ .nil)
      obtain ⟨preds, p1, p2, p3⟩ := C33_regression_residual_tree d h.label_count.symm cfg n lr m hm j _ (List.getElem?_eq_getElem hi1)
      obtain ⟨preds', p1', p2', p3'⟩ := C33_regression_residual_tree d' h4.label_count.symm { cfg with numberOfClasses := t + 1 } n lr m' hm' j _
        (List.getElem?_eq_getElem hi2)
      have hw := residual_wf (g := id) h (fun _ => rfl) p2
      have hw' := residual_wf (g := id) h4 (fun _ => rfl) p2'
      simp only [id] at hw hw'
      rw [gradBoostTreeNew_ok hw hc] at p3
      rw [gradBoostTreeNew_ok hw' rfl] at p3'
      rw [← Except.ok.inj p3, ← Except.ok.inj p3']
      rw [hrows] at p1'
      have ln := p2.length_eq
      have ln' := p2'.length_eq
      have lnd := hd.labels.length_eq
      have hlen1 : (List.zipWith (List.zipWith F64.sub) d.labels preds).length = d.labels.length := by rw [List.length_zipWith]; omega
      have hlen2 : (List.zipWith (List.zipWith F64.sub) d'.labels preds').length = d.labels.length := by rw [List.length_zipWith]; omega
      have hz : InsPairs i t 0 ((List.zipWith (List.zipWith F64.sub) d.labels preds).zip (List.zipWith (List.zipWith F64.sub) d'.labels preds')) := by
        intro z hzm
        obtain ⟨e, he⟩ := List.getElem?_of_mem hzm
        rw [List.getElem?_zip_eq_some] at he
        have he1 : e < d.labels.length := by rw [← hlen1]; exact (List.getElem?_eq_some_iff.mp he.1).1
        have lrow : e < d.featureRows.length := by rw [← h.label_count]; exact he1
        obtain ⟨v, q1, q2⟩ := mapM_get p1 (List.getElem?_eq_getElem lrow)
        obtain ⟨v', q1', q2'⟩ := mapM_get p1' (List.getElem?_eq_getElem lrow)
        obtain ⟨w, w', v1, v2, v3⟩ := score j hprev d.featureRows[e] (by rw [h.row_len _ (List.getElem_mem lrow)])
        rw [v1] at q2
        rw [v2] at q2'
        cases q2
        cases q2'
        have ez1 : z.1 = List.zipWith F64.sub (d.labels[e]) v := by
          have := he.1
          rw [List.getElem?_zipWith, List.getElem?_eq_getElem he1, q1] at this
          simpa using this.symm
        have he2 : e < d'.labels.length := by omega
        have ez2 : z.2 = List.zipWith F64.sub (d'.labels[e]) v' := by
          have := he.2
          rw [List.getElem?_zipWith, List.getElem?_eq_getElem he2, q1'] at this
          simpa using this.symm
        have hlab := h1 (d.labels[e], d'.labels[e]) (by
          rw [List.mem_iff_getElem]
          exact ⟨e, by rw [List.length_zip]; omega, by simp⟩)
        rw [ez1, ez2]
        refine hlab.zip v3 (fun y z hy hz => ?_)
        rw [sub_val, hy, hz]
        simp
      have hb := residual_tree_ins hw hi hz (by rw [List.length_zip, hlen1, hlen2, min_self]; exact ⟨hx.rows, by simp⟩)
        (List.map_fst_zip (l₁ := List.zipWith (List.zipWith F64.sub) d.labels preds) (by omega)).symm cfg.maxLevels
      rw [List.map_snd_zip (by omega)] at hb
      have hsame : ({ d' with labels := List.zipWith (List.zipWith F64.sub) d'.labels preds' } : DataSet B64) =
          { d with labels := List.zipWith (List.zipWith F64.sub) d'.labels preds' } := by
        rw [hd.rows, hd.columns]
      rw [hsame]
      exact hb
  have hfull := key n le_rfl
  rw [List.take_of_length_le (by omega), List.take_of_length_le (by omega)] at hfull
  refine ⟨m, m', hm, hm', hfull.imp (fun _ _ hs => ⟨hs.1, hs.2.1⟩), fun row hrow => ?_⟩
  obtain ⟨p, p', s1, s2, s3⟩ := score n (key n le_rfl) row hrow
  rw [List.take_of_length_le (by omega)] at s1 s2
  exact ⟨p, p', s1, s2, s3.withEntry⟩

end ensemble

/-! ## Classes that do not occur -/

section classes
variable {t i : ℕ}

theorem renumber_inj {j k : ℕ} : renumber i j = renumber i k ↔ j = k := by
  unfold renumber
  split_ifs <;> omega

theorem renumber_lt {j k : ℕ} : renumber i j < renumber i k ↔ j < k := by
  unfold renumber
  split_ifs <;> omega

theorem renumber_bound {k : ℕ} (hk : k < t) : renumber i k < t + 1 := by
  unfold renumber
  split_ifs <;> omega

theorem renumber_ne (k : ℕ) : renumber i k ≠ i := by
  unfold renumber
  split_ifs <;> omega

theorem renumber_onto (j : ℕ) (hj : j ≠ i) : ∃ k, renumber i k = j ∧ (j < t + 1 → i ≤ t → k < t) := by
  rcases Nat.lt_or_gt_of_ne hj with h | h
  · exact ⟨j, by simp [renumber, h], by omega⟩
  · exact ⟨j - 1, by simp [renumber, show ¬ j - 1 < i by omega]; omega, by omega⟩

theorem oneHot_with (hi : i ≤ t) {k : ℕ} : WithEntry i 0 (oneHot t k) (oneHot (t + 1) (renumber i k)) := by
  have hl : (oneHot t k : List B64).length = t := by simp [oneHot]
  refine ⟨by omega, F64.zero, by simp, ?_⟩
  apply List.ext_getElem?
  intro j
  rcases Nat.lt_trichotomy j i with h | rfl | h
  · rw [oneHot_at (by omega), List.getElem?_append_left (by rw [List.length_take]; omega), List.getElem?_take_of_lt h, oneHot_at (by omega)]
    have : j = renumber i k ↔ j = k := by unfold renumber; split_ifs <;> omega
    simp only [this]
  · rw [oneHot_at (by omega), List.getElem?_append_right (by rw [List.length_take]; omega), if_neg (renumber_ne k).symm]
    simp [hl, hi]
  · rw [List.getElem?_append_right (by rw [List.length_take]; omega), List.length_take, hl, min_eq_left hi]
    obtain ⟨m, rfl⟩ : ∃ m, j = m + 1 := ⟨j - 1, by omega⟩
    rw [show m + 1 - i = (m - i) + 1 by omega, List.getElem?_cons_succ, List.getElem?_drop, show i + (m - i) = m by omega]
    by_cases hm : m < t
    · rw [oneHot_at (by omega), oneHot_at hm]
      have : m + 1 = renumber i k ↔ m = k := by unfold renumber; split_ifs <;> omega
      simp only [this]
    · rw [List.getElem?_eq_none (by simp [oneHot]; omega), List.getElem?_eq_none (by omega)]

theorem classCount_hot (kk : List ℕ) {j : ℕ} (hj : j < t) : classCount (kk.map (fun k => (oneHot t k : List B64))) j = kk.count j := by
  rw [classCount, List.countP_map, List.count]
  apply List.countP_congr
  intro k _
  simp only [Function.comp, oneHot_at hj]
  by_cases h : j = k
  · subst h
    simp [eq_val]
  · have h' : ¬ k = j := fun e => h e.symm
    simp [eq_val, h, h']

theorem classCount_renumbered (kk : List ℕ) {j : ℕ} (hj : j < t) :
    classCount (kk.map (fun k => (oneHot (t + 1) (renumber i k) : List B64))) (renumber i j) = kk.count j := by
  have e : kk.map (fun k => (oneHot (t + 1) (renumber i k) : List B64)) = (kk.map (renumber i)).map (oneHot (t + 1)) := by
    rw [List.map_map]; rfl
  rw [e, classCount_hot _ (renumber_bound hj)]
  exact List.count_map_of_injective kk _ (fun a b h => renumber_inj.mp h) j

theorem firstMajority_renumber (hi : i ≤ t) {kk : List ℕ} (hk : ∀ k ∈ kk, k < t) (hne : kk ≠ []) {k : ℕ}
    (h : FirstMajority (kk.map (fun k => (oneHot t k : List B64))) t k) :
    FirstMajority (kk.map (fun k => (oneHot (t + 1) (renumber i k) : List B64))) (t + 1) (renumber i k) := by
  obtain ⟨h1, h2, h3⟩ := h
  rw [classCount_hot _ h1] at h2 h3
  have hpos : 0 < kk.count k := by
    obtain ⟨a, ha⟩ := List.exists_mem_of_ne_nil _ hne
    have := h2 a (hk a ha)
    rw [classCount_hot _ (hk a ha)] at this
    have := List.count_pos_iff.mpr ha
    omega
  have hzero : classCount (kk.map (fun k => (oneHot (t + 1) (renumber i k) : List B64))) i = 0 := by
    have e : kk.map (fun k => (oneHot (t + 1) (renumber i k) : List B64)) = (kk.map (renumber i)).map (oneHot (t + 1)) := by
      rw [List.map_map]; rfl
    rw [e, classCount_hot _ (by omega), List.count_eq_zero]
    intro hm
    obtain ⟨a, _, ha⟩ := List.mem_map.mp hm
    exact renumber_ne a ha
  refine ⟨renumber_bound h1, fun j hj => ?_, fun j hj => ?_⟩
  · rw [classCount_renumbered _ h1]
    by_cases hji : j = i
    · rw [hji, hzero]; omega
    · obtain ⟨a, rfl, ha⟩ := renumber_onto (t := t) j hji
      have ha := ha hj hi
      rw [classCount_renumbered _ ha]
      have := h2 a ha
      rwa [classCount_hot _ ha] at this
  · rw [classCount_renumbered _ h1]
    by_cases hji : j = i
    · rw [hji, hzero]; omega
    · obtain ⟨a, rfl, -⟩ := renumber_onto (t := t) j hji
      have hak := renumber_lt.mp hj
      have ha : a < t := by omega
      rw [classCount_renumbered _ ha]
      have := h3 a hak
      rwa [classCount_hot _ ha] at this

theorem companions_hot {L : Type} {d : DataSet B64} {ks : List ℕ} {f : ℕ → List B64} (hl : d.labels = ks.map f) (tree : TreeNode B64 L)
    (row : List B64) :
    companions d tree row = (((d.featureRows.zip ks).filter (fun e => decide (tree.route e.1 = tree.route row))).map Prod.snd).map f := by
  rw [companions, DataSet.examples, hl, List.zip_map_right, List.filter_map, List.map_map, List.map_map]
  rfl

/-- **C126** (a class that does not occur).  In binary64, give a further class, which no training example has, any number `i` and add one to the
numbers from `i` on.  The classification tree asks the same questions and predicts the same class, renumbered, for every row; and its accuracy on
every renumbered test set is the same. -/
theorem C126_unused_class (d d' : DataSet B64) (c t i : ℕ) (hi : i ≤ t) (h : d.WF c t) (ht1 : t < 2 ^ 53) (hn : d.featureRows.length < 2 ^ 32)
    (ks : List ℕ) (hk : ∀ k ∈ ks, k < t) (hl : d.labels = ks.map (fun k => oneHot t k)) (hr : d'.featureRows = d.featureRows)
    (hcol : d'.featureColumns = d.featureColumns) (hl' : d'.labels = ks.map (fun k => oneHot (t + 1) (renumber i k))) (cfg : TreeConfig)
    (hc : cfg.numberOfClasses = t) :
    ∃ tree tree', regressionTreeNew d cfg = .ok tree ∧ regressionTreeNew d' { cfg with numberOfClasses := t + 1 } = .ok tree' ∧
      (∀ p, tree'.questionAt p = tree.questionAt p) ∧
      (∀ row, c ≤ row.length → ∃ k < t, predictClass row tree = .ok (oneHot t k) ∧ predictClass row tree' = .ok (oneHot (t + 1) (renumber i k))) ∧
      ∀ (test test' : DataSet B64) (js : List ℕ), (∀ row ∈ test.featureRows, c ≤ row.length) → test.featureRows.length ≤ 2 ^ 53 →
        test'.featureRows = test.featureRows → (∀ j ∈ js, j < t) → test.labels = js.map (fun k => oneHot t k) →
        test'.labels = js.map (fun k => oneHot (t + 1) (renumber i k)) →
        ∀ a, calculateAccuracy test' tree' = .ok a ↔ calculateAccuracy test tree = .ok a := by
  have hd : WithTarget i 0 d d' := by
    refine ⟨hr, hcol, ?_⟩
    rw [hl, hl', List.forall₂_map_left_iff, List.forall₂_map_right_iff, List.forall₂_same]
    exact fun k _ => oneHot_with hi
  have hcount := h.label_count
  have hx : ExactConst d.labels.length 0 := ⟨by rw [hcount]; omega, by simp⟩
  obtain ⟨-, -, -, -, -, -, h4⟩ := hd.pairs h
  obtain ⟨⟨tree, tree', b1, b2, hq, hro, -⟩, -⟩ := C126_trees i 0 d d' c t h hd hx cfg hc
  have ht0 : 0 < t := by
    have h0 : ks ≠ [] := by
      rintro rfl
      exact h.labels_ne hl
    obtain ⟨a, ha⟩ := List.exists_mem_of_ne_nil _ h0
    have := hk a ha
    omega
  have hpred : ∀ row : List B64, c ≤ row.length →
      ∃ k < t, predictClass row tree = .ok (oneHot t k) ∧ predictClass row tree' = .ok (oneHot (t + 1) (renumber i k)) := by
    intro row hrow
    obtain ⟨k, m1, p1⟩ := C27_first_majority d c t h ht0 (by omega) hn cfg hc tree b1 row hrow
    obtain ⟨k', m2, p2⟩ := C27_first_majority d' c (t + 1) h4 (by omega) (by omega) (by rw [hr]; exact hn) _ rfl tree' b2 row hrow
    obtain ⟨dd, f1, w1, l1⟩ := lookup_companions d c t h cfg hc tree b1 row hrow
    have hne := w1.labels_ne
    rw [l1, companions_hot hl] at hne
    rw [companions_hot hl] at m1
    rw [companions_hot hl', hr] at m2
    simp only [hro] at m2
    have m3 := firstMajority_renumber hi (by
      intro a ha
      obtain ⟨e, he, rfl⟩ := List.mem_map.mp ha
      exact hk _ (List.of_mem_zip (List.mem_filter.mp he).1).2) (by
      intro h0
      rw [h0] at hne
      exact hne rfl) m1
    have := C27_unique _ _ _ _ m2 m3
    subst this
    exact ⟨k, m1.1, p1, p2⟩
  refine ⟨tree, tree', b1, b2, hq, hpred, ?_⟩
  intro test test' js hrows hn' hr' hj hlt hlt' a
  have hpreds : ∀ rows : List (List B64), (∀ row ∈ rows, c ≤ row.length) → ∃ kk : List ℕ, (∀ k ∈ kk, k < t) ∧ kk.length = rows.length ∧
      rows.mapM (fun row => predictClass row tree) = .ok (kk.map (fun k => oneHot t k)) ∧
      rows.mapM (fun row => predictClass row tree') = .ok (kk.map (fun k => oneHot (t + 1) (renumber i k))) := by
    intro rows
    induction rows with
    | nil => intro _; exact ⟨[], by simp, rfl, rfl, rfl⟩
    | cons row rows ih =>
      intro hrs
      obtain ⟨kk, k1, k2, k3, k4⟩ := ih (fun r hr => hrs r (by simp [hr]))
      obtain ⟨k, hkt, p1, p2⟩ := hpred row (hrs row (by simp))
      refine ⟨k :: kk, by simpa using ⟨hkt, k1⟩, by simp [k2], ?_, ?_⟩
      · rw [mapM_cons_R, p1, k3]; rfl
      · rw [mapM_cons_R, p2, k4]; rfl
  obtain ⟨kk, k1, k2, k3, k4⟩ := hpreds test.featureRows hrows
  have hm : ∀ kk : List ℕ, (∀ k ∈ kk, k < t) → ∀ js : List ℕ, (∀ j ∈ js, j < t) →
      matchCount (kk.map (fun k => (oneHot (t + 1) (renumber i k) : List B64))) (js.map (fun k => oneHot (t + 1) (renumber i k))) =
      matchCount (kk.map (fun k => (oneHot t k : List B64))) (js.map (fun k => oneHot t k)) := by
    intro kk hkk js hjs
    rw [matchCount, matchCount, List.zip_map, List.zip_map, List.countP_map, List.countP_map]
    apply List.countP_congr
    intro e he
    have e1 := hkk _ (List.of_mem_zip he).1
    have e2 := hjs _ (List.of_mem_zip he).2
    simp only [Function.comp, Prod.map]
    rw [vecEq_oneHot e2 e1, vecEq_oneHot (renumber_bound e2) (renumber_bound e1), isOneAt, isOneAt, oneHot_at e1, oneHot_at (renumber_bound e1)]
    simp only [renumber_inj]
  rw [C28_tree_accuracy test tree a hn', C28_tree_accuracy test' tree' a (by rw [hr']; exact hn'), hr', hlt, hlt', k3, k4]
  constructor
  · rintro ⟨preds, e, h2, rfl⟩
    have e := Except.ok.inj e
    subst e
    exact ⟨_, rfl, by simpa using h2, by rw [hm kk k1 js hj]⟩
  · rintro ⟨preds, e, h2, rfl⟩
    have e := Except.ok.inj e
    subst e
    exact ⟨_, rfl, by simpa using h2, by rw [hm kk k1 js hj]⟩

end classes

end

/-! ## cases that meet the hypotheses -/

/-- four rows with a fractional label -/
def plain4 : DataSet B64 :=
  { featureRows := [[b64 3], [b64 0.1], [b64 2], [b64 7]], labels := [[b64 0.1], [b64 0.7], [b64 (-2)], [b64 5.5]]
    featureColumns := [[b64 3, b64 0.1, b64 2, b64 7]] }

/-- `plain4` with a further target in front, whose value is always -40 -/
def plain4plus : DataSet B64 := { plain4 with labels := plain4.labels.map (fun l => b64 (-40) :: l) }

-- the hypotheses of `C126_split`, `C126_trees`, `C126_tree_sorted` and `C126_ensembles`
example : ∀ negZero : Bool, let _ := env negZero
    plain4.WF 1 1 ∧ WithTarget 0 (-40) plain4 plain4plus ∧ ExactConst plain4.labels.length (-40) ∧ (b64 0.1).val = .fin (3602879701896397 / 2 ^ 55) := by
  intro negZero
  dsimp only
  refine ⟨?_, ⟨rfl, rfl, ?_⟩, ⟨by decide, by decide⟩, by decide +kernel⟩
  · refine @DataSet.WF.mk _ (@instF64B64OfB64Env (env negZero)) _ _ _ ?_ ?_ ?_ ?_ ?_ ?_ ?_ <;> revert negZero <;> decide +kernel
  · rw [plain4plus, List.forall₂_map_right_iff, List.forall₂_same]
    exact fun l _ => ⟨Nat.zero_le _, b64 (-40), by decide +kernel, rfl⟩

-- the predictions of both trees
example : ∀ negZero : Bool, let _ := env negZero
    predictedTargets plain4 (exCfg 1) 0 [[b64 0], [b64 9]] = predictedTargets plain4plus (exCfg 2) 1 [[b64 0], [b64 9]] ∧
    predictedTargets plain4plus (exCfg 2) 0 [[b64 0], [b64 9]] = .ok [.fin (-40), .fin (-40)] ∧
    predictedTargets plain4 (exCfg 1) 0 [[b64 9]] = .ok [(b64 5.5).val] := by decide +kernel

/-- three examples of two classes -/
def three2 [B64Env] : DataSet B64 :=
  { featureRows := [[b64 3], [b64 1], [b64 2]], labels := [0, 1, 0].map (fun k => oneHot 2 k), featureColumns := [[b64 3, b64 1, b64 2]] }

-- the hypotheses of `C126_unused_class`
example : ∀ negZero : Bool, let _ := env negZero
    three2.WF 1 2 ∧ (∀ k ∈ [0, 1, 0], k < 2) ∧ three2.featureRows.length < 2 ^ 32 := by
  intro negZero
  dsimp only
  refine ⟨?_, by decide, by norm_num [three2]⟩
  refine @DataSet.WF.mk _ (@instF64B64OfB64Env (env negZero)) _ _ _ ?_ ?_ ?_ ?_ ?_ ?_ ?_ <;> revert negZero <;> decide +kernel

-- the class 1 between the old ones, which becomes 2
example : [0, 1, 0].map (renumber 1) = [0, 2, 0] := by decide
example : ∀ negZero : Bool, let _ := env negZero
    let d' : DataSet B64 := { three2 with labels := [0, 2, 0].map (fun k => oneHot 3 k) }
    ((regressionTreeNew three2 (exCfg 2)) >>= fun tree => three2.featureRows.mapM (fun row => predictClass row tree)) = .ok three2.labels ∧
    ((regressionTreeNew d' (exCfg 3)) >>= fun tree => d'.featureRows.mapM (fun row => predictClass row tree)) = .ok d'.labels := by decide +kernel

/-- **C126** needs an integer: the labels of four rows are all 0 and the tree asks no question, so that it cannot tell rows apart; with a further
target of which all values are 0.1 it asks one, because of the roundings. -/
theorem C126_needs_integers : ∀ negZero : Bool, let _ := env negZero
    let d : DataSet B64 := { tenth4 with labels := List.replicate 4 [b64 0] }
    let d' : DataSet B64 := { tenth4 with labels := List.replicate 4 [b64 0, b64 0.1] }
    ((regressionTreeNew d (exCfg 1)).map TreeNode.questionCount) = .ok 0 ∧
    ((regressionTreeNew d' (exCfg 2)).map TreeNode.questionCount) = .ok 1 := by decide +kernel

end Verif
