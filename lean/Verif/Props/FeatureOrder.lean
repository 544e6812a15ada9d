import Verif.Lemmas.FeatureOrder
import Verif.Props.Boost
/-!
# C73: the order of the features

Only the comparison laws are assumed: the label arithmetic may round in any way.  A split asks about the first of the features with the
largest gain.  If wherever a question is asked one feature gains strictly more than all others, the order in which the features are
listed does not matter.
-/

set_option linter.unusedSectionVars false

namespace Verif

variable {F : Type} [F64 F]

open Sample

/-- reorder the features of the examples stored in a leaf -/
def RegressionLeaf.reorderFeatures (c : Nat) (σ : Nat → Nat) (l : RegressionLeaf F) : RegressionLeaf F :=
  { data := l.data.map (fun d => d.reorderFeatures c σ) }

section
variable [LawfulOrder F]

theorem find_reorder {L L' : Type} {g : L → L'} {leafOf : DataSet F → L} {leafOf' : DataSet F → L'} {c t : Nat} {σ : Nat → Nat}
    (hσ : Reorders c σ) (hleaf : ∀ d : DataSet F, leafOf' (d.reorderFeatures c σ) = g (leafOf d)) (m : Nat) {d : DataSet F} (hw : d.WF c t)
    (h : NoTiedFeatures d c t (treeOf leafOf c t m d)) {row : List F} (hrow : c ≤ row.length) :
    ∃ leaf, findLeafNodeForData row (treeOf leafOf c t m d) = .ok leaf ∧
      findLeafNodeForData (reorderRow c σ row) (treeOf leafOf' c t m (d.reorderFeatures c σ)) = .ok (g leaf) := by
  have hr := treeOf_reorder hσ hleaf m d hw h
  obtain ⟨leaf, h1, h2⟩ := TreeNode.find_of_proper (treeOf_proper (leafOf := leafOf) (c := c) (t := t) m d) (row := row)
    (fun p q hq => Nat.lt_of_lt_of_le (treeOf_questions m d hw p q hq).1 hrow)
  obtain ⟨leaf', h3, h4⟩ := TreeNode.find_of_proper (treeOf_proper (leafOf := leafOf') (c := c) (t := t) m (d.reorderFeatures c σ))
    (row := reorderRow c σ row) (fun p q hq => by
      have := (treeOf_questions m _ (reorder_wf hw hσ) p q hq).1
      rw [reorderRow_length]
      exact this)
  refine ⟨leaf, h1, ?_⟩
  rw [hr.2.2 row hrow, hr.2.1, h2] at h4
  simp only [Option.map_some, Option.some.injEq] at h4
  rw [h3, h4]

/-- **C73** (split search).  If one feature gains strictly more than every other, the search finds the same gain, feature and threshold
in whatever order the features are listed; and if there is nothing to gain, this does not depend on the order either. -/
theorem C73_split (d : DataSet F) (c t : Nat) (hw : d.WF c t) (σ : Nat → Nat) (hσ : Reorders c σ) :
    ∃ s s', findBestSplit d t = .ok s ∧ findBestSplit (d.reorderFeatures c σ) t = .ok s' ∧
      ((s.gain ==. F64.zero) = true → (s'.gain ==. F64.zero) = true) ∧
      ((s.gain ==. F64.zero) = false → ClearWinner d c t s.question.column →
        s'.gain = s.gain ∧ σ s'.question.column = s.question.column ∧ s'.question.value = s.question.value) := by
  refine ⟨_, _, findBestSplit_ok hw, findBestSplit_ok (reorder_wf hw hσ), (splitOf_reorder hw hσ).1, fun hg hc => ?_⟩
  obtain ⟨h1, _, h3⟩ := (splitOf_reorder hw hσ).2 hg hc
  exact ⟨h1, by rw [← h3]; rfl, by rw [← h3]; rfl⟩

/-- **C73** (regression tree).  Without tied features, the tree learned from the features in another order asks at every position about the
same feature and value, holds the same examples in every leaf, and sends every row, with its features in that order, the same way. -/
theorem C73_regression_tree (d : DataSet F) (c t : Nat) (hw : d.WF c t) (σ : Nat → Nat) (hσ : Reorders c σ) (cfg : TreeConfig)
    (hc : cfg.numberOfClasses = t) :
    ∃ tree tree', regressionTreeNew d cfg = .ok tree ∧ regressionTreeNew (d.reorderFeatures c σ) cfg = .ok tree' ∧
      (NoTiedFeatures d c t tree →
        (∀ p, tree.questionAt p = (tree'.questionAt p).map (Question.inOldOrder σ)) ∧
        (∀ p, tree'.leafAt p = (tree.leafAt p).map (RegressionLeaf.reorderFeatures c σ)) ∧
        (∀ row, c ≤ row.length → tree'.route (reorderRow c σ row) = tree.route row)) :=
  ⟨_, _, regressionTreeNew_ok hw hc, regressionTreeNew_ok (reorder_wf hw hσ) hc, fun h =>
    treeOf_reorder (leafOf := regLeaf) (leafOf' := regLeaf) (g := RegressionLeaf.reorderFeatures c σ) hσ (fun _ => rfl) cfg.maxLevels d hw h⟩

/-- **C73** (gradient boosting tree).  As above; the leaf outputs are the same. -/
theorem C73_gradBoost_tree (d : DataSet F) (c t : Nat) (hw : d.WF c t) (σ : Nat → Nat) (hσ : Reorders c σ) (cfg : TreeConfig)
    (hc : cfg.numberOfClasses = t) (o : LeafOutputType) :
    ∃ tree tree', gradBoostTreeNew d cfg o = .ok tree ∧ gradBoostTreeNew (d.reorderFeatures c σ) cfg o = .ok tree' ∧
      (NoTiedFeatures d c t tree →
        (∀ p, tree.questionAt p = (tree'.questionAt p).map (Question.inOldOrder σ)) ∧
        (∀ p, tree'.leafAt p = tree.leafAt p) ∧
        (∀ row, c ≤ row.length → tree'.route (reorderRow c σ row) = tree.route row)) := by
  refine ⟨_, _, gradBoostTreeNew_ok hw hc o, gradBoostTreeNew_ok (reorder_wf hw hσ) hc o, fun h => ?_⟩
  have hr := treeOf_reorder (leafOf := gradLeaf o t) (leafOf' := gradLeaf o t) (g := id) hσ (fun _ => rfl) cfg.maxLevels d hw h
  refine ⟨hr.1, fun p => ?_, hr.2.2⟩
  rw [hr.2.1, Option.map_id]; rfl

/-- **C73** (AMG tree). -/
theorem C73_amg_tree (d : DataSet F) (c t : Nat) (hw : d.WF c t) (σ : Nat → Nat) (hσ : Reorders c σ) (cfg : TreeConfig)
    (hc : cfg.numberOfClasses = t) (o : LeafOutputType) :
    ∃ tree tree', amgTreeNew d cfg o = .ok tree ∧ amgTreeNew (d.reorderFeatures c σ) cfg o = .ok tree' ∧
      (NoTiedFeatures d c t tree →
        (∀ p, tree.questionAt p = (tree'.questionAt p).map (Question.inOldOrder σ)) ∧
        (∀ p, tree'.leafAt p = tree.leafAt p) ∧
        (∀ row, c ≤ row.length → tree'.route (reorderRow c σ row) = tree.route row)) := by
  refine ⟨_, _, amgTreeNew_ok hw hc o, amgTreeNew_ok (reorder_wf hw hσ) hc o, fun h => ?_⟩
  have hr := treeOf_reorder (leafOf := amgLeaf o t) (leafOf' := amgLeaf o t) (g := id) hσ (fun _ => rfl) cfg.maxLevels d hw h
  refine ⟨hr.1, fun p => ?_, hr.2.2⟩
  rw [hr.2.1, Option.map_id]; rfl

/-- what corresponding boosting trees have in common -/
def OrderOut {L : Type} (c : Nat) (σ : Nat → Nat) (out : List F → TreeNode F L → R (List F)) (tree tree' : TreeNode F L) : Prop :=
  ∀ row, c ≤ row.length → out (reorderRow c σ row) tree' = out row tree

theorem grad_fit_reorder {d : DataSet F} {c t : Nat} {σ : Nat → Nat} {cfg : TreeConfig} (hc : cfg.numberOfClasses = t)
    {o : LeafOutputType} (hw : d.WF c t) (hσ : Reorders c σ) {tree tree' : TreeNode F (GradBoostLeaf F)} (h : NoTiedFeatures d c t tree)
    (h1 : gradBoostTreeNew d cfg o = .ok tree) (h2 : gradBoostTreeNew (d.reorderFeatures c σ) cfg o = .ok tree') : OrderOut c σ gradOut tree tree' := by
  rw [gradBoostTreeNew_ok hw hc] at h1
  rw [gradBoostTreeNew_ok (reorder_wf hw hσ) hc] at h2
  cases h1
  cases h2
  intro row hrow
  obtain ⟨leaf, e1, e2⟩ := find_reorder (leafOf := gradLeaf o t) (leafOf' := gradLeaf o t) (g := id) hσ (fun _ => rfl) cfg.maxLevels hw h hrow
  simp only [gradOut, e1, e2, id]

theorem amg_fit_reorder {d : DataSet F} {c t : Nat} {σ : Nat → Nat} {cfg : TreeConfig} (hc : cfg.numberOfClasses = t)
    {o : LeafOutputType} (hw : d.WF c t) (hσ : Reorders c σ) {tree tree' : TreeNode F (AMGBoostLeaf F)} (h : NoTiedFeatures d c t tree)
    (h1 : amgTreeNew d cfg o = .ok tree) (h2 : amgTreeNew (d.reorderFeatures c σ) cfg o = .ok tree') : OrderOut c σ (amgOut t) tree tree' := by
  rw [amgTreeNew_ok hw hc] at h1
  rw [amgTreeNew_ok (reorder_wf hw hσ) hc] at h2
  cases h1
  cases h2
  intro row hrow
  obtain ⟨leaf, e1, e2⟩ := find_reorder (leafOf := amgLeaf o t) (leafOf' := amgLeaf o t) (g := id) hσ (fun _ => rfl) cfg.maxLevels hw h hrow
  simp only [amgOut, e1, e2, id]

/-- **C73** (regression ensemble).  Suppose that in each of the `n` iterations the new tree, fitted to what the ensemble so far leaves
unexplained of the labels, has no tied features.  Then the ensemble trained on the features in another order predicts for every row, with
its features in that order, exactly what the original ensemble predicts. -/
theorem C73_regression_ensemble (d : DataSet F) (c t : Nat) (hw : d.WF c t) (σ : Nat → Nat) (hσ : Reorders c σ) (cfg : TreeConfig)
    (hc : cfg.numberOfClasses = t) (n : Nat) (lr : F)
    (h : ∀ k < n, ∀ m ps tree, regressionTrain d cfg k lr = .ok m → d.featureRows.mapM (regressionPredict m) = .ok ps →
      gradBoostTreeNew { d with labels := List.zipWith (List.zipWith F64.sub) d.labels ps } cfg .regression = .ok tree →
      NoTiedFeatures { d with labels := List.zipWith (List.zipWith F64.sub) d.labels ps } c t tree) :
    ∃ m m', regressionTrain d cfg n lr = .ok m ∧ regressionTrain (d.reorderFeatures c σ) cfg n lr = .ok m' ∧
      ∀ row : List F, c ≤ row.length → regressionPredict m' (reorderRow c σ row) = regressionPredict m row := by
  obtain ⟨m, h1, _⟩ := C42_regression d c t hw cfg hc n lr
  obtain ⟨m', h2, _⟩ := C42_regression (d.reorderFeatures c σ) c t (reorder_wf hw hσ) cfg hc n lr
  refine ⟨m, m', h1, h2, fun row hrow => ?_⟩
  obtain ⟨f, h1⟩ := train_inv h1
  obtain ⟨f', h2⟩ := train_inv h2
  obtain ⟨g1, g2, g3⟩ := boostingLoop_inv h1
  obtain ⟨g1', g2', g3'⟩ := boostingLoop_inv h2
  have g0 := g1
  simp only [regressionLoop_eq] at g1 g1' g3 g3'
  rw [determineInitialGuess_regression hw] at g1
  rw [determineInitialGuess_regression (reorder_wf hw hσ)] at g1'
  have hgg : m'.initialGuess = m.initialGuess := by
    rw [← Except.ok.inj g1, ← Except.ok.inj g1']; rfl
  have hgl : m.initialGuess.length = t := by rw [← Except.ok.inj g1]; exact avgVec_length hw.label_len
  rw [hgg] at g3'
  have key := loop_twin_at (g := m.initialGuess) (d := d) (d' := d.reorderFeatures c σ) (out := gradOut) (reorderRow c σ) (OrderOut c σ gradOut) rfl rfl
    (grad_updateAdds lr _) regression_labelsOnly
    (fun tree tree' hs row hr => hs row (hw.row_len row hr).ge)
    (fun k hk s r tree tree' hloop hs hr e1 e2 => by
      rw [regressionResiduals_ok hw hgl hs] at hr
      cases hr
      have hwr := residuals_wf (f := List.zipWith F64.sub) hw hs.len (fun l v hl hv => by simp [hw.label_len l hl, hs.width v hv, hgl])
      have htrain : regressionTrain d cfg k lr = .ok { trees := s.2, initialGuess := m.initialGuess, learningRate := lr } := by
        rw [regressionTrain, regressionTrainFull, boostingLoop_mk (ex := { ensembleType := .regressionBoost, loopExecutor := regressionLoop }) g0
          (n := k) (cfg := cfg) (lr := lr) (final := s.1) (trees := s.2) (by simp only [regressionLoop_eq]; exact hloop)]
        rfl
      have hps : d.featureRows.mapM (regressionPredict { trees := s.2, initialGuess := m.initialGuess, learningRate := lr }) = .ok s.1.mutableLabels := by
        have := tracks_mapM hs hw.label_count.symm
        show d.featureRows.mapM (fun row => predictInstance row s.2 m.initialGuess lr) = _
        simpa only [predictInstance_eq] using this
      exact grad_fit_reorder hc hwr hσ (h k hk _ _ _ htrain hps e1) e1 e2) g3 g3'
  simp only [regressionPredict, predictInstance_eq, hgg, g2, g2']
  exact rawScore_twin (key.2.imp (fun _ _ hs => hs row hrow))

/-- **C73** (multi-class ensemble).  Suppose that in each of the `n` iterations the new tree, fitted to the labels minus the soft-max
probabilities of the scores so far, has no tied features.  Then the ensemble trained on the features in another order predicts for every
row, with its features in that order, the same class. -/
theorem C73_multiClass_ensemble [LawfulCount F] (d : DataSet F) (c t : Nat) (hw : d.WF c t) (ht0 : 0 < t) (ht1 : t ≤ 2 ^ 53) (σ : Nat → Nat)
    (hσ : Reorders c σ) (cfg : TreeConfig) (hc : cfg.numberOfClasses = t) (n : Nat) (lr : F)
    (h : ∀ k < n, ∀ m vs tree, multiClassTrain d cfg k lr = .ok m →
      d.featureRows.mapM (fun row => predictInstance row m.trees m.initialGuess m.learningRate) = .ok vs →
      gradBoostTreeNew { d with labels := List.zipWith (fun l v => List.zipWith F64.sub l (calculateProbabilities v)) d.labels vs } cfg
        .multiClassClassification = .ok tree →
      NoTiedFeatures { d with labels := List.zipWith (fun l v => List.zipWith F64.sub l (calculateProbabilities v)) d.labels vs } c t tree) :
    ∃ m m', multiClassTrain d cfg n lr = .ok m ∧ multiClassTrain (d.reorderFeatures c σ) cfg n lr = .ok m' ∧
      ∀ row : List F, c ≤ row.length → multiClassPredict m' (reorderRow c σ row) = multiClassPredict m row := by
  obtain ⟨m, h1, _⟩ := C42_multiClass d c t hw ht0 ht1 cfg hc n lr
  obtain ⟨m', h2, _⟩ := C42_multiClass (d.reorderFeatures c σ) c t (reorder_wf hw hσ) ht0 ht1 cfg hc n lr
  refine ⟨m, m', h1, h2, fun row hrow => ?_⟩
  obtain ⟨f, h1⟩ := train_inv h1
  obtain ⟨f', h2⟩ := train_inv h2
  obtain ⟨g1, g2, g3⟩ := boostingLoop_inv h1
  obtain ⟨g1', g2', g3'⟩ := boostingLoop_inv h2
  have g0 := g1
  simp only [multiClassLoop_eq] at g1 g1' g3 g3'
  rw [determineInitialGuess_class hw ht1 (by simp)] at g1
  rw [determineInitialGuess_class (reorder_wf hw hσ) ht1 (by simp)] at g1'
  have hgg : m'.initialGuess = m.initialGuess := by
    rw [← Except.ok.inj g1, ← Except.ok.inj g1']
  have hgl : m.initialGuess.length = t := by rw [← Except.ok.inj g1]; simp
  rw [hgg] at g3'
  have key := loop_twin_at (g := m.initialGuess) (d := d) (d' := d.reorderFeatures c σ) (out := gradOut) (reorderRow c σ) (OrderOut c σ gradOut) rfl rfl
    (grad_updateAdds lr _) multiClass_labelsOnly
    (fun tree tree' hs row hr => hs row (hw.row_len row hr).ge)
    (fun k hk s r tree tree' hloop hs hr e1 e2 => by
      rw [multiClassResiduals_ok hw hgl hs] at hr
      cases hr
      have hwr := residuals_wf (f := fun l v => List.zipWith F64.sub l (calculateProbabilities v)) hw hs.len (fun l v hl hv => by
        simp [hw.label_len l hl, hs.width v hv, hgl, calculateProbabilities_length])
      have htrain : multiClassTrain d cfg k lr = .ok { trees := s.2, initialGuess := m.initialGuess, learningRate := lr } := by
        rw [multiClassTrain, multiClassTrainFull, boostingLoop_mk (ex := { ensembleType := .multiClassBoost, loopExecutor := multiClassLoop }) g0
          (n := k) (cfg := cfg) (lr := lr) (final := s.1) (trees := s.2) (by simp only [multiClassLoop_eq]; exact hloop)]
        rfl
      have hps : d.featureRows.mapM (fun row => predictInstance row s.2 m.initialGuess lr) = .ok s.1.mutableLabels := by
        have := tracks_mapM hs hw.label_count.symm
        simpa only [predictInstance_eq] using this
      exact grad_fit_reorder hc hwr hσ (h k hk _ _ _ htrain hps e1) e1 e2) g3 g3'
  simp only [multiClassPredict, predictInstance_eq, hgg, g2, g2']
  rw [rawScore_twin (key.2.imp (fun _ _ hs => hs row hrow))]

/-- **C73** (AMG ensemble).  The same for AMG boosting. -/
theorem C73_amg_ensemble [LawfulCount F] (d : DataSet F) (c t : Nat) (hw : d.WF c t) (ht0 : 0 < t) (ht1 : t ≤ 2 ^ 53) (σ : Nat → Nat)
    (hσ : Reorders c σ) (cfg : TreeConfig) (hc : cfg.numberOfClasses = t) (n : Nat) (lr : F)
    (h : ∀ k < n, ∀ m vs tree, amgTrain d cfg k lr = .ok m →
      d.featureRows.mapM (fun row => amgPredictInstance row m.trees m.initialGuess m.learningRate m.initialGuess.length) = .ok vs →
      amgTreeNew { d with labels := List.zipWith (fun l v => List.zipWith F64.sub l (calculateProbabilities v)) d.labels vs } cfg
        .multiClassClassification = .ok tree →
      NoTiedFeatures { d with labels := List.zipWith (fun l v => List.zipWith F64.sub l (calculateProbabilities v)) d.labels vs } c t tree) :
    ∃ m m', amgTrain d cfg n lr = .ok m ∧ amgTrain (d.reorderFeatures c σ) cfg n lr = .ok m' ∧
      ∀ row : List F, c ≤ row.length → amgPredict m' (reorderRow c σ row) = amgPredict m row := by
  obtain ⟨m, h1, _⟩ := C42_amg d c t hw ht0 ht1 cfg hc n lr
  obtain ⟨m', h2, _⟩ := C42_amg (d.reorderFeatures c σ) c t (reorder_wf hw hσ) ht0 ht1 cfg hc n lr
  refine ⟨m, m', h1, h2, fun row hrow => ?_⟩
  obtain ⟨f, h1⟩ := train_inv h1
  obtain ⟨f', h2⟩ := train_inv h2
  obtain ⟨g1, g2, g3⟩ := boostingLoop_inv h1
  obtain ⟨g1', g2', g3'⟩ := boostingLoop_inv h2
  have g0 := g1
  simp only [amgLoop_eq] at g1 g1' g3 g3'
  rw [determineInitialGuess_class hw ht1 (by simp)] at g1
  rw [determineInitialGuess_class (reorder_wf hw hσ) ht1 (by simp)] at g1'
  have hgg : m'.initialGuess = m.initialGuess := by
    rw [← Except.ok.inj g1, ← Except.ok.inj g1']
  have hgl : m.initialGuess.length = t := by rw [← Except.ok.inj g1]; simp
  rw [hgg] at g3'
  have key := loop_twin_at (g := m.initialGuess) (d := d) (d' := d.reorderFeatures c σ) (out := amgOut t) (reorderRow c σ) (OrderOut c σ (amgOut t)) rfl rfl
    (by rw [hgl]; exact amg_updateAdds lr t) multiClass_labelsOnly
    (fun tree tree' hs row hr => hs row (hw.row_len row hr).ge)
    (fun k hk s r tree tree' hloop hs hr e1 e2 => by
      rw [multiClassResiduals_ok hw hgl hs] at hr
      cases hr
      have hwr := residuals_wf (f := fun l v => List.zipWith F64.sub l (calculateProbabilities v)) hw hs.len (fun l v hl hv => by
        simp [hw.label_len l hl, hs.width v hv, hgl, calculateProbabilities_length])
      have htrain : amgTrain d cfg k lr = .ok { trees := s.2, initialGuess := m.initialGuess, learningRate := lr } := by
        rw [amgTrain, amgTrainFull, boostingLoop_mk (ex := { ensembleType := .amgBoost, loopExecutor := amgLoop }) g0
          (n := k) (cfg := cfg) (lr := lr) (final := s.1) (trees := s.2) (by simp only [amgLoop_eq]; exact hloop)]
        rfl
      have hps : d.featureRows.mapM (fun row => amgPredictInstance row s.2 m.initialGuess lr m.initialGuess.length) = .ok s.1.mutableLabels := by
        have := tracks_mapM hs hw.label_count.symm
        simpa only [amgPredictInstance_eq, hgl] using this
      exact amg_fit_reorder hc hwr hσ (h k hk _ _ _ htrain hps e1) e1 e2) g3 g3'
  simp only [amgPredict, amgPredictInstance_eq, hgg, g2, g2', hgl]
  rw [rawScore_twin (key.2.imp (fun _ _ hs => hs row hrow))]

end

/-! ## cases -/

theorem wf_ext {d d' : DataSet F} {c t : Nat} (h : d.WF c t) (h' : d'.WF c t) (he : d'.examples = d.examples) : d' = d := by
  have h1 : d'.featureRows = d.featureRows := by
    have := congrArg (List.map Prod.fst) he
    rwa [DataSet.examples, DataSet.examples, List.map_fst_zip h'.label_count.ge, List.map_fst_zip h.label_count.ge] at this
  have h2 : d'.labels = d.labels := by
    have := congrArg (List.map Prod.snd) he
    rwa [DataSet.examples, DataSet.examples, List.map_snd_zip h'.label_count.le, List.map_snd_zip h.label_count.le] at this
  have h3 : d'.featureColumns = d.featureColumns := by rw [h'.cols, h.cols, h1]
  cases d
  cases d'
  simp only at h1 h2 h3
  rw [h1, h2, h3]

/-- four rows, three features; the second separates the labels best -/
def clear4 : DataSet E :=
  { featureRows := [[0, 0, 3], [1, 0, 1], [0, 1, 2], [1, 1, 0]]
    labels := lift [[0], [1], [10], [14]]
    featureColumns := [[0, 1, 0, 1], [0, 0, 1, 1], [3, 1, 2, 0]] }

/-- the features in the order 2, 0, 1 -/
def turn3 (j : Nat) : Nat := (j + 2) % 3

theorem clear4_wf : clear4.WF 3 1 :=
  ⟨by decide +kernel, by decide +kernel, by decide +kernel, by decide +kernel, by decide +kernel, by decide +kernel, by decide +kernel⟩

instance (d : DataSet E) (c t k : Nat) : Decidable (ClearWinner d c t k) :=
  decidable_of_iff (∀ j < c, j ≠ k → (do
      let s ← findBestSplit (d.onlyFeature j) t
      let s' ← findBestSplit (d.onlyFeature k) t
      pure (s.gain <. s'.gain)) = (.ok true : R Bool)) (by
    unfold ClearWinner
    simp only [R.bind_eq_ok]
    constructor
    · intro h j hj hne
      obtain ⟨s, h1, s', h2, h3⟩ := h j hj hne
      exact ⟨s, s', h1, h2, Except.ok.inj h3⟩
    · intro h j hj hne
      obtain ⟨s, s', h1, h2, h3⟩ := h j hj hne
      exact ⟨s, h1, s', h2, congrArg Except.ok h3⟩)

-- the hypotheses of C73 are met: the order is a permutation, and the only question of the tree has a clear winner
example : Reorders 3 turn3 := ⟨by decide, by decide⟩
example (tree : TreeNode E (RegressionLeaf E)) (h : regressionTreeNew clear4 (exCfg 1) = .ok tree) : NoTiedFeatures clear4 3 1 tree := by
  rw [regressionTreeNew_ok clear4_wf rfl] at h
  cases h
  have hg : ((splitOf clear4 1).gain ==. F64.zero) = false := by decide +kernel
  have hq : ClearWinner clear4 3 1 (splitOf clear4 1).question.column := by decide +kernel
  show NoTiedFeatures clear4 3 1 (treeOf regLeaf 3 1 (0 + 1) clear4)
  rw [treeOf_node hg]
  intro p q hp dd hdd he
  match p with
  | [] =>
    cases hp
    rw [reaching_nil] at he
    rw [wf_ext clear4_wf hdd he]
    exact hq
  | true :: p => cases p <;> cases hp
  | false :: p => cases p <;> cases hp
example : (regressionTreeNew clear4 (exCfg 1)).map (fun tree => (tree.questionAt []).map Question.column) = .ok (some 1) ∧
    (regressionTreeNew (clear4.reorderFeatures 3 turn3) (exCfg 1)).map (fun tree => (tree.questionAt []).map Question.column) = .ok (some 2) :=
  ⟨by decide +kernel, by decide +kernel⟩

/-- the same rows with the mean subtracted from the labels -/
def clear4rest : DataSet E := { clear4 with labels := lift [[-25 / 4], [-21 / 4], [15 / 4], [31 / 4]] }

theorem clear4rest_wf : clear4rest.WF 3 1 :=
  ⟨by decide +kernel, by decide +kernel, by decide +kernel, by decide +kernel, by decide +kernel, by decide +kernel, by decide +kernel⟩

-- an iteration of boosting on these rows has no tied features either
example : ∃ m m', regressionTrain clear4 (exCfg 1) 1 1 = .ok m ∧ regressionTrain (clear4.reorderFeatures 3 turn3) (exCfg 1) 1 1 = .ok m' ∧
    ∀ row : List E, 3 ≤ row.length → regressionPredict m' (reorderRow 3 turn3 row) = regressionPredict m row := by
  refine C73_regression_ensemble clear4 3 1 clear4_wf turn3 ⟨by decide, by decide⟩ (exCfg 1) rfl 1 1 ?_
  intro k hk m ps tree hm hps htree
  obtain rfl : k = 0 := by omega
  have h0 : ((regressionTrain clear4 (exCfg 1) 0 1) >>= fun m => clear4.featureRows.mapM (regressionPredict m)) =
      .ok (List.replicate 4 [.fin (25 / 4)]) := by decide +kernel
  rw [hm, R.ok_bind, hps] at h0
  cases h0
  have hl : List.zipWith (List.zipWith F64.sub) clear4.labels (List.replicate 4 [.fin (25 / 4)]) = clear4rest.labels := by decide +kernel
  rw [hl] at htree ⊢
  change gradBoostTreeNew clear4rest (exCfg 1) .regression = .ok tree at htree
  change NoTiedFeatures clear4rest 3 1 tree
  rw [gradBoostTreeNew_ok clear4rest_wf rfl] at htree
  cases htree
  have hg : ((splitOf clear4rest 1).gain ==. F64.zero) = false := by decide +kernel
  have hq : ClearWinner clear4rest 3 1 (splitOf clear4rest 1).question.column := by decide +kernel
  show NoTiedFeatures clear4rest 3 1 (treeOf (gradLeaf .regression 1) 3 1 (0 + 1) clear4rest)
  rw [treeOf_node hg]
  intro p q hp dd hdd he
  match p with
  | [] =>
    cases hp
    rw [reaching_nil] at he
    rw [wf_ext clear4rest_wf hdd he]
    exact hq
  | true :: p => cases p <;> cases hp
  | false :: p => cases p <;> cases hp

/-- two rows that differ in both features -/
def tied2 : DataSet E := { featureRows := [[0, 0], [1, 1]], labels := lift [[0], [10]], featureColumns := [[0, 1], [0, 1]] }

/-- exchange two features -/
def flip2 (j : Nat) : Nat := 1 - j

/-- **C73** (limit).  If two features tie, the first one is asked about, so the order matters: with two rows that differ in both features,
exchanging the features changes what the trees and ensembles say about a row that is like the first row in one feature and like the
second row in the other. -/
theorem C73_violated_by_ties : tied2.WF 2 1 ∧ Reorders 2 flip2 ∧ ¬ClearWinner tied2 2 1 0 ∧
    ((regressionTrain tied2 (exCfg 1) 1 1) >>= fun m => regressionPredict m [0, 1]) = .ok [0] ∧
    ((regressionTrain (tied2.reorderFeatures 2 flip2) (exCfg 1) 1 1) >>= fun m => regressionPredict m (reorderRow 2 flip2 [0, 1])) = .ok [10] :=
  ⟨⟨by decide +kernel, by decide +kernel, by decide +kernel, by decide +kernel, by decide +kernel, by decide +kernel, by decide +kernel⟩,
    ⟨by decide, by decide⟩, by decide +kernel, by decide +kernel, by decide +kernel⟩

end Verif
