import Verif.Lemmas.Redundant
import Verif.Lemmas.Twin
import Verif.Props.Boost
/-!
# C55: features that add nothing

Only the comparison laws are assumed: the label arithmetic may round in any way.
-/

set_option linter.unusedSectionVars false

namespace Verif

variable {F : Type} [F64 F]

open Sample

/-- remove feature `k` from the examples stored in a leaf -/
def RegressionLeaf.dropFeature (k : Nat) (l : RegressionLeaf F) : RegressionLeaf F := { data := l.data.map (fun d => d.dropFeature k) }

section
variable [LawfulOrder F]

theorem find_dropFeature {L L' : Type} {k : Nat} {g : L → L'} {leafOf : DataSet F → L} {leafOf' : DataSet F → L'}
    (hleaf : ∀ d : DataSet F, leafOf' (d.dropFeature k) = g (leafOf d)) {c t : Nat} (hk : k ≤ c) (m : Nat) {d : DataSet F} (hw : d.WF (c + 1) t)
    (h : RedundantFeature d.featureRows k) {row : List F} (hrow : c + 1 ≤ row.length) :
    ∃ leaf, findLeafNodeForData row (treeOf leafOf (c + 1) t m d) = .ok leaf ∧
      findLeafNodeForData (row.eraseIdx k) (treeOf leafOf' c t m (d.dropFeature k)) = .ok (g leaf) := by
  have hr := treeOf_dropFeature hleaf hk m d hw h
  obtain ⟨leaf, h1, h2⟩ := TreeNode.find_of_proper (treeOf_proper (leafOf := leafOf) (c := c + 1) (t := t) m d) (row := row)
    (fun p q hq => Nat.lt_of_lt_of_le (treeOf_questions m d hw p q hq).1 hrow)
  obtain ⟨leaf', h3, h4⟩ := TreeNode.find_of_proper (treeOf_proper (leafOf := leafOf') (c := c) (t := t) m (d.dropFeature k)) (row := row.eraseIdx k)
    (fun p q hq => by
      have := (treeOf_questions m _ (dropFeature_wf hw hk) p q hq).1
      rw [List.length_eraseIdx]
      split <;> omega)
  refine ⟨leaf, h1, ?_⟩
  rw [← hr.2.2 row, hr.2.1, h2] at h4
  simp only [Option.map_some, Option.some.injEq] at h4
  rw [h3, h4]

/-- **C55** (split search).  The search on all features finds the same gain as the search without a redundant feature; where there is
something to gain it asks about the same feature and value. -/
theorem C55_split (d : DataSet F) (c t : Nat) (hw : d.WF (c + 1) t) (k : Nat) (hk : k ≤ c) (h : RedundantFeature d.featureRows k) :
    ∃ s s', findBestSplit (d.dropFeature k) t = .ok s ∧ findBestSplit d t = .ok s' ∧ s'.gain = s.gain ∧
      ((s.gain >. F64.zero) = true → s'.question = s.question.original k) := by
  refine ⟨_, _, findBestSplit_ok (dropFeature_wf hw hk), findBestSplit_ok hw, (splitOf_dropFeature hw hk h).1, fun hg => ?_⟩
  rcases (splitOf_dropFeature hw hk h).2 with ⟨h1, _⟩ | h1
  · rw [h1] at hg
    rw [lt_irrefl'] at hg
    cases hg
  · exact h1

theorem original_ne {L L' : Type} {k : Nat} {tree : TreeNode F L} {tree' : TreeNode F L'}
    (h : ∀ p, tree.questionAt p = (tree'.questionAt p).map (Question.original k)) :
    ∀ p q, tree.questionAt p = some q → q.column ≠ k := by
  intro p q hq
  rw [h p, Option.map_eq_some_iff] at hq
  obtain ⟨q', _, rfl⟩ := hq
  simp only [Question.original, originalFeature]
  split <;> omega

/-- **C55** (regression tree).  A redundant feature is never asked about: the tree learned from all features asks at every position
the question that the tree learned without the feature asks, holds the same examples in every leaf, and sends every row the same way. -/
theorem C55_regression_tree (d : DataSet F) (c t : Nat) (hw : d.WF (c + 1) t) (k : Nat) (hk : k ≤ c) (h : RedundantFeature d.featureRows k)
    (cfg : TreeConfig) (hc : cfg.numberOfClasses = t) :
    ∃ tree tree', regressionTreeNew d cfg = .ok tree ∧ regressionTreeNew (d.dropFeature k) cfg = .ok tree' ∧
      (∀ p, tree.questionAt p = (tree'.questionAt p).map (Question.original k)) ∧
      (∀ p q, tree.questionAt p = some q → q.column ≠ k) ∧
      (∀ p, tree'.leafAt p = (tree.leafAt p).map (RegressionLeaf.dropFeature k)) ∧
      (∀ row, tree.route row = tree'.route (row.eraseIdx k)) := by
  have hr := treeOf_dropFeature (leafOf := regLeaf) (leafOf' := regLeaf) (g := RegressionLeaf.dropFeature k) (fun _ => rfl) hk cfg.maxLevels d hw h
  exact ⟨_, _, regressionTreeNew_ok hw hc, regressionTreeNew_ok (dropFeature_wf hw hk) hc, hr.1, original_ne hr.1, hr.2.1, hr.2.2⟩

/-- **C55** (gradient boosting tree).  As above; the leaf outputs are the same. -/
theorem C55_gradBoost_tree (d : DataSet F) (c t : Nat) (hw : d.WF (c + 1) t) (k : Nat) (hk : k ≤ c) (h : RedundantFeature d.featureRows k)
    (cfg : TreeConfig) (hc : cfg.numberOfClasses = t) (o : LeafOutputType) :
    ∃ tree tree', gradBoostTreeNew d cfg o = .ok tree ∧ gradBoostTreeNew (d.dropFeature k) cfg o = .ok tree' ∧
      (∀ p, tree.questionAt p = (tree'.questionAt p).map (Question.original k)) ∧
      (∀ p q, tree.questionAt p = some q → q.column ≠ k) ∧
      (∀ p, tree'.leafAt p = tree.leafAt p) ∧
      (∀ row, tree.route row = tree'.route (row.eraseIdx k)) := by
  have hr := treeOf_dropFeature (leafOf := gradLeaf o t) (leafOf' := gradLeaf o t) (g := id) (fun _ => rfl) hk cfg.maxLevels d hw h
  refine ⟨_, _, gradBoostTreeNew_ok hw hc o, gradBoostTreeNew_ok (dropFeature_wf hw hk) hc o, hr.1, original_ne hr.1, fun p => ?_, hr.2.2⟩
  rw [hr.2.1, Option.map_id]; rfl

/-- **C55** (AMG tree). -/
theorem C55_amg_tree (d : DataSet F) (c t : Nat) (hw : d.WF (c + 1) t) (k : Nat) (hk : k ≤ c) (h : RedundantFeature d.featureRows k)
    (cfg : TreeConfig) (hc : cfg.numberOfClasses = t) (o : LeafOutputType) :
    ∃ tree tree', amgTreeNew d cfg o = .ok tree ∧ amgTreeNew (d.dropFeature k) cfg o = .ok tree' ∧
      (∀ p, tree.questionAt p = (tree'.questionAt p).map (Question.original k)) ∧
      (∀ p q, tree.questionAt p = some q → q.column ≠ k) ∧
      (∀ p, tree'.leafAt p = tree.leafAt p) ∧
      (∀ row, tree.route row = tree'.route (row.eraseIdx k)) := by
  have hr := treeOf_dropFeature (leafOf := amgLeaf o t) (leafOf' := amgLeaf o t) (g := id) (fun _ => rfl) hk cfg.maxLevels d hw h
  refine ⟨_, _, amgTreeNew_ok hw hc o, amgTreeNew_ok (dropFeature_wf hw hk) hc o, hr.1, original_ne hr.1, fun p => ?_, hr.2.2⟩
  rw [hr.2.1, Option.map_id]; rfl

/-- what corresponding boosting trees have in common -/
def DropOut {L : Type} (k c : Nat) (out : List F → TreeNode F L → R (List F)) (tree tree' : TreeNode F L) : Prop :=
  ∀ row, c + 1 ≤ row.length → out (row.eraseIdx k) tree' = out row tree

theorem grad_fit_dropFeature {k : Nat} {d : DataSet F} {c t : Nat} {cfg : TreeConfig} (hc : cfg.numberOfClasses = t)
    {o : LeafOutputType} (hw : d.WF (c + 1) t) (hk : k ≤ c) (h : RedundantFeature d.featureRows k) {tree tree' : TreeNode F (GradBoostLeaf F)}
    (h1 : gradBoostTreeNew d cfg o = .ok tree) (h2 : gradBoostTreeNew (d.dropFeature k) cfg o = .ok tree') : DropOut k c gradOut tree tree' := by
  rw [gradBoostTreeNew_ok hw hc] at h1
  rw [gradBoostTreeNew_ok (dropFeature_wf hw hk) hc] at h2
  cases h1
  cases h2
  intro row hrow
  obtain ⟨leaf, e1, e2⟩ := find_dropFeature (leafOf := gradLeaf o t) (leafOf' := gradLeaf o t) (g := id) (fun _ => rfl) hk cfg.maxLevels hw h hrow
  simp only [gradOut, e1, e2, id]

theorem amg_fit_dropFeature {k : Nat} {d : DataSet F} {c t : Nat} {cfg : TreeConfig} (hc : cfg.numberOfClasses = t)
    {o : LeafOutputType} (hw : d.WF (c + 1) t) (hk : k ≤ c) (h : RedundantFeature d.featureRows k) {tree tree' : TreeNode F (AMGBoostLeaf F)}
    (h1 : amgTreeNew d cfg o = .ok tree) (h2 : amgTreeNew (d.dropFeature k) cfg o = .ok tree') : DropOut k c (amgOut t) tree tree' := by
  rw [amgTreeNew_ok hw hc] at h1
  rw [amgTreeNew_ok (dropFeature_wf hw hk) hc] at h2
  cases h1
  cases h2
  intro row hrow
  obtain ⟨leaf, e1, e2⟩ := find_dropFeature (leafOf := amgLeaf o t) (leafOf' := amgLeaf o t) (g := id) (fun _ => rfl) hk cfg.maxLevels hw h hrow
  simp only [amgOut, e1, e2, id]

/-- **C55** (regression ensemble).  The ensemble trained without a redundant feature predicts for every row, without that feature,
exactly what the ensemble trained on all features predicts for the row. -/
theorem C55_regression_ensemble (d : DataSet F) (c t : Nat) (hw : d.WF (c + 1) t) (k : Nat) (hk : k ≤ c) (h : RedundantFeature d.featureRows k)
    (cfg : TreeConfig) (hc : cfg.numberOfClasses = t) (n : Nat) (lr : F) :
    ∃ m m', regressionTrain d cfg n lr = .ok m ∧ regressionTrain (d.dropFeature k) cfg n lr = .ok m' ∧
      ∀ row : List F, c + 1 ≤ row.length →
        regressionPredict m' (row.eraseIdx k) = regressionPredict m row := by
  obtain ⟨m, h1, _⟩ := C42_regression d (c + 1) t hw cfg hc n lr
  obtain ⟨m', h2, _⟩ := C42_regression (d.dropFeature k) c t (dropFeature_wf hw hk) cfg hc n lr
  refine ⟨m, m', h1, h2, fun row hrow => ?_⟩
  obtain ⟨f, h1⟩ := train_inv h1
  obtain ⟨f', h2⟩ := train_inv h2
  obtain ⟨g1, g2, g3⟩ := boostingLoop_inv h1
  obtain ⟨g1', g2', g3'⟩ := boostingLoop_inv h2
  simp only [regressionLoop_eq] at g1 g1' g3 g3'
  rw [determineInitialGuess_regression hw] at g1
  rw [determineInitialGuess_regression (dropFeature_wf hw hk)] at g1'
  have hgg : m'.initialGuess = m.initialGuess := by
    rw [← Except.ok.inj g1, ← Except.ok.inj g1']; rfl
  have hgl : m.initialGuess.length = t := by rw [← Except.ok.inj g1]; exact avgVec_length hw.label_len
  rw [hgg] at g3'
  have key := loop_twin (g := m.initialGuess) (d := d) (d' := d.dropFeature k) (out := gradOut) (fun row => row.eraseIdx k) (DropOut k c gradOut) rfl rfl
    (grad_updateAdds lr _) regression_labelsOnly
    (fun tree tree' hs row hr => hs row (Nat.le_of_eq (hw.row_len row hr).symm))
    (fun s r tree tree' hs hr e1 e2 => by
      rw [regressionResiduals_ok hw hgl hs] at hr
      cases hr
      have hwr := residuals_wf (f := List.zipWith F64.sub) hw hs.len (fun l v hl hv => by simp [hw.label_len l hl, hs.width v hv, hgl])
      exact grad_fit_dropFeature hc hwr hk h e1 e2) g3 g3'
  simp only [regressionPredict, predictInstance_eq, hgg, g2, g2']
  exact rawScore_twin (key.2.imp (fun _ _ hs => hs row hrow))

/-- **C55** (multi-class ensemble). -/
theorem C55_multiClass_ensemble [LawfulCount F] (d : DataSet F) (c t : Nat) (hw : d.WF (c + 1) t) (ht0 : 0 < t) (ht1 : t ≤ 2 ^ 53)
    (k : Nat) (hk : k ≤ c) (h : RedundantFeature d.featureRows k) (cfg : TreeConfig) (hc : cfg.numberOfClasses = t) (n : Nat) (lr : F) :
    ∃ m m', multiClassTrain d cfg n lr = .ok m ∧ multiClassTrain (d.dropFeature k) cfg n lr = .ok m' ∧
      ∀ row : List F, c + 1 ≤ row.length →
        multiClassPredict m' (row.eraseIdx k) = multiClassPredict m row := by
  obtain ⟨m, h1, _⟩ := C42_multiClass d (c + 1) t hw ht0 ht1 cfg hc n lr
  obtain ⟨m', h2, _⟩ := C42_multiClass (d.dropFeature k) c t (dropFeature_wf hw hk) ht0 ht1 cfg hc n lr
  refine ⟨m, m', h1, h2, fun row hrow => ?_⟩
  obtain ⟨f, h1⟩ := train_inv h1
  obtain ⟨f', h2⟩ := train_inv h2
  obtain ⟨g1, g2, g3⟩ := boostingLoop_inv h1
  obtain ⟨g1', g2', g3'⟩ := boostingLoop_inv h2
  simp only [multiClassLoop_eq] at g1 g1' g3 g3'
  rw [determineInitialGuess_class hw ht1 (by simp)] at g1
  rw [determineInitialGuess_class (dropFeature_wf hw hk) ht1 (by simp)] at g1'
  have hgg : m'.initialGuess = m.initialGuess := by
    rw [← Except.ok.inj g1, ← Except.ok.inj g1']
  have hgl : m.initialGuess.length = t := by rw [← Except.ok.inj g1]; simp
  rw [hgg] at g3'
  have key := loop_twin (g := m.initialGuess) (d := d) (d' := d.dropFeature k) (out := gradOut) (fun row => row.eraseIdx k) (DropOut k c gradOut) rfl rfl
    (grad_updateAdds lr _) multiClass_labelsOnly
    (fun tree tree' hs row hr => hs row (Nat.le_of_eq (hw.row_len row hr).symm))
    (fun s r tree tree' hs hr e1 e2 => by
      rw [multiClassResiduals_ok hw hgl hs] at hr
      cases hr
      have hwr := residuals_wf (f := fun l v => List.zipWith F64.sub l (calculateProbabilities v)) hw hs.len (fun l v hl hv => by
        simp [hw.label_len l hl, hs.width v hv, hgl, calculateProbabilities_length])
      exact grad_fit_dropFeature hc hwr hk h e1 e2) g3 g3'
  simp only [multiClassPredict, predictInstance_eq, hgg, g2, g2']
  rw [rawScore_twin (key.2.imp (fun _ _ hs => hs row hrow))]

/-- **C55** (AMG ensemble). -/
theorem C55_amg_ensemble [LawfulCount F] (d : DataSet F) (c t : Nat) (hw : d.WF (c + 1) t) (ht0 : 0 < t) (ht1 : t ≤ 2 ^ 53)
    (k : Nat) (hk : k ≤ c) (h : RedundantFeature d.featureRows k) (cfg : TreeConfig) (hc : cfg.numberOfClasses = t) (n : Nat) (lr : F) :
    ∃ m m', amgTrain d cfg n lr = .ok m ∧ amgTrain (d.dropFeature k) cfg n lr = .ok m' ∧
      ∀ row : List F, c + 1 ≤ row.length → amgPredict m' (row.eraseIdx k) = amgPredict m row := by
  obtain ⟨m, h1, _⟩ := C42_amg d (c + 1) t hw ht0 ht1 cfg hc n lr
  obtain ⟨m', h2, _⟩ := C42_amg (d.dropFeature k) c t (dropFeature_wf hw hk) ht0 ht1 cfg hc n lr
  refine ⟨m, m', h1, h2, fun row hrow => ?_⟩
  obtain ⟨f, h1⟩ := train_inv h1
  obtain ⟨f', h2⟩ := train_inv h2
  obtain ⟨g1, g2, g3⟩ := boostingLoop_inv h1
  obtain ⟨g1', g2', g3'⟩ := boostingLoop_inv h2
  simp only [amgLoop_eq] at g1 g1' g3 g3'
  rw [determineInitialGuess_class hw ht1 (by simp)] at g1
  rw [determineInitialGuess_class (dropFeature_wf hw hk) ht1 (by simp)] at g1'
  have hgg : m'.initialGuess = m.initialGuess := by
    rw [← Except.ok.inj g1, ← Except.ok.inj g1']
  have hgl : m.initialGuess.length = t := by rw [← Except.ok.inj g1]; simp
  rw [hgg] at g3'
  have key := loop_twin (g := m.initialGuess) (d := d) (d' := d.dropFeature k) (out := amgOut t) (fun row => row.eraseIdx k) (DropOut k c (amgOut t)) rfl rfl
    (by rw [hgl]; exact amg_updateAdds lr t) multiClass_labelsOnly
    (fun tree tree' hs row hr => hs row (Nat.le_of_eq (hw.row_len row hr).symm))
    (fun s r tree tree' hs hr e1 e2 => by
      rw [multiClassResiduals_ok hw hgl hs] at hr
      cases hr
      have hwr := residuals_wf (f := fun l v => List.zipWith F64.sub l (calculateProbabilities v)) hw hs.len (fun l v hl hv => by
        simp [hw.label_len l hl, hs.width v hv, hgl, calculateProbabilities_length])
      exact amg_fit_dropFeature hc hwr hk h e1 e2) g3 g3'
  simp only [amgPredict, amgPredictInstance_eq, hgg, g2, g2', hgl]
  rw [rawScore_twin (key.2.imp (fun _ _ hs => hs row hrow))]

end


/-- `d4` with two more features: the cube of feature 0 after it, and a constant -/
def d4More : DataSet E :=
  { featureRows := [[0, 0, 9, 5], [1, 1, 9, 5], [1, 1, 9, 7], [2, 8, 9, 7]], labels := d4.labels,
    featureColumns := [[0, 1, 1, 2], [0, 1, 1, 8], [9, 9, 9, 9], [5, 5, 7, 7]] }

theorem d4More_wf : d4More.WF 4 1 := by
  constructor <;> decide +kernel

-- both kinds of redundancy occur, and dropping both features gives back `d4`
example : RedundantFeature d4More.featureRows 1 := by
  refine .inr ⟨0, by decide, ?_⟩
  have h : ∀ row ∈ d4More.featureRows, ∀ row' ∈ d4More.featureRows,
      (row.getD 1 0 <=. row'.getD 1 0) = (row.getD 0 0 <=. row'.getD 0 0) := by decide +kernel
  intro row hr row' hr' x x' y y' h1 h2 h3 h4
  have := h row hr row' hr'
  simpa [List.getD, h1, h2, h3, h4] using this
example : RedundantFeature d4More.featureRows 2 := by
  left
  have h : ∀ row ∈ d4More.featureRows, ∀ row' ∈ d4More.featureRows, (row.getD 2 0 ==. row'.getD 2 0) = true := by decide +kernel
  intro row hr row' hr' x x' h1 h2
  have := h row hr row' hr'
  simpa [List.getD, h1, h2] using this
example : (d4More.dropFeature 2).dropFeature 1 = d4 := by decide +kernel
-- the later of two equivalent features is the one that is never used: here feature 0 is asked about
example : ((regressionTreeNew d4More (exCfg 1)).toOption.bind (fun t => t.questionAt [])).map Question.column = some 0 := by decide +kernel
-- "earlier" matters: dropping the first of two equivalent features moves the question to the second
example : ((regressionTreeNew (d4More.dropFeature 0) (exCfg 1)).toOption.bind (fun t => t.questionAt [])) = some { column := 0, value := 1 } := by
  decide +kernel

end Verif
