import Verif.Lemmas.Rescale
import Verif.Lemmas.Twin
import Verif.Props.Boost
/-!
# C26: order-preserving rescaling of the features

Only the comparison laws are assumed: the label arithmetic may round in any way.
-/

set_option linter.unusedSectionVars false

namespace Verif

variable {F : Type} [F64 F]

open Sample

/-- rescale the examples stored in a leaf -/
def RegressionLeaf.rescale (φ : Nat → F → F) (l : RegressionLeaf F) : RegressionLeaf F := { data := l.data.map (DataSet.rescale φ) }

section
variable [LawfulOrder F]

theorem find_rescale {L L' : Type} {φ : Nat → F → F} {g : L → L'} {leafOf : DataSet F → L} {leafOf' : DataSet F → L'}
    (hleaf : ∀ d, leafOf' (d.rescale φ) = g (leafOf d)) {c t : Nat} (m : Nat) {d : DataSet F} (hw : d.WF c t) (h : KeepsOrder φ d.featureRows)
    {row : List F} (hrow : c ≤ row.length) (hk : KeepsPlace φ d.featureRows row) :
    ∃ leaf, findLeafNodeForData row (treeOf leafOf c t m d) = .ok leaf ∧
      findLeafNodeForData (rescaleRow φ row) (treeOf leafOf' c t m (d.rescale φ)) = .ok (g leaf) := by
  have hr := treeOf_rescale hleaf m d hw h
  obtain ⟨leaf, h1, h2⟩ := TreeNode.find_of_proper (treeOf_proper (leafOf := leafOf) (c := c) (t := t) m d) (row := row)
    (fun p q hq => Nat.lt_of_lt_of_le (treeOf_questions m d hw p q hq).1 hrow)
  obtain ⟨leaf', h3, h4⟩ := TreeNode.find_of_proper (treeOf_proper (leafOf := leafOf') (c := c) (t := t) m (d.rescale φ)) (row := rescaleRow φ row)
    (fun p q hq => by
      rw [rescaleRow_length]
      exact Nat.lt_of_lt_of_le (treeOf_questions m _ (rescale_wf hw h) p q hq).1 hrow)
  refine ⟨leaf, h1, ?_⟩
  rw [hr.2.2 row hk, hr.2.1, h2] at h4
  simp only [Option.map_some, Option.some.injEq] at h4
  rw [h3, h4]

/-- **C26** (regression tree).  The tree learned from the rescaled features asks at every position the rescaled question, holds in
every leaf the rescaled examples, and sends a rescaled row the same way as the original tree sends the row. -/
theorem C26_regression_tree (d : DataSet F) (c t : Nat) (hw : d.WF c t) (φ : Nat → F → F) (h : KeepsOrder φ d.featureRows)
    (cfg : TreeConfig) (hc : cfg.numberOfClasses = t) :
    ∃ tree tree', regressionTreeNew d cfg = .ok tree ∧ regressionTreeNew (d.rescale φ) cfg = .ok tree' ∧
      (∀ p, tree'.questionAt p = (tree.questionAt p).map (Question.rescale φ)) ∧
      (∀ p, tree'.leafAt p = (tree.leafAt p).map (RegressionLeaf.rescale φ)) ∧
      (∀ row, KeepsPlace φ d.featureRows row → tree'.route (rescaleRow φ row) = tree.route row) ∧
      (∀ row ∈ d.featureRows, tree'.route (rescaleRow φ row) = tree.route row) := by
  have hr := treeOf_rescale (leafOf := regLeaf) (leafOf' := regLeaf) (g := RegressionLeaf.rescale φ) (fun _ => rfl) cfg.maxLevels d hw h
  exact ⟨_, _, regressionTreeNew_ok hw hc, regressionTreeNew_ok (rescale_wf hw h) hc, hr.1, hr.2.1, hr.2.2,
    fun row hrow => hr.2.2 row (h.place hrow)⟩

/-- **C26** (gradient boosting tree).  As above; the leaf outputs are the same. -/
theorem C26_gradBoost_tree (d : DataSet F) (c t : Nat) (hw : d.WF c t) (φ : Nat → F → F) (h : KeepsOrder φ d.featureRows)
    (cfg : TreeConfig) (hc : cfg.numberOfClasses = t) (k : LeafOutputType) :
    ∃ tree tree', gradBoostTreeNew d cfg k = .ok tree ∧ gradBoostTreeNew (d.rescale φ) cfg k = .ok tree' ∧
      (∀ p, tree'.questionAt p = (tree.questionAt p).map (Question.rescale φ)) ∧
      (∀ p, tree'.leafAt p = tree.leafAt p) ∧
      (∀ row, KeepsPlace φ d.featureRows row → tree'.route (rescaleRow φ row) = tree.route row) := by
  have hr := treeOf_rescale (leafOf := gradLeaf k t) (leafOf' := gradLeaf k t) (g := id) (φ := φ) (fun _ => rfl) cfg.maxLevels d hw h
  refine ⟨_, _, gradBoostTreeNew_ok hw hc k, gradBoostTreeNew_ok (rescale_wf hw h) hc k, hr.1, fun p => ?_, hr.2.2⟩
  rw [hr.2.1, Option.map_id]; rfl

/-- **C26** (AMG tree). -/
theorem C26_amg_tree (d : DataSet F) (c t : Nat) (hw : d.WF c t) (φ : Nat → F → F) (h : KeepsOrder φ d.featureRows)
    (cfg : TreeConfig) (hc : cfg.numberOfClasses = t) (k : LeafOutputType) :
    ∃ tree tree', amgTreeNew d cfg k = .ok tree ∧ amgTreeNew (d.rescale φ) cfg k = .ok tree' ∧
      (∀ p, tree'.questionAt p = (tree.questionAt p).map (Question.rescale φ)) ∧
      (∀ p, tree'.leafAt p = tree.leafAt p) ∧
      (∀ row, KeepsPlace φ d.featureRows row → tree'.route (rescaleRow φ row) = tree.route row) := by
  have hr := treeOf_rescale (leafOf := amgLeaf k t) (leafOf' := amgLeaf k t) (g := id) (φ := φ) (fun _ => rfl) cfg.maxLevels d hw h
  refine ⟨_, _, amgTreeNew_ok hw hc k, amgTreeNew_ok (rescale_wf hw h) hc k, hr.1, fun p => ?_, hr.2.2⟩
  rw [hr.2.1, Option.map_id]; rfl

/-- what corresponding boosting trees have in common -/
def SameOut {L : Type} (φ : Nat → F → F) (c : Nat) (d : DataSet F) (out : List F → TreeNode F L → R (List F)) (tree tree' : TreeNode F L) : Prop :=
  ∀ row, c ≤ row.length → KeepsPlace φ d.featureRows row → out (rescaleRow φ row) tree' = out row tree

theorem relabel_rescale (φ : Nat → F → F) (d : DataSet F) (r : List (List F)) :
    ({ d.rescale φ with labels := r } : DataSet F) = ({ d with labels := r } : DataSet F).rescale φ := rfl

theorem grad_fit_rescale {φ : Nat → F → F} {d : DataSet F} {c t : Nat} {cfg : TreeConfig} (hc : cfg.numberOfClasses = t)
    {k : LeafOutputType} (hw : d.WF c t) (h : KeepsOrder φ d.featureRows) {tree tree' : TreeNode F (GradBoostLeaf F)}
    (h1 : gradBoostTreeNew d cfg k = .ok tree) (h2 : gradBoostTreeNew (d.rescale φ) cfg k = .ok tree') : SameOut φ c d gradOut tree tree' := by
  rw [gradBoostTreeNew_ok hw hc] at h1
  rw [gradBoostTreeNew_ok (rescale_wf hw h) hc] at h2
  cases h1
  cases h2
  intro row hrow hk
  obtain ⟨leaf, e1, e2⟩ := find_rescale (leafOf := gradLeaf k t) (leafOf' := gradLeaf k t) (g := id) (φ := φ) (fun _ => rfl) cfg.maxLevels hw h hrow hk
  simp only [gradOut, e1, e2, id]

theorem amg_fit_rescale {φ : Nat → F → F} {d : DataSet F} {c t : Nat} {cfg : TreeConfig} (hc : cfg.numberOfClasses = t)
    {k : LeafOutputType} (hw : d.WF c t) (h : KeepsOrder φ d.featureRows) {tree tree' : TreeNode F (AMGBoostLeaf F)}
    (h1 : amgTreeNew d cfg k = .ok tree) (h2 : amgTreeNew (d.rescale φ) cfg k = .ok tree') : SameOut φ c d (amgOut t) tree tree' := by
  rw [amgTreeNew_ok hw hc] at h1
  rw [amgTreeNew_ok (rescale_wf hw h) hc] at h2
  cases h1
  cases h2
  intro row hrow hk
  obtain ⟨leaf, e1, e2⟩ := find_rescale (leafOf := amgLeaf k t) (leafOf' := amgLeaf k t) (g := id) (φ := φ) (fun _ => rfl) cfg.maxLevels hw h hrow hk
  simp only [amgOut, e1, e2, id]

/-- **C26** (regression ensemble).  An ensemble trained on the rescaled features predicts for every rescaled row exactly what the
original ensemble predicts for the row. -/
theorem C26_regression_ensemble (d : DataSet F) (c t : Nat) (hw : d.WF c t) (φ : Nat → F → F) (h : KeepsOrder φ d.featureRows)
    (cfg : TreeConfig) (hc : cfg.numberOfClasses = t) (n : Nat) (lr : F) :
    ∃ m m', regressionTrain d cfg n lr = .ok m ∧ regressionTrain (d.rescale φ) cfg n lr = .ok m' ∧
      ∀ row : List F, c ≤ row.length → KeepsPlace φ d.featureRows row →
        regressionPredict m' (rescaleRow φ row) = regressionPredict m row := by
  obtain ⟨m, h1, _⟩ := C42_regression d c t hw cfg hc n lr
  obtain ⟨m', h2, _⟩ := C42_regression (d.rescale φ) c t (rescale_wf hw h) cfg hc n lr
  refine ⟨m, m', h1, h2, fun row hrow hk => ?_⟩
  obtain ⟨f, h1⟩ := train_inv h1
  obtain ⟨f', h2⟩ := train_inv h2
  obtain ⟨g1, g2, g3⟩ := boostingLoop_inv h1
  obtain ⟨g1', g2', g3'⟩ := boostingLoop_inv h2
  simp only [regressionLoop_eq] at g1 g1' g3 g3'
  rw [determineInitialGuess_regression hw] at g1
  rw [determineInitialGuess_regression (rescale_wf hw h)] at g1'
  have hgg : m'.initialGuess = m.initialGuess := by
    rw [← Except.ok.inj g1, ← Except.ok.inj g1']; rfl
  have hgl : m.initialGuess.length = t := by rw [← Except.ok.inj g1]; exact avgVec_length hw.label_len
  rw [hgg] at g3'
  have key := loop_twin (g := m.initialGuess) (d := d) (d' := d.rescale φ) (out := gradOut) (rescaleRow φ) (SameOut φ c d gradOut) rfl rfl
    (grad_updateAdds lr _) regression_labelsOnly
    (fun tree tree' hs row hr => hs row (Nat.le_of_eq (hw.row_len row hr).symm) (h.place hr))
    (fun s r tree tree' hs hr e1 e2 => by
      rw [regressionResiduals_ok hw hgl hs] at hr
      cases hr
      have hwr := residuals_wf (f := List.zipWith F64.sub) hw hs.len (fun l v hl hv => by simp [hw.label_len l hl, hs.width v hv, hgl])
      exact grad_fit_rescale hc hwr h e1 e2) g3 g3'
  simp only [regressionPredict, predictInstance_eq, hgg, g2, g2']
  exact rawScore_twin (key.2.imp (fun _ _ hs => hs row hrow hk))

/-- **C26** (multi-class ensemble). -/
theorem C26_multiClass_ensemble [LawfulCount F] (d : DataSet F) (c t : Nat) (hw : d.WF c t) (ht0 : 0 < t) (ht1 : t ≤ 2 ^ 53)
    (φ : Nat → F → F) (h : KeepsOrder φ d.featureRows) (cfg : TreeConfig) (hc : cfg.numberOfClasses = t) (n : Nat) (lr : F) :
    ∃ m m', multiClassTrain d cfg n lr = .ok m ∧ multiClassTrain (d.rescale φ) cfg n lr = .ok m' ∧
      ∀ row : List F, c ≤ row.length → KeepsPlace φ d.featureRows row →
        multiClassPredict m' (rescaleRow φ row) = multiClassPredict m row := by
  obtain ⟨m, h1, _⟩ := C42_multiClass d c t hw ht0 ht1 cfg hc n lr
  obtain ⟨m', h2, _⟩ := C42_multiClass (d.rescale φ) c t (rescale_wf hw h) ht0 ht1 cfg hc n lr
  refine ⟨m, m', h1, h2, fun row hrow hk => ?_⟩
  obtain ⟨f, h1⟩ := train_inv h1
  obtain ⟨f', h2⟩ := train_inv h2
  obtain ⟨g1, g2, g3⟩ := boostingLoop_inv h1
  obtain ⟨g1', g2', g3'⟩ := boostingLoop_inv h2
  simp only [multiClassLoop_eq] at g1 g1' g3 g3'
  rw [determineInitialGuess_class hw ht1 (by simp)] at g1
  rw [determineInitialGuess_class (rescale_wf hw h) ht1 (by simp)] at g1'
  have hgg : m'.initialGuess = m.initialGuess := by
    rw [← Except.ok.inj g1, ← Except.ok.inj g1']
  have hgl : m.initialGuess.length = t := by rw [← Except.ok.inj g1]; simp
  rw [hgg] at g3'
  have key := loop_twin (g := m.initialGuess) (d := d) (d' := d.rescale φ) (out := gradOut) (rescaleRow φ) (SameOut φ c d gradOut) rfl rfl
    (grad_updateAdds lr _) multiClass_labelsOnly
    (fun tree tree' hs row hr => hs row (Nat.le_of_eq (hw.row_len row hr).symm) (h.place hr))
    (fun s r tree tree' hs hr e1 e2 => by
      rw [multiClassResiduals_ok hw hgl hs] at hr
      cases hr
      have hwr := residuals_wf (f := fun l v => List.zipWith F64.sub l (calculateProbabilities v)) hw hs.len (fun l v hl hv => by
        simp [hw.label_len l hl, hs.width v hv, hgl, calculateProbabilities_length])
      exact grad_fit_rescale hc hwr h e1 e2) g3 g3'
  simp only [multiClassPredict, predictInstance_eq, hgg, g2, g2']
  rw [rawScore_twin (key.2.imp (fun _ _ hs => hs row hrow hk))]

/-- **C26** (AMG ensemble). -/
theorem C26_amg_ensemble [LawfulCount F] (d : DataSet F) (c t : Nat) (hw : d.WF c t) (ht0 : 0 < t) (ht1 : t ≤ 2 ^ 53)
    (φ : Nat → F → F) (h : KeepsOrder φ d.featureRows) (cfg : TreeConfig) (hc : cfg.numberOfClasses = t) (n : Nat) (lr : F) :
    ∃ m m', amgTrain d cfg n lr = .ok m ∧ amgTrain (d.rescale φ) cfg n lr = .ok m' ∧
      ∀ row : List F, c ≤ row.length → KeepsPlace φ d.featureRows row → amgPredict m' (rescaleRow φ row) = amgPredict m row := by
  obtain ⟨m, h1, _⟩ := C42_amg d c t hw ht0 ht1 cfg hc n lr
  obtain ⟨m', h2, _⟩ := C42_amg (d.rescale φ) c t (rescale_wf hw h) ht0 ht1 cfg hc n lr
  refine ⟨m, m', h1, h2, fun row hrow hk => ?_⟩
  obtain ⟨f, h1⟩ := train_inv h1
  obtain ⟨f', h2⟩ := train_inv h2
  obtain ⟨g1, g2, g3⟩ := boostingLoop_inv h1
  obtain ⟨g1', g2', g3'⟩ := boostingLoop_inv h2
  simp only [amgLoop_eq] at g1 g1' g3 g3'
  rw [determineInitialGuess_class hw ht1 (by simp)] at g1
  rw [determineInitialGuess_class (rescale_wf hw h) ht1 (by simp)] at g1'
  have hgg : m'.initialGuess = m.initialGuess := by
    rw [← Except.ok.inj g1, ← Except.ok.inj g1']
  have hgl : m.initialGuess.length = t := by rw [← Except.ok.inj g1]; simp
  rw [hgg] at g3'
  have key := loop_twin (g := m.initialGuess) (d := d) (d' := d.rescale φ) (out := amgOut t) (rescaleRow φ) (SameOut φ c d (amgOut t)) rfl rfl
    (by rw [hgl]; exact amg_updateAdds lr t) multiClass_labelsOnly
    (fun tree tree' hs row hr => hs row (Nat.le_of_eq (hw.row_len row hr).symm) (h.place hr))
    (fun s r tree tree' hs hr e1 e2 => by
      rw [multiClassResiduals_ok hw hgl hs] at hr
      cases hr
      have hwr := residuals_wf (f := fun l v => List.zipWith F64.sub l (calculateProbabilities v)) hw hs.len (fun l v hl hv => by
        simp [hw.label_len l hl, hs.width v hv, hgl, calculateProbabilities_length])
      exact amg_fit_rescale hc hwr h e1 e2) g3 g3'
  simp only [amgPredict, amgPredictInstance_eq, hgg, g2, g2', hgl]
  rw [rawScore_twin (key.2.imp (fun _ _ hs => hs row hrow hk))]

end

/-- cubing column 0 and doubling the other columns -/
def exScale (j : Nat) (x : E) : E := if j = 0 then x *. x *. x else x +. x

-- the hypotheses are met by a non-linear rescaling, and the thresholds follow it
example : KeepsOrder exScale d4.featureRows := by
  have h : ∀ row ∈ d4.featureRows, ∀ row' ∈ d4.featureRows, ∀ j < 2,
      (exScale j (row.getD j 0) <=. exScale j (row'.getD j 0)) = (row.getD j 0 <=. row'.getD j 0) := by decide +kernel
  intro row hr row' hr' j x y hx hy
  have hj : j < 2 := by rw [← d4_wf.row_len row hr]; exact (List.getElem?_eq_some_iff.mp hx).1
  have := h row hr row' hr' j hj
  simpa [List.getD, hx, hy] using this
example : (regressionTreeNew (d4.rescale exScale) (exCfg 1)).toOption.bind (fun t => t.questionAt []) = some { column := 0, value := 1 } ∧
    (gradBoostTreeNew ((d5.rescale exScale)) (exCfg 3) .regression).toOption.bind (fun t => t.questionAt []) = some { column := 0, value := 27 } := by
  decide +kernel

end Verif
