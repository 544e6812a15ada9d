import Verif.Lemmas.Unused
import Verif.Props.Redundant
/-!
# C82: features that the learned model does not use

Only the comparison laws are assumed: the label arithmetic may round in any way.
-/

set_option linter.unusedSectionVars false

namespace Verif

variable {F : Type} [F64 F]

open Sample

/-- No tree asks about feature `k`. -/
def AsksNothingAbout {L : Type} (trees : List (TreeNode F L)) (k : Nat) : Prop :=
  ∀ tree ∈ trees, ∀ p q, tree.questionAt p = some q → q.column ≠ k

section
variable [LawfulOrder F]

theorem find_unused {L L' : Type} {k : Nat} {g : L → L'} {leafOf : DataSet F → L} {leafOf' : DataSet F → L'}
    (hleaf : ∀ d : DataSet F, leafOf' (d.dropFeature k) = g (leafOf d)) {c t : Nat} (hk : k ≤ c) (m : Nat) {d : DataSet F} (hw : d.WF (c + 1) t)
    (h : ∀ p q, (treeOf leafOf (c + 1) t m d).questionAt p = some q → q.column ≠ k) {row : List F} (hrow : c + 1 ≤ row.length) :
    ∃ leaf, findLeafNodeForData row (treeOf leafOf (c + 1) t m d) = .ok leaf ∧
      findLeafNodeForData (row.eraseIdx k) (treeOf leafOf' c t m (d.dropFeature k)) = .ok (g leaf) := by
  have hr := treeOf_unused hleaf hk m d hw h
  obtain ⟨leaf, h1, h2⟩ := TreeNode.find_of_proper (treeOf_proper (leafOf := leafOf) (c := c + 1) (t := t) m d) (row := row)
    (fun p q hq => Nat.lt_of_lt_of_le (treeOf_questions m d hw p q hq).1 hrow)
  obtain ⟨leaf', h3, h4⟩ := TreeNode.find_of_proper (treeOf_proper (leafOf := leafOf') (c := c) (t := t) m (d.dropFeature k)) (row := row.eraseIdx k)
    (fun p q hq => by
      have := (treeOf_questions m _ (dropFeature_wf hw hk) p q hq).1
      rw [List.length_eraseIdx]
      split <;> omega)
  refine ⟨leaf, h1, ?_⟩
  rw [← hr.2.2 row, hr.2.1, h2] at h4
  simp only [Option.map_some, Option.some.injEq] at h4
  rw [h3, h4]

/-- **C82** (regression tree).  If the tree does not ask about feature `k`, the tree learned without that feature is the same: it asks the
same question at every position, holds the same examples in every leaf, and sends every row the same way. -/
theorem C82_regression_tree (d : DataSet F) (c t : Nat) (hw : d.WF (c + 1) t) (k : Nat) (hk : k ≤ c)
    (cfg : TreeConfig) (hc : cfg.numberOfClasses = t) :
    ∃ tree tree', regressionTreeNew d cfg = .ok tree ∧ regressionTreeNew (d.dropFeature k) cfg = .ok tree' ∧
      (AsksNothingAbout [tree] k →
        (∀ p, tree.questionAt p = (tree'.questionAt p).map (Question.original k)) ∧
        (∀ p, tree'.leafAt p = (tree.leafAt p).map (RegressionLeaf.dropFeature k)) ∧
        ∀ row, tree.route row = tree'.route (row.eraseIdx k)) := by
  refine ⟨_, _, regressionTreeNew_ok hw hc, regressionTreeNew_ok (dropFeature_wf hw hk) hc, fun h => ?_⟩
  exact treeOf_unused (leafOf := regLeaf) (leafOf' := regLeaf) (g := RegressionLeaf.dropFeature k) (fun _ => rfl) hk cfg.maxLevels d hw (h _ (by simp))

/-- **C82** (gradient boosting tree).  As above; the leaf outputs are the same. -/
theorem C82_gradBoost_tree (d : DataSet F) (c t : Nat) (hw : d.WF (c + 1) t) (k : Nat) (hk : k ≤ c)
    (cfg : TreeConfig) (hc : cfg.numberOfClasses = t) (o : LeafOutputType) :
    ∃ tree tree', gradBoostTreeNew d cfg o = .ok tree ∧ gradBoostTreeNew (d.dropFeature k) cfg o = .ok tree' ∧
      (AsksNothingAbout [tree] k →
        (∀ p, tree.questionAt p = (tree'.questionAt p).map (Question.original k)) ∧
        (∀ p, tree'.leafAt p = tree.leafAt p) ∧
        ∀ row, tree.route row = tree'.route (row.eraseIdx k)) := by
  refine ⟨_, _, gradBoostTreeNew_ok hw hc o, gradBoostTreeNew_ok (dropFeature_wf hw hk) hc o, fun h => ?_⟩
  have hr := treeOf_unused (leafOf := gradLeaf o t) (leafOf' := gradLeaf o t) (g := id) (fun _ => rfl) hk cfg.maxLevels d hw (h _ (by simp))
  refine ⟨hr.1, fun p => ?_, hr.2.2⟩
  rw [hr.2.1, Option.map_id]; rfl

/-- **C82** (AMG tree). -/
theorem C82_amg_tree (d : DataSet F) (c t : Nat) (hw : d.WF (c + 1) t) (k : Nat) (hk : k ≤ c)
    (cfg : TreeConfig) (hc : cfg.numberOfClasses = t) (o : LeafOutputType) :
    ∃ tree tree', amgTreeNew d cfg o = .ok tree ∧ amgTreeNew (d.dropFeature k) cfg o = .ok tree' ∧
      (AsksNothingAbout [tree] k →
        (∀ p, tree.questionAt p = (tree'.questionAt p).map (Question.original k)) ∧
        (∀ p, tree'.leafAt p = tree.leafAt p) ∧
        ∀ row, tree.route row = tree'.route (row.eraseIdx k)) := by
  refine ⟨_, _, amgTreeNew_ok hw hc o, amgTreeNew_ok (dropFeature_wf hw hk) hc o, fun h => ?_⟩
  have hr := treeOf_unused (leafOf := amgLeaf o t) (leafOf' := amgLeaf o t) (g := id) (fun _ => rfl) hk cfg.maxLevels d hw (h _ (by simp))
  refine ⟨hr.1, fun p => ?_, hr.2.2⟩
  rw [hr.2.1, Option.map_id]; rfl

theorem grad_fit_unused {k : Nat} {d : DataSet F} {c t : Nat} {cfg : TreeConfig} (hc : cfg.numberOfClasses = t)
    {o : LeafOutputType} (hw : d.WF (c + 1) t) (hk : k ≤ c) {tree tree' : TreeNode F (GradBoostLeaf F)}
    (h : ∀ p q, tree.questionAt p = some q → q.column ≠ k)
    (h1 : gradBoostTreeNew d cfg o = .ok tree) (h2 : gradBoostTreeNew (d.dropFeature k) cfg o = .ok tree') : DropOut k c gradOut tree tree' := by
  rw [gradBoostTreeNew_ok hw hc] at h1
  rw [gradBoostTreeNew_ok (dropFeature_wf hw hk) hc] at h2
  cases h1
  cases h2
  intro row hrow
  obtain ⟨leaf, e1, e2⟩ := find_unused (leafOf := gradLeaf o t) (leafOf' := gradLeaf o t) (g := id) (fun _ => rfl) hk cfg.maxLevels hw h hrow
  simp only [gradOut, e1, e2, id]

theorem amg_fit_unused {k : Nat} {d : DataSet F} {c t : Nat} {cfg : TreeConfig} (hc : cfg.numberOfClasses = t)
    {o : LeafOutputType} (hw : d.WF (c + 1) t) (hk : k ≤ c) {tree tree' : TreeNode F (AMGBoostLeaf F)}
    (h : ∀ p q, tree.questionAt p = some q → q.column ≠ k)
    (h1 : amgTreeNew d cfg o = .ok tree) (h2 : amgTreeNew (d.dropFeature k) cfg o = .ok tree') : DropOut k c (amgOut t) tree tree' := by
  rw [amgTreeNew_ok hw hc] at h1
  rw [amgTreeNew_ok (dropFeature_wf hw hk) hc] at h2
  cases h1
  cases h2
  intro row hrow
  obtain ⟨leaf, e1, e2⟩ := find_unused (leafOf := amgLeaf o t) (leafOf' := amgLeaf o t) (g := id) (fun _ => rfl) hk cfg.maxLevels hw h hrow
  simp only [amgOut, e1, e2, id]

/-- **C82** (regression ensemble).  If no tree of an ensemble asks about feature `k`, the ensemble trained without that feature predicts
for every row, without the feature, exactly the same. -/
theorem C82_regression_ensemble (d : DataSet F) (c t : Nat) (hw : d.WF (c + 1) t) (k : Nat) (hk : k ≤ c)
    (cfg : TreeConfig) (hc : cfg.numberOfClasses = t) (n : Nat) (lr : F) :
    ∃ m m', regressionTrain d cfg n lr = .ok m ∧ regressionTrain (d.dropFeature k) cfg n lr = .ok m' ∧
      (AsksNothingAbout m.trees k → ∀ row : List F, c + 1 ≤ row.length →
        regressionPredict m' (row.eraseIdx k) = regressionPredict m row) := by
  obtain ⟨m, h1, _⟩ := C42_regression d (c + 1) t hw cfg hc n lr
  obtain ⟨m', h2, _⟩ := C42_regression (d.dropFeature k) c t (dropFeature_wf hw hk) cfg hc n lr
  refine ⟨m, m', h1, h2, fun hun row hrow => ?_⟩
  obtain ⟨f, h1⟩ := train_inv h1
  obtain ⟨f', h2⟩ := train_inv h2
  obtain ⟨g1, g2, g3⟩ := boostingLoop_inv h1
  obtain ⟨g1', g2', g3'⟩ := boostingLoop_inv h2
  simp only [regressionLoop_eq] at g1 g1' g3 g3'
  rw [determineInitialGuess_regression hw] at g1
  rw [determineInitialGuess_regression (dropFeature_wf hw hk)] at g1'
  have hgg : m'.initialGuess = m.initialGuess := by
    rw [← Except.ok.inj g1, ← Except.ok.inj g1']; rfl
  have hgl : m.initialGuess.length = t := by rw [← Except.ok.inj g1]; exact avgVec_length hw.label_len
  rw [hgg] at g3'
  have key := loop_twin_at (g := m.initialGuess) (d := d) (d' := d.dropFeature k) (out := gradOut) (fun row => row.eraseIdx k) (DropOut k c gradOut) rfl rfl
    (grad_updateAdds lr _) regression_labelsOnly
    (fun tree tree' hs row hr => hs row (Nat.le_of_eq (hw.row_len row hr).symm))
    (fun i hi s r tree tree' hb hs hr e1 e2 => by
      have hun' := hun tree (loop_tree_mem hi g3 hb hs hr e1)
      rw [regressionResiduals_ok hw hgl hs] at hr
      cases hr
      have hwr := residuals_wf (f := List.zipWith F64.sub) hw hs.len (fun l v hl hv => by simp [hw.label_len l hl, hs.width v hv, hgl])
      exact grad_fit_unused hc hwr hk hun' e1 e2) g3 g3'
  simp only [regressionPredict, predictInstance_eq, hgg, g2, g2']
  exact rawScore_twin (key.2.imp (fun _ _ hs => hs row hrow))

/-- **C82** (multi-class ensemble). -/
theorem C82_multiClass_ensemble [LawfulCount F] (d : DataSet F) (c t : Nat) (hw : d.WF (c + 1) t) (ht0 : 0 < t) (ht1 : t ≤ 2 ^ 53)
    (k : Nat) (hk : k ≤ c) (cfg : TreeConfig) (hc : cfg.numberOfClasses = t) (n : Nat) (lr : F) :
    ∃ m m', multiClassTrain d cfg n lr = .ok m ∧ multiClassTrain (d.dropFeature k) cfg n lr = .ok m' ∧
      (AsksNothingAbout m.trees k → ∀ row : List F, c + 1 ≤ row.length →
        multiClassPredict m' (row.eraseIdx k) = multiClassPredict m row) := by
  obtain ⟨m, h1, _⟩ := C42_multiClass d (c + 1) t hw ht0 ht1 cfg hc n lr
  obtain ⟨m', h2, _⟩ := C42_multiClass (d.dropFeature k) c t (dropFeature_wf hw hk) ht0 ht1 cfg hc n lr
  refine ⟨m, m', h1, h2, fun hun row hrow => ?_⟩
  obtain ⟨f, h1⟩ := train_inv h1
  obtain ⟨f', h2⟩ := train_inv h2
  obtain ⟨g1, g2, g3⟩ := boostingLoop_inv h1
  obtain ⟨g1', g2', g3'⟩ := boostingLoop_inv h2
  simp only [multiClassLoop_eq] at g1 g1' g3 g3'
  rw [determineInitialGuess_class hw ht1 (by simp)] at g1
  rw [determineInitialGuess_class (dropFeature_wf hw hk) ht1 (by simp)] at g1'
  have hgg : m'.initialGuess = m.initialGuess := by
    rw [← Except.ok.inj g1, ← Except.ok.inj g1']
  have hgl : m.initialGuess.length = t := by rw [← Except.ok.inj g1]; simp
  rw [hgg] at g3'
  have key := loop_twin_at (g := m.initialGuess) (d := d) (d' := d.dropFeature k) (out := gradOut) (fun row => row.eraseIdx k) (DropOut k c gradOut) rfl rfl
    (grad_updateAdds lr _) multiClass_labelsOnly
    (fun tree tree' hs row hr => hs row (Nat.le_of_eq (hw.row_len row hr).symm))
    (fun i hi s r tree tree' hb hs hr e1 e2 => by
      have hun' := hun tree (loop_tree_mem hi g3 hb hs hr e1)
      rw [multiClassResiduals_ok hw hgl hs] at hr
      cases hr
      have hwr := residuals_wf (f := fun l v => List.zipWith F64.sub l (calculateProbabilities v)) hw hs.len (fun l v hl hv => by
        simp [hw.label_len l hl, hs.width v hv, hgl, calculateProbabilities_length])
      exact grad_fit_unused hc hwr hk hun' e1 e2) g3 g3'
  simp only [multiClassPredict, predictInstance_eq, hgg, g2, g2']
  rw [rawScore_twin (key.2.imp (fun _ _ hs => hs row hrow))]

/-- **C82** (AMG ensemble). -/
theorem C82_amg_ensemble [LawfulCount F] (d : DataSet F) (c t : Nat) (hw : d.WF (c + 1) t) (ht0 : 0 < t) (ht1 : t ≤ 2 ^ 53)
    (k : Nat) (hk : k ≤ c) (cfg : TreeConfig) (hc : cfg.numberOfClasses = t) (n : Nat) (lr : F) :
    ∃ m m', amgTrain d cfg n lr = .ok m ∧ amgTrain (d.dropFeature k) cfg n lr = .ok m' ∧
      (AsksNothingAbout m.trees k → ∀ row : List F, c + 1 ≤ row.length → amgPredict m' (row.eraseIdx k) = amgPredict m row) := by
  obtain ⟨m, h1, _⟩ := C42_amg d (c + 1) t hw ht0 ht1 cfg hc n lr
  obtain ⟨m', h2, _⟩ := C42_amg (d.dropFeature k) c t (dropFeature_wf hw hk) ht0 ht1 cfg hc n lr
  refine ⟨m, m', h1, h2, fun hun row hrow => ?_⟩
  obtain ⟨f, h1⟩ := train_inv h1
  obtain ⟨f', h2⟩ := train_inv h2
  obtain ⟨g1, g2, g3⟩ := boostingLoop_inv h1
  obtain ⟨g1', g2', g3'⟩ := boostingLoop_inv h2
  simp only [amgLoop_eq] at g1 g1' g3 g3'
  rw [determineInitialGuess_class hw ht1 (by simp)] at g1
  rw [determineInitialGuess_class (dropFeature_wf hw hk) ht1 (by simp)] at g1'
  have hgg : m'.initialGuess = m.initialGuess := by
    rw [← Except.ok.inj g1, ← Except.ok.inj g1']
  have hgl : m.initialGuess.length = t := by rw [← Except.ok.inj g1]; simp
  rw [hgg] at g3'
  have key := loop_twin_at (g := m.initialGuess) (d := d) (d' := d.dropFeature k) (out := amgOut t) (fun row => row.eraseIdx k) (DropOut k c (amgOut t)) rfl rfl
    (by rw [hgl]; exact amg_updateAdds lr t) multiClass_labelsOnly
    (fun tree tree' hs row hr => hs row (Nat.le_of_eq (hw.row_len row hr).symm))
    (fun i hi s r tree tree' hb hs hr e1 e2 => by
      have hun' := hun tree (loop_tree_mem hi g3 hb hs hr e1)
      rw [multiClassResiduals_ok hw hgl hs] at hr
      cases hr
      have hwr := residuals_wf (f := fun l v => List.zipWith F64.sub l (calculateProbabilities v)) hw hs.len (fun l v hl hv => by
        simp [hw.label_len l hl, hs.width v hv, hgl, calculateProbabilities_length])
      exact amg_fit_unused hc hwr hk hun' e1 e2) g3 g3'
  simp only [amgPredict, amgPredictInstance_eq, hgg, g2, g2', hgl]
  rw [rawScore_twin (key.2.imp (fun _ _ hs => hs row hrow))]

end

namespace Sample

/-- `d4` and a feature that is not redundant: it tells all rows apart -/
def d4Noise : DataSet E :=
  { featureRows := [[0, 5, 3], [1, 5, 1], [1, 7, 4], [2, 7, 2]], labels := [[1], [3], [8], [10]],
    featureColumns := [[0, 1, 1, 2], [5, 5, 7, 7], [3, 1, 4, 2]] }

def levels (m : Nat) : TreeConfig := { useMultiThreading := false, numberOfClasses := 1, maxLevels := m }

/-- a check that finds all questions about feature `k` -/
def avoids {L : Type} (k : Nat) : TreeNode E L → Bool
  | .mk q (some t) (some f) _ => q.column != k && avoids k t && avoids k f
  | .mk _ _ _ _ => true

theorem avoids_spec {L : Type} {k : Nat} : ∀ (tree : TreeNode E L), avoids k tree = true → ∀ p q, tree.questionAt p = some q → q.column ≠ k
  | .mk q0 (some t) (some f) _, h, p, q, hq => by
    simp only [avoids, Bool.and_eq_true, bne_iff_ne, ne_eq] at h
    match p with
    | [] => cases hq; exact h.1.1
    | true :: p => exact avoids_spec t h.1.2 p q hq
    | false :: p => exact avoids_spec f h.2 p q hq
  | .mk _ (some _) none _, _, p, q, hq => by cases p <;> cases hq
  | .mk _ none (some _) _, _, p, q, hq => by cases p <;> cases hq
  | .mk _ none none _, _, p, q, hq => by cases p <;> cases hq

end Sample

example : d4Noise.WF 3 1 := by constructor <;> decide +kernel
-- feature 2 is not redundant: it tells all rows apart and orders them unlike the others
example : ¬ RedundantFeature d4Noise.featureRows 2 := by
  rintro (h | ⟨j, hj, h⟩)
  · exact absurd (h [0, 5, 3] (by decide +kernel) [1, 5, 1] (by decide +kernel) 3 1 rfl rfl) (by decide +kernel)
  · match j, hj with
    | 0, _ => exact absurd (h [0, 5, 3] (by decide +kernel) [1, 5, 1] (by decide +kernel) 0 1 3 1 rfl rfl rfl rfl) (by decide +kernel)
    | 1, _ => exact absurd (h [0, 5, 3] (by decide +kernel) [1, 7, 4] (by decide +kernel) 5 7 3 4 rfl rfl rfl rfl |>.symm.trans
        (h [1, 5, 1] (by decide +kernel) [2, 7, 2] (by decide +kernel) 5 7 1 2 rfl rfl rfl rfl |>.trans
        (h [1, 7, 4] (by decide +kernel) [2, 7, 2] (by decide +kernel) 7 7 4 2 rfl rfl rfl rfl).symm)) (by decide +kernel)
-- the tree has three questions, none about feature 2; nor has an ensemble of three trees, but the fourth tree asks about it
example : (regressionTreeNew d4Noise (levels 9)).map (fun t => (t.questionCount, avoids 2 t)) = .ok (3, true) := by decide +kernel
example : (regressionTrain d4Noise (levels 1) 3 (Ext.fin (1 / 2))).map (fun m => m.trees.map (avoids 2)) = .ok [true, true, true] := by
  decide +kernel
example : ∃ tree, regressionTreeNew d4Noise (levels 9) = .ok tree ∧ AsksNothingAbout [tree] 2 := by
  have h : (regressionTreeNew d4Noise (levels 9)).map (avoids 2) = .ok true := by decide +kernel
  cases ht : regressionTreeNew d4Noise (levels 9) with
  | error e => rw [ht] at h; cases h
  | ok tree =>
    rw [ht] at h
    refine ⟨tree, rfl, ?_⟩
    intro t htm
    rw [List.mem_singleton.mp htm]
    exact avoids_spec tree (by simpa [Except.map] using h)
-- the hypothesis matters: after four iterations the two ensembles differ
example : (regressionTrain d4Noise (levels 1) 4 (Ext.fin (1 / 2))).map (fun m => m.trees.map (avoids 2)) = .ok [true, true, true, false] := by
  decide +kernel
example : (do
    let m ← regressionTrain d4Noise (levels 1) 4 (Ext.fin (1 / 2))
    regressionPredict m [0, 5, 3]) = .ok [.fin (211 / 96)] := by decide +kernel
example : (do
    let m' ← regressionTrain (d4Noise.dropFeature 2) (levels 1) 4 (Ext.fin (1 / 2))
    regressionPredict m' [0, 5]) = .ok [.fin (41 / 32)] := by decide +kernel

end Verif
