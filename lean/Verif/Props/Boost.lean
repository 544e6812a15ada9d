import Verif.Lemmas.Ensemble
import Verif.Props.Score
/-!
# C31, C32, C33, C40, C42: the boosting loops (any arithmetic)
-/

set_option linter.unusedSectionVars false

namespace Verif

variable {F : Type} [F64 F]

open Sample

theorem train_inv {L : Type} {x : R (TrainingData F × BoostModel F L)} {m : BoostModel F L}
    (h : (do let r ← x; pure r.2) = Except.ok m) : ∃ final, x = .ok (final, m) := by
  rw [R.bind_eq_ok] at h
  obtain ⟨⟨f, m'⟩, h1, h2⟩ := h
  cases h2
  exact ⟨f, h1⟩

theorem train_of_full {L : Type} {x : R (TrainingData F × BoostModel F L)} {m : BoostModel F L} {final : TrainingData F}
    (h : x = .ok (final, m)) : (do let r ← x; pure r.2) = Except.ok m := by
  rw [h]; rfl

/-! ## C31 -/

/-- **C31** (regression).  A trained model has one tree per iteration, the given learning rate, and as initial guess the
component-wise average of the labels. -/
theorem C31_regression (d : DataSet F) (cfg : TreeConfig) (n : Nat) (lr : F) (m : BoostModel F (GradBoostLeaf F))
    (h : regressionTrain d cfg n lr = .ok m) :
    m.trees.length = n ∧ m.learningRate = lr ∧
    ∀ c t, d.WF c t → m.initialGuess = (List.range t).map (fun j =>
      (d.labels.foldl (fun s l => s +. l.getD j F64.zero) F64.zero) /. F64.ofNat d.labels.length) := by
  obtain ⟨final, h⟩ := train_inv h
  obtain ⟨hg, hlr, hl⟩ := boostingLoop_inv h
  refine ⟨?_, hlr, ?_⟩
  · simp only [regressionLoop_eq] at hl
    exact boostLoop_length hl
  · intro c t hw
    simp only at hg
    rw [determineInitialGuess_regression hw] at hg
    rw [← Except.ok.inj hg]
    exact avgVec_range hw.label_len

/-- **C31** (multi-class).  One tree per iteration, the given learning rate, initial guess `1/K` for each of the `K` classes. -/
theorem C31_multiClass [LawfulCount F] (d : DataSet F) (cfg : TreeConfig) (n : Nat) (lr : F) (m : BoostModel F (GradBoostLeaf F))
    (h : multiClassTrain d cfg n lr = .ok m) :
    m.trees.length = n ∧ m.learningRate = lr ∧
    ∀ c t, d.WF c t → t ≤ 2 ^ 53 → m.initialGuess = List.replicate t (F64.one /. F64.ofNat t) := by
  obtain ⟨final, h⟩ := train_inv h
  obtain ⟨hg, hlr, hl⟩ := boostingLoop_inv h
  refine ⟨?_, hlr, ?_⟩
  · simp only [multiClassLoop_eq] at hl
    exact boostLoop_length hl
  · intro c t hw ht
    simp only at hg
    rw [determineInitialGuess_class hw ht (by simp)] at hg
    exact (Except.ok.inj hg).symm

/-- **C31** (AMG). -/
theorem C31_amg [LawfulCount F] (d : DataSet F) (cfg : TreeConfig) (n : Nat) (lr : F) (m : BoostModel F (AMGBoostLeaf F))
    (h : amgTrain d cfg n lr = .ok m) :
    m.trees.length = n ∧ m.learningRate = lr ∧
    ∀ c t, d.WF c t → t ≤ 2 ^ 53 → m.initialGuess = List.replicate t (F64.one /. F64.ofNat t) := by
  obtain ⟨final, h⟩ := train_inv h
  obtain ⟨hg, hlr, hl⟩ := boostingLoop_inv h
  refine ⟨?_, hlr, ?_⟩
  · simp only [amgLoop_eq] at hl
    exact boostLoop_length hl
  · intro c t hw ht
    simp only at hg
    rw [determineInitialGuess_class hw ht (by simp)] at hg
    exact (Except.ok.inj hg).symm

/-- **C31**.  A model without trees predicts its initial guess, for every row (regression). -/
theorem C31_no_trees_regression (d : DataSet F) (cfg : TreeConfig) (lr : F) (m : BoostModel F (GradBoostLeaf F))
    (h : regressionTrain d cfg 0 lr = .ok m) (row : List F) : regressionPredict m row = .ok m.initialGuess := by
  have ht : m.trees = [] := List.length_eq_zero_iff.mp (C31_regression d cfg 0 lr m h).1
  simp only [regressionPredict, ht]
  rfl

/-- **C31**.  Classification models without trees always predict the one-hot vector of the first maximal entry of the initial
guess. -/
theorem C31_no_trees_classification [LawfulOrder F] [LawfulCount F] (d : DataSet F) (cfg : TreeConfig) (lr : F) (row : List F) :
    (∀ m : BoostModel F (GradBoostLeaf F), multiClassTrain d cfg 0 lr = .ok m → m.initialGuess ≠ [] →
      ∃ k, FirstMax m.initialGuess k ∧ multiClassPredict m row = .ok (oneHot m.initialGuess.length k)) ∧
    (∀ m : BoostModel F (AMGBoostLeaf F), amgTrain d cfg 0 lr = .ok m → m.initialGuess ≠ [] →
      ∃ k, FirstMax m.initialGuess k ∧ amgPredict m row = .ok (oneHot m.initialGuess.length k)) := by
  constructor
  · intro m h hne
    have ht : m.trees = [] := List.length_eq_zero_iff.mp (C31_multiClass d cfg 0 lr m h).1
    obtain ⟨k, _, hk, hp⟩ := (C39_multiClass_one_hot m row m.initialGuess (by rw [ht]; rfl)).1 hne
    exact ⟨k, hk, hp⟩
  · intro m h hne
    have ht : m.trees = [] := List.length_eq_zero_iff.mp (C31_amg d cfg 0 lr m h).1
    obtain ⟨k, _, hk, hp⟩ := (C39_amg_one_hot m row m.initialGuess (by rw [ht]; rfl)).1 hne
    exact ⟨k, hk, hp⟩

/-- configuration used in the examples -/
def exCfg (t : Nat) : TreeConfig := { useMultiThreading := false, numberOfClasses := t, maxLevels := 1 }

-- a model with two trees exists
example : (regressionTrain d4 (exCfg 1) 2 (.fin (1 / 2))).toOption.map (fun m => (m.trees.length, m.initialGuess)) =
    some (2, [.fin (11 / 4)]) := by decide +kernel
example : (multiClassTrain d5 (exCfg 3) 2 (.fin (1 / 2))).toOption.map (fun m => (m.trees.length, m.initialGuess.length)) =
    some (2, 3) := by decide +kernel
example : (amgTrain d5 (exCfg 3) 2 (.fin (1 / 2))).toOption.map (fun m => (m.trees.length, m.initialGuess.length)) =
    some (2, 3) := by decide +kernel

/-! ## C32 -/

theorem boosting_prefix {L : Type} {res : TrainingData F → R (List (List F))} {fit : TreeConfig → DataSet F → R (TreeNode F L)}
    {upd : F → TrainingData F → TreeNode F L → R (TrainingData F)} {ex : BoostingExecutor F L}
    (hex : ∀ t n cfg lr, ex.loopExecutor t n cfg lr = boostLoop res (fit cfg) (upd lr) n t)
    {d : DataSet F} {cfg : TreeConfig} {n m : Nat} (hnm : n ≤ m) {lr : F} {big : BoostModel F L}
    (h : (do let r ← boostingLoop d cfg m lr ex; pure r.2) = Except.ok big) :
    (do let r ← boostingLoop d cfg n lr ex; pure r.2) = Except.ok { big with trees := big.trees.take n } := by
  obtain ⟨final, h⟩ := train_inv h
  obtain ⟨hg, hlr, hl⟩ := boostingLoop_inv h
  rw [hex] at hl
  obtain ⟨⟨f', trees'⟩, h1, h2⟩ := boostLoop_prefix hnm hl
  simp only at h2
  rw [← hex, h2] at h1
  rw [train_of_full (boostingLoop_mk hg h1), hlr]

/-- **C32** (regression).  Training with fewer iterations gives the same model with the last trees left out. -/
theorem C32_regression (d : DataSet F) (cfg : TreeConfig) (n m : Nat) (hnm : n ≤ m) (lr : F) (big : BoostModel F (GradBoostLeaf F))
    (h : regressionTrain d cfg m lr = .ok big) :
    regressionTrain d cfg n lr = .ok { big with trees := big.trees.take n } :=
  boosting_prefix (fit := fun cfg d => gradBoostTreeNew d cfg .regression)
    (upd := fun lr t tree => updateDatasetLabels t tree lr) (fun t n cfg lr => regressionLoop_eq t n cfg lr) hnm h

/-- **C32** (multi-class). -/
theorem C32_multiClass (d : DataSet F) (cfg : TreeConfig) (n m : Nat) (hnm : n ≤ m) (lr : F) (big : BoostModel F (GradBoostLeaf F))
    (h : multiClassTrain d cfg m lr = .ok big) :
    multiClassTrain d cfg n lr = .ok { big with trees := big.trees.take n } :=
  boosting_prefix (fit := fun cfg d => gradBoostTreeNew d cfg .multiClassClassification)
    (upd := fun lr t tree => updateDatasetLabels t tree lr) (fun t n cfg lr => multiClassLoop_eq t n cfg lr) hnm h

/-- **C32** (AMG). -/
theorem C32_amg (d : DataSet F) (cfg : TreeConfig) (n m : Nat) (hnm : n ≤ m) (lr : F) (big : BoostModel F (AMGBoostLeaf F))
    (h : amgTrain d cfg m lr = .ok big) :
    amgTrain d cfg n lr = .ok { big with trees := big.trees.take n } :=
  boosting_prefix (fit := fun cfg d => amgTreeNew d cfg .multiClassClassification)
    (upd := fun lr t tree => amgUpdateDatasetLabels t tree lr) (fun t n cfg lr => amgLoop_eq t n cfg lr) hnm h

/-! ## C33 -/

theorem tracks_mapM {L : Type} {out : List F → TreeNode F L → R (List F)} {d : DataSet F} {guess : List F} {lr : F}
    {s : TrainingData F × List (TreeNode F L)} (hs : Tracks out d guess lr s) (hlen : d.featureRows.length = d.labels.length) :
    d.featureRows.mapM (rawScore out guess lr s.2) = .ok s.1.mutableLabels := by
  rw [mapM_eq_ok, List.forall₂_iff_get]
  refine ⟨by rw [hs.len, hlen], ?_⟩
  intro i h1 h2
  exact hs.score i _ _ (List.getElem?_eq_getElem h1) (List.getElem?_eq_getElem h2)

/-- **C33** (regression).  After training, the internally tracked labels are exactly the model's own predictions for the
training rows. -/
theorem C33_regression_tracked (d : DataSet F) (hlen : d.featureRows.length = d.labels.length) (cfg : TreeConfig) (n : Nat) (lr : F)
    (final : TrainingData F) (m : BoostModel F (GradBoostLeaf F)) (h : regressionTrainFull d cfg n lr = .ok (final, m)) :
    d.featureRows.mapM (regressionPredict m) = .ok final.mutableLabels := by
  obtain ⟨_, hlr, hl⟩ := boostingLoop_inv h
  simp only [regressionLoop_eq] at hl
  have ht := tracks_loop (grad_updateAdds lr m.initialGuess.length) (tracks_start d m.initialGuess lr) hl
  have := tracks_mapM ht hlen
  rw [← this]
  apply mapM_congr
  intro row _
  rw [regressionPredict, hlr, predictInstance_eq]

/-- the value of the soft-max function as the code computes it: `exp(x_j) * (1 / Σ exp(x_i))` -/
def softmaxOf (scores : List F) : List F :=
  scores.map (fun x => F64.exp x *. (F64.one /. fsum (scores.map F64.exp)))

theorem calculateProbabilities_eq (v : List F) : calculateProbabilities v = softmaxOf v := by
  simp [calculateProbabilities, softmaxOf, multiplyByScalar, List.map_map]

theorem regressionResiduals_inv {t : TrainingData F} {r : List (List F)} (h : regressionResiduals t = .ok r)
    (hs : t.size = t.data.labels.length) (hm : t.mutableLabels.length = t.data.labels.length) :
    r = List.zipWith (List.zipWith F64.sub) t.data.labels t.mutableLabels ∧
      List.Forall₂ (fun l v => l.length = v.length) t.data.labels t.mutableLabels := by
  have hlen := mapM_length h
  simp only [List.length_range] at hlen
  have hel : ∀ i (hi : i < t.data.labels.length), ∃ b, r[i]? = some b ∧
      (t.data.labels[i]).length = (t.mutableLabels[i]'(by omega)).length ∧
      b = List.zipWith F64.sub (t.data.labels[i]) (t.mutableLabels[i]'(by omega)) := by
    intro i hi
    obtain ⟨b, h1, h2⟩ := mapM_get h (i := i) (a := i) (List.getElem?_range (by omega))
    rw [idx_lt hi, R.ok_bind, idx_lt (by omega), R.ok_bind, subtractSlices, R.bind_eq_ok] at h2
    obtain ⟨_, h3, h4⟩ := h2
    rw [assertEq_eq_ok] at h3
    cases h4
    exact ⟨_, h1, h3, rfl⟩
  constructor
  · apply List.ext_getElem (by simp; omega)
    intro i h1 h2
    simp at h2
    obtain ⟨b, hb, _, hb2⟩ := hel i h2.1
    rw [List.getElem?_eq_getElem h1] at hb
    rw [Option.some.inj hb, hb2, List.getElem_zipWith]
  · rw [List.forall₂_iff_get]
    refine ⟨hm.symm, fun i h1 h2 => ?_⟩
    obtain ⟨_, _, h3, _⟩ := hel i h1
    exact h3

theorem multiClassResiduals_inv {t : TrainingData F} {r : List (List F)} (h : multiClassResiduals t = .ok r)
    (hs : t.size = t.data.labels.length) (hm : t.mutableLabels.length = t.data.labels.length) :
    r = List.zipWith (fun l v => List.zipWith F64.sub l (softmaxOf v)) t.data.labels t.mutableLabels ∧
      List.Forall₂ (fun l v => l.length = v.length) t.data.labels t.mutableLabels := by
  have hlen := mapM_length h
  simp only [List.length_range] at hlen
  have hel : ∀ i (hi : i < t.data.labels.length), ∃ b, r[i]? = some b ∧
      (t.data.labels[i]).length = (t.mutableLabels[i]'(by omega)).length ∧
      b = List.zipWith F64.sub (t.data.labels[i]) (softmaxOf (t.mutableLabels[i]'(by omega))) := by
    intro i hi
    obtain ⟨b, h1, h2⟩ := mapM_get h (i := i) (a := i) (List.getElem?_range (by omega))
    rw [idx_lt hi, R.ok_bind, idx_lt (by omega), R.ok_bind, subtractSlices, R.bind_eq_ok] at h2
    obtain ⟨_, h3, h4⟩ := h2
    rw [assertEq_eq_ok, calculateProbabilities_length] at h3
    rw [calculateProbabilities_eq] at h4
    cases h4
    exact ⟨_, h1, h3, rfl⟩
  constructor
  · apply List.ext_getElem (by simp; omega)
    intro i h1 h2
    simp at h2
    obtain ⟨b, hb, _, hb2⟩ := hel i h2.1
    rw [List.getElem?_eq_getElem h1] at hb
    rw [Option.some.inj hb, hb2, List.getElem_zipWith]
  · rw [List.forall₂_iff_get]
    refine ⟨hm.symm, fun i h1 h2 => ?_⟩
    obtain ⟨_, _, h3, _⟩ := hel i h1
    exact h3

/-- **C33** (regression).  Tree number `k` is the tree learned from the training rows labelled with true label minus the
prediction of the ensemble made of the first `k` trees. -/
theorem C33_regression_residual_tree (d : DataSet F) (hlen : d.featureRows.length = d.labels.length) (cfg : TreeConfig) (n : Nat)
    (lr : F) (m : BoostModel F (GradBoostLeaf F)) (h : regressionTrain d cfg n lr = .ok m) (k : Nat)
    (tree : TreeNode F (GradBoostLeaf F)) (hk : m.trees[k]? = some tree) :
    ∃ preds, d.featureRows.mapM (regressionPredict { m with trees := m.trees.take k }) = .ok preds ∧
      List.Forall₂ (fun l v => l.length = v.length) d.labels preds ∧
      gradBoostTreeNew { d with labels := List.zipWith (List.zipWith F64.sub) d.labels preds } cfg .regression = .ok tree := by
  obtain ⟨final, h⟩ := train_inv h
  obtain ⟨_, hlr, hl⟩ := boostingLoop_inv h
  simp only [regressionLoop_eq] at hl
  obtain ⟨s', r, h1, h2, h3, h4⟩ := boostLoop_tree hl hk
  simp only at h2
  have ht := tracks_loop (grad_updateAdds lr m.initialGuess.length) (tracks_start d m.initialGuess lr) h1
  have hm := tracks_mapM ht hlen
  obtain ⟨h5, h6⟩ := regressionResiduals_inv h3 (by rw [ht.size, ht.data]) (by rw [ht.len, ht.data])
  rw [ht.data] at h4 h5 h6
  refine ⟨s'.1.mutableLabels, ?_, h6, by rw [← h5]; exact h4⟩
  rw [← hm]
  apply mapM_congr
  intro row _
  simp only [regressionPredict, predictInstance_eq, hlr, h2]

/-- **C33** (multi-class).  Tree number `k` is learned from true label minus the soft-max of the raw scores of the first `k`
trees. -/
theorem C33_multiClass_residual_tree (d : DataSet F) (hlen : d.featureRows.length = d.labels.length) (cfg : TreeConfig) (n : Nat)
    (lr : F) (m : BoostModel F (GradBoostLeaf F)) (h : multiClassTrain d cfg n lr = .ok m) (k : Nat)
    (tree : TreeNode F (GradBoostLeaf F)) (hk : m.trees[k]? = some tree) :
    ∃ scores, d.featureRows.mapM (fun row => predictInstance row (m.trees.take k) m.initialGuess m.learningRate) = .ok scores ∧
      List.Forall₂ (fun l v => l.length = v.length) d.labels scores ∧
      gradBoostTreeNew { d with labels := List.zipWith (fun l v => List.zipWith F64.sub l (softmaxOf v)) d.labels scores } cfg
        .multiClassClassification = .ok tree := by
  obtain ⟨final, h⟩ := train_inv h
  obtain ⟨_, hlr, hl⟩ := boostingLoop_inv h
  simp only [multiClassLoop_eq] at hl
  obtain ⟨s', r, h1, h2, h3, h4⟩ := boostLoop_tree hl hk
  simp only at h2
  have ht := tracks_loop (grad_updateAdds lr m.initialGuess.length) (tracks_start d m.initialGuess lr) h1
  have hm := tracks_mapM ht hlen
  obtain ⟨h5, h6⟩ := multiClassResiduals_inv h3 (by rw [ht.size, ht.data]) (by rw [ht.len, ht.data])
  rw [ht.data] at h4 h5 h6
  refine ⟨s'.1.mutableLabels, ?_, h6, by rw [← h5]; exact h4⟩
  rw [← hm]
  apply mapM_congr
  intro row _
  simp only [predictInstance_eq, hlr, h2]

/-- **C33** (AMG).  The same with the AMG raw scores. -/
theorem C33_amg_residual_tree (d : DataSet F) (hlen : d.featureRows.length = d.labels.length) (cfg : TreeConfig) (n : Nat)
    (lr : F) (m : BoostModel F (AMGBoostLeaf F)) (h : amgTrain d cfg n lr = .ok m) (k : Nat)
    (tree : TreeNode F (AMGBoostLeaf F)) (hk : m.trees[k]? = some tree) :
    ∃ scores, d.featureRows.mapM (fun row => amgPredictInstance row (m.trees.take k) m.initialGuess m.learningRate
        m.initialGuess.length) = .ok scores ∧
      List.Forall₂ (fun l v => l.length = v.length) d.labels scores ∧
      amgTreeNew { d with labels := List.zipWith (fun l v => List.zipWith F64.sub l (softmaxOf v)) d.labels scores } cfg
        .multiClassClassification = .ok tree := by
  obtain ⟨final, h⟩ := train_inv h
  obtain ⟨_, hlr, hl⟩ := boostingLoop_inv h
  simp only [amgLoop_eq] at hl
  obtain ⟨s', r, h1, h2, h3, h4⟩ := boostLoop_tree hl hk
  simp only at h2
  have ht := tracks_loop (amg_updateAdds lr m.initialGuess.length) (tracks_start d m.initialGuess lr) h1
  have hm := tracks_mapM ht hlen
  obtain ⟨h5, h6⟩ := multiClassResiduals_inv h3 (by rw [ht.size, ht.data]) (by rw [ht.len, ht.data])
  rw [ht.data] at h4 h5 h6
  refine ⟨s'.1.mutableLabels, ?_, h6, by rw [← h5]; exact h4⟩
  rw [← hm]
  apply mapM_congr
  intro row _
  simp only [amgPredictInstance_eq, hlr, h2]

/-- **C33** (multi-class and AMG).  The tracked labels after training are the raw scores of the training rows. -/
theorem C33_classification_tracked (d : DataSet F) (hlen : d.featureRows.length = d.labels.length) (cfg : TreeConfig) (n : Nat)
    (lr : F) (final : TrainingData F) :
    (∀ m : BoostModel F (GradBoostLeaf F), multiClassTrainFull d cfg n lr = .ok (final, m) →
      d.featureRows.mapM (fun row => predictInstance row m.trees m.initialGuess m.learningRate) = .ok final.mutableLabels) ∧
    (∀ m : BoostModel F (AMGBoostLeaf F), amgTrainFull d cfg n lr = .ok (final, m) →
      d.featureRows.mapM (fun row => amgPredictInstance row m.trees m.initialGuess m.learningRate m.initialGuess.length) =
        .ok final.mutableLabels) := by
  constructor
  · intro m h
    obtain ⟨_, hlr, hl⟩ := boostingLoop_inv h
    simp only [multiClassLoop_eq] at hl
    have ht := tracks_loop (grad_updateAdds lr m.initialGuess.length) (tracks_start d m.initialGuess lr) hl
    rw [← tracks_mapM ht hlen]
    apply mapM_congr
    intro row _
    rw [hlr, predictInstance_eq]
  · intro m h
    obtain ⟨_, hlr, hl⟩ := boostingLoop_inv h
    simp only [amgLoop_eq] at hl
    have ht := tracks_loop (amg_updateAdds lr m.initialGuess.length) (tracks_start d m.initialGuess lr) hl
    rw [← tracks_mapM ht hlen]
    apply mapM_congr
    intro row _
    rw [hlr, amgPredictInstance_eq]

/-! ## C40 -/

/-- **C40**.  The leaf of an AMG tree at a position holds a class index below the number of classes, which is the first maximal
position of the leaf output computed from exactly the examples that take that path, and the entry at that position (negative
infinity if no entry exceeds it). -/
theorem C40_amg_leaf [LawfulOrder F] (d : DataSet F) (c t : Nat) (h : d.WF c t) (ht0 : 0 < t) (cfg : TreeConfig)
    (ht : cfg.numberOfClasses = t) (k : LeafOutputType) (tree : TreeNode F (AMGBoostLeaf F))
    (hb : amgTreeNew d cfg k = .ok tree) (p : List Bool) (leaf : AMGBoostLeaf F) (hl : tree.leafAt p = some leaf) :
    ∃ (out : List F) (cls : Nat) (mv : F),
      out = leafValue k t ((d.examples.filter (fun e => decide (tree.route e.1 = p))).map Prod.snd) ∧
      leaf = { maxValue := some mv, cls := some cls } ∧ cls < t ∧ FirstMax out cls ∧
      (out[cls]? = some mv ∨ (mv = F64.negInfinity ∧ ∀ x ∈ out, (F64.negInfinity <. x) = false)) := by
  rw [amgTreeNew_ok h ht] at hb
  cases hb
  obtain ⟨dd, rfl, hw, he⟩ := treeOf_leafAt _ d h p leaf hl
  have hlen := leafOut_length k hw.label_len
  refine ⟨leafOut k t dd.labels, _, _, ?_, rfl, ?_, findMax_firstMax _, ?_⟩
  · rw [leafOut_eq k hw.label_len, ← he, examples_snd hw]
  · have := findMax_lt (leafOut k t dd.labels) (List.ne_nil_of_length_pos (by omega))
    omega
  · rcases findMax_spec (leafOut k t dd.labels) with ⟨h1, _, h3⟩ | ⟨h1, _, _, _⟩
    · exact .inr ⟨h1, h3⟩
    · exact .inl h1

example : ((amgTreeNew d5 (exCfg 3) .multiClassClassification).toOption.map (fun tr => tr.leaves.map (fun l => l.cls))) =
    some [some 0, some 1] := by decide +kernel

/-! ## C42 -/

/-- **C42** (regression).  Training returns on every well-formed data set, for every depth, iteration count and learning rate;
the model then predicts every row with enough columns, with as many entries as there are targets. -/
theorem C42_regression [LawfulOrder F] (d : DataSet F) (c t : Nat) (h : d.WF c t) (cfg : TreeConfig) (ht : cfg.numberOfClasses = t)
    (n : Nat) (lr : F) :
    ∃ m, regressionTrain d cfg n lr = .ok m ∧
      ∀ row : List F, c ≤ row.length → ∃ p, regressionPredict m row = .ok p ∧ p.length = t := by
  have hgl : (avgVec t d.labels).length = t := avgVec_length h.label_len
  obtain ⟨⟨f, trees⟩, hl⟩ := boostLoop_total (grad_updateAdds lr (avgVec t d.labels).length) n
    (tracks_start d (avgVec t d.labels) lr) (regression_step h ht hgl)
  have hfull := boostingLoop_mk (ex := { ensembleType := .regressionBoost, loopExecutor := regressionLoop })
    (determineInitialGuess_regression h) (n := n) (cfg := cfg) (lr := lr) hl
  have htrain : regressionTrain d cfg n lr = .ok { trees := trees, initialGuess := avgVec t d.labels, learningRate := lr } :=
    train_of_full hfull
  refine ⟨_, htrain, fun row hrow => ?_⟩
  simp only [regressionPredict, predictInstance_eq]
  obtain ⟨s, h1, h2⟩ := rawScore_total (out := gradOut) (g := avgVec t d.labels) (lr := lr) (trees := trees) (row := row) (by
    intro tree htree
    obtain ⟨k, hk⟩ := List.getElem?_of_mem htree
    obtain ⟨s', r, h3, _, h5, h6⟩ := boostLoop_tree hl hk
    have htr := tracks_loop (grad_updateAdds lr _) (tracks_start d (avgVec t d.labels) lr) h3
    rw [regressionResiduals_ok h hgl htr] at h5
    cases h5
    have hw := residuals_wf (f := List.zipWith F64.sub) h htr.len
      (fun l v hl hv => by simp [h.label_len l hl, htr.width v hv, hgl])
    rw [htr.data, gradBoostTreeNew_ok hw ht] at h6
    cases h6
    obtain ⟨dd, hdd, ho, _⟩ := gradOut_ok .regression cfg.maxLevels hw hrow
    exact ⟨_, ho, by rw [leafOut_length _ hdd.label_len, hgl]⟩)
  exact ⟨s, h1, h2.trans hgl⟩

/-- **C42** (multi-class).  Training returns on every well-formed data set with at least one class; every row with enough
columns is then predicted. -/
theorem C42_multiClass [LawfulOrder F] [LawfulCount F] (d : DataSet F) (c t : Nat) (h : d.WF c t) (ht0 : 0 < t) (ht1 : t ≤ 2 ^ 53)
    (cfg : TreeConfig) (ht : cfg.numberOfClasses = t) (n : Nat) (lr : F) :
    ∃ m, multiClassTrain d cfg n lr = .ok m ∧
      ∀ row : List F, c ≤ row.length → ∃ k, k < t ∧ multiClassPredict m row = .ok (oneHot t k) := by
  have hgl : (List.replicate t (F64.one /. F64.ofNat t : F)).length = t := by simp
  obtain ⟨⟨f, trees⟩, hl⟩ := boostLoop_total (grad_updateAdds lr (List.replicate t (F64.one /. F64.ofNat t : F)).length) n
    (tracks_start d (List.replicate t (F64.one /. F64.ofNat t : F)) lr) (multiClass_step h ht hgl)
  have hfull := boostingLoop_mk (ex := { ensembleType := .multiClassBoost, loopExecutor := multiClassLoop })
    (determineInitialGuess_class h ht1 (by simp)) (n := n) (cfg := cfg) (lr := lr) hl
  have htrain : multiClassTrain d cfg n lr =
      .ok { trees := trees, initialGuess := List.replicate t (F64.one /. F64.ofNat t), learningRate := lr } :=
    train_of_full hfull
  refine ⟨_, htrain, fun row hrow => ?_⟩
  obtain ⟨s, h1, h2⟩ := rawScore_total (out := gradOut) (g := List.replicate t (F64.one /. F64.ofNat t : F)) (lr := lr)
    (trees := trees) (row := row) (by
    intro tree htree
    obtain ⟨k, hk⟩ := List.getElem?_of_mem htree
    obtain ⟨s', r, h3, _, h5, h6⟩ := boostLoop_tree hl hk
    have htr := tracks_loop (grad_updateAdds lr _) (tracks_start d (List.replicate t (F64.one /. F64.ofNat t : F)) lr) h3
    rw [multiClassResiduals_ok h hgl htr] at h5
    cases h5
    have hw := residuals_wf (f := fun l v => List.zipWith F64.sub l (calculateProbabilities v)) h htr.len
      (fun l v hl hv => by simp [h.label_len l hl, htr.width v hv, calculateProbabilities_length])
    rw [htr.data, gradBoostTreeNew_ok hw ht] at h6
    cases h6
    obtain ⟨dd, hdd, ho, _⟩ := gradOut_ok .multiClassClassification cfg.maxLevels hw hrow
    exact ⟨_, ho, by rw [leafOut_length _ hdd.label_len, hgl]⟩)
  rw [hgl] at h2
  rw [← predictInstance_eq] at h1
  obtain ⟨k, hk, _, hp⟩ := (C39_multiClass_one_hot
    { trees := trees, initialGuess := List.replicate t (F64.one /. F64.ofNat t), learningRate := lr } row s h1).1 (List.ne_nil_of_length_pos (by omega))
  exact ⟨k, by omega, by rw [h2] at hp; exact hp⟩

/-- **C42** (AMG). -/
theorem C42_amg [LawfulOrder F] [LawfulCount F] (d : DataSet F) (c t : Nat) (h : d.WF c t) (ht0 : 0 < t) (ht1 : t ≤ 2 ^ 53)
    (cfg : TreeConfig) (ht : cfg.numberOfClasses = t) (n : Nat) (lr : F) :
    ∃ m, amgTrain d cfg n lr = .ok m ∧
      ∀ row : List F, c ≤ row.length → ∃ k, k < t ∧ amgPredict m row = .ok (oneHot t k) := by
  have hgl : (List.replicate t (F64.one /. F64.ofNat t : F)).length = t := by simp
  have hu : UpdateAdds (fun t tree => amgUpdateDatasetLabels t tree lr) (amgOut t) lr
      (List.replicate t (F64.one /. F64.ofNat t : F)).length := by rw [hgl]; exact amg_updateAdds lr t
  obtain ⟨⟨f, trees⟩, hl⟩ := boostLoop_total hu n
    (tracks_start d (List.replicate t (F64.one /. F64.ofNat t : F)) lr) (amg_step h ht0 ht hgl)
  have hfull := boostingLoop_mk (ex := { ensembleType := .amgBoost, loopExecutor := amgLoop })
    (determineInitialGuess_class h ht1 (by simp)) (n := n) (cfg := cfg) (lr := lr) hl
  have htrain : amgTrain d cfg n lr =
      .ok { trees := trees, initialGuess := List.replicate t (F64.one /. F64.ofNat t), learningRate := lr } :=
    train_of_full hfull
  refine ⟨_, htrain, fun row hrow => ?_⟩
  obtain ⟨s, h1, h2⟩ := rawScore_total (out := amgOut t) (g := List.replicate t (F64.one /. F64.ofNat t : F)) (lr := lr)
    (trees := trees) (row := row) (by
    intro tree htree
    obtain ⟨k, hk⟩ := List.getElem?_of_mem htree
    obtain ⟨s', r, h3, _, h5, h6⟩ := boostLoop_tree hl hk
    have htr := tracks_loop hu (tracks_start d (List.replicate t (F64.one /. F64.ofNat t : F)) lr) h3
    rw [multiClassResiduals_ok h hgl htr] at h5
    cases h5
    have hw := residuals_wf (f := fun l v => List.zipWith F64.sub l (calculateProbabilities v)) h htr.len
      (fun l v hl hv => by simp [h.label_len l hl, htr.width v hv, calculateProbabilities_length])
    rw [htr.data, amgTreeNew_ok hw ht] at h6
    cases h6
    obtain ⟨dd, hdd, _, ho, _, _⟩ := amgOut_ok ht0 .multiClassClassification cfg.maxLevels hw hrow
    exact ⟨_, ho, by rw [amgVec_length, hgl]⟩)
  rw [hgl] at h2
  rw [← amgPredictInstance_eq] at h1
  obtain ⟨k, hk, _, hp⟩ := (C39_amg_one_hot { trees := trees, initialGuess := List.replicate t (F64.one /. F64.ofNat t), learningRate := lr }
    row s (by simpa using h1)).1 (List.ne_nil_of_length_pos (by omega))
  exact ⟨k, by omega, by rw [h2] at hp; exact hp⟩

example : ∃ m, regressionTrain d4 (exCfg 1) 7 (.fin (1 / 3)) = .ok m ∧
    ∀ row : List E, 2 ≤ row.length → ∃ p, regressionPredict m row = .ok p ∧ p.length = 1 :=
  C42_regression d4 2 1 d4_wf (exCfg 1) rfl 7 _

end Verif
