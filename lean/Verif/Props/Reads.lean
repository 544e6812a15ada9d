import Verif.Spec.Reads
import Verif.Props.Place
/-!
# C75: what a prediction reads

A lookup reads the features asked about on the path of the row, and nothing else.  It returns exactly if the row has these features.
-/

set_option linter.unusedSectionVars false

namespace Verif

variable {F : Type} [F64 F] {L : Type}

open Sample

section
variable {row row' : List F}

theorem solve_missing {q : Question F} (h : ¬q.column < row.length) : q.solve row = .error .index := by
  have : row[q.column]? = none := List.getElem?_eq_none (by omega)
  simp [Question.solve, idx, this]

theorem find_iff {tree : TreeNode F L} (hp : tree.Proper) :
    (HasAskedFeatures tree row → ∃ leaf, findLeafNodeForData row tree = .ok leaf) ∧
    (¬HasAskedFeatures tree row → findLeafNodeForData row tree = .error .index) := by
  induction hp with
  | leaf q l => exact ⟨fun _ => ⟨l, by simp [findLeafNodeForData, unwrap]⟩, fun h => absurd (by simp [HasAskedFeatures, TreeNode.questionsFor]) h⟩
  | node q a b _ _ iha ihb =>
    by_cases hq : q.column < row.length
    · have hs := solve_eq hq
      cases hsat : satisfies q row with
      | true =>
        have e : HasAskedFeatures (.mk q (some a) (some b) none) row ↔ HasAskedFeatures a row := by
          simp [HasAskedFeatures, TreeNode.questionsFor, hsat, hq]
        rw [e]
        simpa [findLeafNodeForData, hs, hsat] using iha
      | false =>
        have e : HasAskedFeatures (.mk q (some a) (some b) none) row ↔ HasAskedFeatures b row := by
          simp [HasAskedFeatures, TreeNode.questionsFor, hsat, hq]
        rw [e]
        simpa [findLeafNodeForData, hs, hsat] using ihb
    · refine ⟨fun h => absurd (h q (by simp [TreeNode.questionsFor])) hq, fun _ => ?_⟩
      simp [findLeafNodeForData, solve_missing hq]

theorem solve_same {q : Question F} (h : row[q.column]? = row'[q.column]?) : q.solve row = q.solve row' := by
  simp only [Question.solve, idx, h]

theorem satisfies_same {q : Question F} (h : row[q.column]? = row'[q.column]?) : satisfies q row = satisfies q row' := by
  simp only [satisfies, h]

theorem solve_satisfies {q : Question F} {b : Bool} (h : q.solve row = .ok b) : satisfies q row = b := by
  by_cases hq : q.column < row.length
  · rw [solve_eq hq] at h; exact Except.ok.inj h
  · rw [solve_missing hq] at h; cases h

end

section

theorem rawScore_same {out : List F → TreeNode F L → R (List F)} {g : List F} {lr : F} {trees : List (TreeNode F L)} {row row' : List F}
    (h : ∀ tree ∈ trees, out row tree = out row' tree) : rawScore out g lr trees row = rawScore out g lr trees row' := by
  simp only [rawScore]
  rw [mapM_congr (fun tree htree => by rw [h tree htree])]

theorem rawScore_error {out : List F → TreeNode F L → R (List F)} {g : List F} {lr : F} {trees : List (TreeNode F L)} {row : List F}
    {tree : TreeNode F L} (ht : tree ∈ trees) {e : Panic} (h : out row tree = .error e) : ∃ e, rawScore out g lr trees row = .error e := by
  obtain ⟨e', he⟩ := mapM_error (f := fun tree => do
    let o ← out row tree
    pure (o.map (fun x => lr *. x))) ht (e := e) (by rw [h]; rfl)
  exact ⟨e', by rw [rawScore, he]; rfl⟩

end

/-- **C75** (what is read).  Two rows that agree where the tree asks the first one: the same leaf, or the same panic.  For every
tree in which each node has two branches or is a leaf. -/
theorem C75_reads (tree : TreeNode F L) (row row' : List F) (h : SameWhereAsked tree row row')
    (hp : tree.Proper) : findLeafNodeForData row tree = findLeafNodeForData row' tree ∧ tree.route row = tree.route row' := by
  induction hp with
  | leaf q l => exact ⟨by simp [findLeafNodeForData], rfl⟩
  | node q a b _ _ iha ihb =>
    have hq := h q (by simp [TreeNode.questionsFor])
    have h1 := solve_same hq
    have h2 := satisfies_same hq
    by_cases hc : q.column < row.length
    · have hs := solve_eq hc
      cases hsat : satisfies q row with
      | true =>
        have := iha (fun q' hq' => h q' (by simp [TreeNode.questionsFor, hsat, hq']))
        rw [hsat] at h2 hs
        rw [hs] at h1
        simp [findLeafNodeForData, hs, ← h1, this.1, TreeNode.route, hsat, ← h2, this.2]
      | false =>
        have := ihb (fun q' hq' => h q' (by simp [TreeNode.questionsFor, hsat, hq']))
        rw [hsat] at h2 hs
        rw [hs] at h1
        simp [findLeafNodeForData, hs, ← h1, this.1, TreeNode.route, hsat, ← h2, this.2]
    · have hs := solve_missing hc
      have hsat : satisfies q row = false := by
        simp [satisfies, List.getElem?_eq_none (by omega : row.length ≤ q.column)]
      have := ihb (fun q' hq' => h q' (by simp [TreeNode.questionsFor, hsat, hq']))
      rw [hs] at h1
      rw [hsat] at h2
      simp [findLeafNodeForData, hs, ← h1, TreeNode.route, hsat, ← h2, this.2]

/-- **C75** (panics of a lookup).  In a trained tree the lookup of a row returns a leaf if the row has all features it is asked about, and
panics with an index out of bounds otherwise. -/
theorem C75_lookup (d : DataSet F) (s : SortedDataSet F) (cfg : TreeConfig) (k : LeafOutputType) (row : List F) :
    (∀ tree, regressionTreeNew d cfg = .ok tree → (HasAskedFeatures tree row → ∃ leaf, findLeafNodeForData row tree = .ok leaf) ∧
      (¬HasAskedFeatures tree row → findLeafNodeForData row tree = .error .index)) ∧
    (∀ tree, gradBoostTreeNew d cfg k = .ok tree → (HasAskedFeatures tree row → ∃ leaf, findLeafNodeForData row tree = .ok leaf) ∧
      (¬HasAskedFeatures tree row → findLeafNodeForData row tree = .error .index)) ∧
    (∀ tree, amgTreeNew d cfg k = .ok tree → (HasAskedFeatures tree row → ∃ leaf, findLeafNodeForData row tree = .ok leaf) ∧
      (¬HasAskedFeatures tree row → findLeafNodeForData row tree = .error .index)) ∧
    (∀ tree, regressionTreeNewPartitionNew s cfg = .ok tree → (HasAskedFeatures tree row → ∃ leaf, findLeafNodeForData row tree = .ok leaf) ∧
      (¬HasAskedFeatures tree row → findLeafNodeForData row tree = .error .index)) := by
  obtain ⟨h1, h2, h3, h4⟩ := C18_depth d s cfg k
  exact ⟨fun tree ht => find_iff (h1 tree ht).1, fun tree ht => find_iff (h2 tree ht).1, fun tree ht => find_iff (h3 tree ht).1,
    fun tree ht => find_iff (h4 tree ht).1⟩

/-- **C75** (ensembles).  Two rows that agree wherever a tree of the ensemble asks the first one get the same prediction (or the same panic). -/
theorem C75_ensembles (m : BoostModel F (GradBoostLeaf F)) (a : BoostModel F (AMGBoostLeaf F)) (row row' : List F) :
    ((∀ tree ∈ m.trees, tree.Proper ∧ SameWhereAsked tree row row') →
      regressionPredict m row = regressionPredict m row' ∧ multiClassPredict m row = multiClassPredict m row') ∧
    ((∀ tree ∈ a.trees, tree.Proper ∧ SameWhereAsked tree row row') → amgPredict a row = amgPredict a row') := by
  constructor
  · intro h
    have : predictInstance row m.trees m.initialGuess m.learningRate = predictInstance row' m.trees m.initialGuess m.learningRate := by
      simp only [predictInstance_eq]
      exact rawScore_same (fun tree ht => by simp only [gradOut, (C75_reads tree row row' (h tree ht).2 (h tree ht).1).1])
    exact ⟨this, by simp only [multiClassPredict, this]⟩
  · intro h
    have : amgPredictInstance row a.trees a.initialGuess a.learningRate a.initialGuess.length =
        amgPredictInstance row' a.trees a.initialGuess a.learningRate a.initialGuess.length := by
      simp only [amgPredictInstance_eq]
      exact rawScore_same (fun tree ht => by simp only [amgOut, (C75_reads tree row row' (h tree ht).2 (h tree ht).1).1])
    simp only [amgPredict, this]

section
variable [LawfulOrder F]

/-- the row, filled up to at least `c` entries -/
def filled (c : Nat) (row : List F) : List F := row ++ List.replicate c F64.zero

theorem filled_length (c : Nat) (row : List F) : c ≤ (filled c row).length := by simp [filled]

theorem filled_same {c : Nat} {row : List F} {tree : TreeNode F L} (h : HasAskedFeatures tree row) : SameWhereAsked tree row (filled c row) :=
  fun q hq => by rw [filled, List.getElem?_append_left (h q hq)]

/-- **C75** (panics of a regression ensemble).  A trained ensemble predicts a row exactly if the row has all features that its trees ask it
about.  In particular rows shorter than the training rows may be accepted, silently. -/
theorem C75_regression_panics (d : DataSet F) (c t : Nat) (h : d.WF c t) (cfg : TreeConfig) (hc : cfg.numberOfClasses = t) (n : Nat) (lr : F)
    (m : BoostModel F (GradBoostLeaf F)) (hm : regressionTrain d cfg n lr = .ok m) (row : List F) :
    (∃ p, regressionPredict m row = .ok p) ↔ ∀ tree ∈ m.trees, HasAskedFeatures tree row := by
  have ht := regression_trees_of h hc hm
  have hpr : ∀ tree ∈ m.trees, tree.Proper := by
    intro tree htree
    obtain ⟨r, _, rfl⟩ := ht tree htree
    exact treeOf_proper _ _
  constructor
  · rintro ⟨p, hp⟩ tree htree
    by_contra hno
    have := (find_iff (hpr tree htree)).2 hno
    obtain ⟨e, he⟩ := rawScore_error (out := gradOut) (g := m.initialGuess) (lr := m.learningRate) htree (e := .index)
      (show gradOut row tree = _ by simp only [gradOut, this]; rfl)
    rw [regressionPredict, predictInstance_eq, he] at hp
    cases hp
  · intro ha
    rw [((C75_ensembles m { trees := [], initialGuess := [], learningRate := lr } row (filled c row)).1
      (fun tree htree => ⟨hpr tree htree, filled_same (ha tree htree)⟩)).1]
    obtain ⟨m', hm', hp⟩ := C42_regression d c t h cfg hc n lr
    rw [hm] at hm'
    cases hm'
    obtain ⟨p, hp, _⟩ := hp _ (filled_length c row)
    exact ⟨p, hp⟩

/-- **C75** (panics of a multi-class ensemble). -/
theorem C75_multiClass_panics [LawfulCount F] (d : DataSet F) (c t : Nat) (h : d.WF c t) (ht0 : 0 < t) (ht1 : t ≤ 2 ^ 53) (cfg : TreeConfig)
    (hc : cfg.numberOfClasses = t) (n : Nat) (lr : F)
    (m : BoostModel F (GradBoostLeaf F)) (hm : multiClassTrain d cfg n lr = .ok m) (row : List F) :
    (∃ p, multiClassPredict m row = .ok p) ↔ ∀ tree ∈ m.trees, HasAskedFeatures tree row := by
  have ht := multiClass_trees_of h hc hm
  have hpr : ∀ tree ∈ m.trees, tree.Proper := by
    intro tree htree
    obtain ⟨r, _, rfl⟩ := ht tree htree
    exact treeOf_proper _ _
  constructor
  · rintro ⟨p, hp⟩ tree htree
    by_contra hno
    have := (find_iff (hpr tree htree)).2 hno
    obtain ⟨e, he⟩ := rawScore_error (out := gradOut) (g := m.initialGuess) (lr := m.learningRate) htree (e := .index)
      (show gradOut row tree = _ by simp only [gradOut, this]; rfl)
    rw [multiClassPredict, predictInstance_eq, he] at hp
    cases hp
  · intro ha
    rw [((C75_ensembles m { trees := [], initialGuess := [], learningRate := lr } row (filled c row)).1
      (fun tree htree => ⟨hpr tree htree, filled_same (ha tree htree)⟩)).2]
    obtain ⟨m', hm', hp⟩ := C42_multiClass d c t h ht0 ht1 cfg hc n lr
    rw [hm] at hm'
    cases hm'
    obtain ⟨k, _, hp⟩ := hp _ (filled_length c row)
    exact ⟨_, hp⟩

/-- **C75** (panics of an AMG ensemble). -/
theorem C75_amg_panics [LawfulCount F] (d : DataSet F) (c t : Nat) (h : d.WF c t) (ht0 : 0 < t) (ht1 : t ≤ 2 ^ 53) (cfg : TreeConfig)
    (hc : cfg.numberOfClasses = t) (n : Nat) (lr : F)
    (m : BoostModel F (AMGBoostLeaf F)) (hm : amgTrain d cfg n lr = .ok m) (row : List F) :
    (∃ p, amgPredict m row = .ok p) ↔ ∀ tree ∈ m.trees, HasAskedFeatures tree row := by
  have ht := amg_trees_of h hc hm
  have hpr : ∀ tree ∈ m.trees, tree.Proper := by
    intro tree htree
    obtain ⟨r, _, rfl⟩ := ht tree htree
    exact treeOf_proper _ _
  constructor
  · rintro ⟨p, hp⟩ tree htree
    by_contra hno
    have := (find_iff (hpr tree htree)).2 hno
    obtain ⟨e, he⟩ := rawScore_error (out := amgOut m.initialGuess.length) (g := m.initialGuess) (lr := m.learningRate) htree (e := .index)
      (show amgOut _ row tree = _ by simp only [amgOut, this]; rfl)
    simp only [amgPredict, amgPredictInstance_eq, he] at hp
    cases hp
  · intro ha
    rw [(C75_ensembles { trees := [], initialGuess := [], learningRate := lr } m row (filled c row)).2
      (fun tree htree => ⟨hpr tree htree, filled_same (ha tree htree)⟩)]
    obtain ⟨m', hm', hp⟩ := C42_amg d c t h ht0 ht1 cfg hc n lr
    rw [hm] at hm'
    cases hm'
    obtain ⟨k, _, hp⟩ := hp _ (filled_length c row)
    exact ⟨_, hp⟩

/-- **C75** (surplus features).  Entries beyond the columns of the training data are never read. -/
theorem C75_surplus (d : DataSet F) (c t : Nat) (h : d.WF c t) (cfg : TreeConfig) (hc : cfg.numberOfClasses = t) (n : Nat) (lr : F)
    (row extra : List F) (hrow : c ≤ row.length) :
    (∀ m, regressionTrain d cfg n lr = .ok m → regressionPredict m (row ++ extra) = regressionPredict m row) ∧
    (∀ m, multiClassTrain d cfg n lr = .ok m → multiClassPredict m (row ++ extra) = multiClassPredict m row) ∧
    (∀ m, amgTrain d cfg n lr = .ok m → amgPredict m (row ++ extra) = amgPredict m row) := by
  apply C58_ensembles d c t h cfg hc n lr _ _ (by simp; omega) hrow
  intro j v x y hv hx hy
  obtain ⟨⟨r, hr, hrv⟩, _⟩ := hv
  have hj : j < c := by rw [← h.row_len r hr]; exact (List.getElem?_eq_some_iff.mp hrv).1
  rw [List.getElem?_append_left (by omega), hy] at hx
  cases hx
  rfl

end

/-! ## cases that meet the hypotheses -/

-- the tree of `d4` asks about the first column only: a row without a second feature is accepted, an empty row is not
example : (do
    let m ← regressionTrain d4 (exCfg 1) 2 (.fin (1 / 2))
    pure (m.trees.map (fun t => (t.questionsFor [2]).map Question.column), (regressionPredict m [2]).isOk, (regressionPredict m []).isOk)) =
    (.ok ([[0], [0]], true, false) : R (List (List Nat) × Bool × Bool)) := by decide +kernel

example : SameWhereAsked (.mk { column := 0, value := 2 } (some (.mk { column := 1, value := 5 } none none (some 1)))
    (some (.mk { column := 0, value := 5 } none none (some 2))) none : TreeNode E Nat) [3, 7] [3, 8, 9] := by
  intro q hq
  have : q ∈ [({ column := 0, value := 2 } : Question E)] := by
    have e : (.mk { column := 0, value := 2 } (some (.mk { column := 1, value := 5 } none none (some 1)))
      (some (.mk { column := 0, value := 5 } none none (some 2))) none : TreeNode E Nat).questionsFor [3, 7] = [{ column := 0, value := 2 }] := by
      decide +kernel
    rw [← e]; exact hq
  rw [List.mem_singleton.mp this]
  rfl

end Verif
