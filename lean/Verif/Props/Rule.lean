import Verif.Lemmas.Rule
import Verif.Props.Accuracy
import Verif.Props.DeepClass
import Verif.Props.FullFit
/-!
# C119: a rule of one question is learned at once
-/

set_option linter.unusedSectionVars false

namespace Verif

open Sample

variable {K : Type} [Field K] [LinearOrder K] [IsStrictOrderedRing K] [FloorSemiring K] [HasExp K]

theorem decides_lift {d : DataSet (Ext K)} {ls : List (List K)} (hls : d.labels = lift ls) {q : Question (Ext K)} :
    Decides q d.examples ↔ Decides q (d.featureRows.zip ls) := by
  rw [DataSet.examples, hls]
  exact ⟨Decides.of_map (fun _ _ _ _ h => liftV_injective h), fun h => h.map _⟩

theorem ties_lift {c : Nat} {d : DataSet (Ext K)} {ls : List (List K)} (hls : d.labels = lift ls) (h : d.TiesAgree c) : TiesOn c d.featureRows ls := by
  have := h.on
  rw [hls] at this
  exact TiesOn.of_map (f := liftV) (fun _ _ _ _ h => liftV_injective h) this

/-- **C119** (search).  If the answer to some question about a feature determines the labels, the gain that is reported is the whole variance of the
labels, and the question that is reported determines the labels, too, unless all labels are the same and there is nothing to ask. -/
theorem C119_search (d : DataSet (Ext K)) (c t : Nat) (h : d.WF c t) (ls : List (List K)) (hls : d.labels = lift ls) (ha : d.TiesAgree c)
    (q₀ : Question (Ext K)) (hq : q₀.column < c) (hd : Decides q₀ d.examples) :
    ∃ s, findBestSplit d t = .ok s ∧ s.gain = .fin (totalVar t ls) ∧
      ((∃ l ∈ d.labels, ∃ l' ∈ d.labels, l ≠ l') → s.question.column < c ∧ Decides s.question d.examples) := by
  have hd' := (decides_lift hls).mp hd
  refine ⟨_, findBestSplit_ok h, ?_, ?_⟩
  · obtain ⟨g, h1, h2, h3, h4, _⟩ := splitOf_exact h hls
    have h5 := h4 q₀ hq
    rw [reduction_of_decides hd'] at h5
    rw [h1, _root_.le_antisymm h3 h5]
  · rintro ⟨l, hl, l', hl', hne⟩
    cases hg : ((splitOf d t).gain ==. F64.zero) with
    | true =>
      exfalso
      rw [hls] at hl hl'
      obtain ⟨a, ha', rfl⟩ := mem_lift.mp hl
      obtain ⟨b, hb', rfl⟩ := mem_lift.mp hl'
      exact hne (congrArg _ (rule_const h hls hq hd' hg a ha' b hb'))
    | false => exact ⟨(splitOf_separates h hg).2.1, (decides_lift hls).mpr (rule_found h hls ha hq hd' hg)⟩

theorem rule_pure {L : Type} {leafOf : DataSet (Ext K) → L} {d : DataSet (Ext K)} {c t : Nat} (h : d.WF c t) {ls : List (List K)}
    (hls : d.labels = lift ls) (ha : d.TiesAgree c) {q₀ : Question (Ext K)} (hq : q₀.column < c) (hd : Decides q₀ d.examples) {m : Nat} (hm : 1 ≤ m) :
    (treeOf leafOf c t m d).leaves.length ≤ 2 ∧ ∀ e ∈ d.examples, ∀ e' ∈ d.examples,
      (treeOf leafOf c t m d).route e.1 = (treeOf leafOf c t m d).route e'.1 → e.2 = e'.2 := by
  obtain ⟨m, rfl⟩ : ∃ k, m = k + 1 := ⟨m - 1, by omega⟩
  have hd' := (decides_lift hls).mp hd
  constructor
  · rcases rule_tree (leafOf := leafOf) h hls ha hq hd' m with ⟨_, h1⟩ | ⟨_, _, h1⟩
    · rw [h1, TreeNode.leaves_leafNode]
      simp
    · rw [h1, TreeNode.leaves_new, TreeNode.leaves_leafNode, TreeNode.leaves_leafNode]
      simp
  · intro e he e' he' hr
    rw [examples_lift hls] at he he'
    obtain ⟨x, hx, rfl⟩ := List.mem_map.mp he
    obtain ⟨y, hy, rfl⟩ := List.mem_map.mp he'
    exact congrArg liftV (rule_route h hls ha hq hd' m x hx y hy hr)

/-- **C119** (trees).  Then the trees of all builders, however many levels from one on they are allowed, have at most two leaves, and examples in the
same leaf have the same label. -/
theorem C119_trees (d : DataSet (Ext K)) (c t : Nat) (h : d.WF c t) (ls : List (List K)) (hls : d.labels = lift ls) (ha : d.TiesAgree c)
    (q₀ : Question (Ext K)) (hq : q₀.column < c) (hd : Decides q₀ d.examples) (cfg : TreeConfig) (hc : cfg.numberOfClasses = t) 
    (hm : 1 ≤ cfg.maxLevels) (k : LeafOutputType) :
    (∃ tree, regressionTreeNew d cfg = .ok tree ∧ tree.leaves.length ≤ 2 ∧ ∀ e ∈ d.examples, ∀ e' ∈ d.examples,
      tree.route e.1 = tree.route e'.1 → e.2 = e'.2) ∧
    (∃ tree, gradBoostTreeNew d cfg k = .ok tree ∧ tree.leaves.length ≤ 2 ∧ ∀ e ∈ d.examples, ∀ e' ∈ d.examples,
      tree.route e.1 = tree.route e'.1 → e.2 = e'.2) ∧
    (∃ tree, amgTreeNew d cfg k = .ok tree ∧ tree.leaves.length ≤ 2 ∧ ∀ e ∈ d.examples, ∀ e' ∈ d.examples,
      tree.route e.1 = tree.route e'.1 → e.2 = e'.2) :=
  ⟨⟨_, regressionTreeNew_ok h hc, rule_pure h hls ha hq hd hm⟩, ⟨_, gradBoostTreeNew_ok h hc k, rule_pure h hls ha hq hd hm⟩,
    ⟨_, amgTreeNew_ok h hc k, rule_pure h hls ha hq hd hm⟩⟩

/-- **C119** (predictions).  The regression tree knows a question that determines the labels, and every row, seen or not, reaches a leaf in which there
is nothing but the label of the training examples that answer this question as the row does.  The training error is zero. -/
theorem C119_tree_predicts (d : DataSet (Ext K)) (c t : Nat) (h : d.WF c t) (ht0 : 0 < t) (ls : List (List K)) (hls : d.labels = lift ls)
    (ha : d.TiesAgree c) (q₀ : Question (Ext K)) (hq : q₀.column < c) (hd : Decides q₀ d.examples) (cfg : TreeConfig)
    (hc : cfg.numberOfClasses = t) (hm : 1 ≤ cfg.maxLevels) :
    ∃ tree q, regressionTreeNew d cfg = .ok tree ∧ q.column < c ∧ Decides q d.examples ∧
      (∀ row : List (Ext K), c ≤ row.length → ∃ leaf dd, findLeafNodeForData row tree = .ok leaf ∧ leaf.data = some dd ∧ dd.labels ≠ [] ∧
        ∀ l ∈ dd.labels, ∀ e ∈ d.examples, satisfies q e.1 = satisfies q row → l = e.2) ∧
      calculateOverallMse d tree = .ok (.fin 0) := by
  obtain ⟨m, hm'⟩ : ∃ k, cfg.maxLevels = k + 1 := ⟨cfg.maxLevels - 1, by omega⟩
  have hd' := (decides_lift hls).mp hd
  have herr : calculateOverallMse d (treeOf regLeaf c t cfg.maxLevels d) = .ok (.fin 0) := by
    have hlw := lift_width hls h.label_len
    have hll : ls.length = d.featureRows.length := by rw [← h.label_count, hls, lift_length]
    rw [overallMse_exact h ht0 hls cfg.maxLevels (fun row hr => (h.row_len row hr).ge) hls hlw hll h.rows_ne]
    congr 2
    rw [mseOf_eq_zero ht0 (by
      intro p hp
      obtain ⟨row, _, rfl⟩ := List.mem_map.mp hp
      exact meanVec_length _ _) hlw (by simp [hll]) (by simpa using h.rows_ne)]
    apply List.ext_getElem (by simp [hll])
    intro i h1 h2
    simp only [List.length_map] at h1
    rw [List.getElem_map]
    have hmem : (d.featureRows[i], ls[i]) ∈ d.featureRows.zip ls := by rw [List.mem_iff_getElem]; exact ⟨i, by simp [h1, h2], by simp⟩
    have := rule_alone (leafOf := regLeaf) h hls ha hq hd' m _ hmem
    rw [← hm'] at this
    exact mean_of_alone hmem (hlw _ (List.getElem_mem _)) this
  have hfind : ∀ row : List (Ext K), c ≤ row.length → ∃ leaf dd, findLeafNodeForData row (treeOf regLeaf c t cfg.maxLevels d) = .ok leaf ∧
      leaf.data = some dd ∧ dd.labels ≠ [] ∧ dd.labels = (d.examples.filter (fun e => decide ((treeOf regLeaf c t cfg.maxLevels d).route e.1 =
        (treeOf regLeaf c t cfg.maxLevels d).route row))).map Prod.snd := by
    intro row hrow
    obtain ⟨leaf, h1, h2⟩ := TreeNode.find_of_proper (treeOf_proper (leafOf := regLeaf) (c := c) (t := t) cfg.maxLevels d) (row := row)
      (fun p q hq => Nat.lt_of_lt_of_le (treeOf_questions cfg.maxLevels d h p q hq).1 hrow)
    obtain ⟨dd, rfl, hw, he⟩ := treeOf_leafAt cfg.maxLevels d h _ leaf h2
    exact ⟨_, dd, h1, rfl, hw.labels_ne, by rw [labels_of_examples hw, he]⟩
  rw [hm'] at herr hfind
  have hb := regressionTreeNew_ok h hc
  rw [hm'] at hb
  rcases rule_tree (leafOf := regLeaf) h hls ha hq hd' m with ⟨h1, _⟩ | ⟨hg, h1, h2⟩
  · refine ⟨_, q₀, hb, hq, hd, ?_, herr⟩
    intro row hrow
    obtain ⟨leaf, dd, f1, f2, f3, f4⟩ := hfind row hrow
    refine ⟨leaf, dd, f1, f2, f3, ?_⟩
    intro l hl e he _
    rw [f4] at hl
    obtain ⟨x, hx, rfl⟩ := List.mem_map.mp hl
    have hx' := (List.mem_filter.mp hx).1
    rw [examples_lift hls] at hx' he
    obtain ⟨y, hy, rfl⟩ := List.mem_map.mp hx'
    obtain ⟨z, hz, rfl⟩ := List.mem_map.mp he
    exact congrArg liftV (h1 _ (List.of_mem_zip hy).2 _ (List.of_mem_zip hz).2)
  · have hdq := (decides_lift hls).mpr h1
    refine ⟨_, (splitOf d t).question, hb, (splitOf_separates h hg).2.1, hdq, ?_, herr⟩
    intro row hrow
    obtain ⟨leaf, dd, f1, f2, f3, f4⟩ := hfind row hrow
    refine ⟨leaf, dd, f1, f2, f3, ?_⟩
    intro l hl e he hs
    rw [f4] at hl
    obtain ⟨x, hx, rfl⟩ := List.mem_map.mp hl
    rw [List.mem_filter, decide_eq_true_eq, h2, TreeNode.route_new, TreeNode.route_new] at hx
    refine hdq x hx.1 e he ?_
    rw [hs]
    obtain ⟨_, hr⟩ := hx
    cases hx : satisfies (splitOf d t).question x.1 <;> cases hx' : satisfies (splitOf d t).question row <;> simp [hx, hx'] at hr ⊢

/-- **C119** (accuracy).  If the labels are classes, the tree classifies every training row correctly. -/
theorem C119_accuracy (d : DataSet (Ext K)) (c t : Nat) (h : d.WF c t) (hot : ∀ l ∈ d.labels, ∃ k < t, l = oneHot t k) (ht1 : t ≤ 2 ^ 53)
    (hn : d.featureRows.length < 2 ^ 32) (ha : d.TiesAgree c) (q₀ : Question (Ext K)) (hq : q₀.column < c) (hd : Decides q₀ d.examples)
    (cfg : TreeConfig) (hc : cfg.numberOfClasses = t) (hm : 1 ≤ cfg.maxLevels) :
    ∃ tree, regressionTreeNew d cfg = .ok tree ∧ calculateAccuracy d tree = .ok (.fin 1) := by
  obtain ⟨ls, hls⟩ : ∃ ls : List (List K), d.labels = lift ls := let ⟨ls, h, _⟩ := labels_hot hot; ⟨ls, h⟩
  have hb := regressionTreeNew_ok h hc
  exact ⟨_, hb, accuracy_of_pure h hot ht1 hn hc hb (rule_pure h hls ha hq hd hm).2⟩

/-- **C119** (regression ensemble).  A regression ensemble of stumps approaches the labels of the training rows as fast as one of trees of any
depth: after `k` iterations the fraction `(1 - lr)^k` of the way from the mean is left, and the score is `(1 - lr)^(2k)` times the error of
the mean. -/
theorem C119_regression (d : DataSet (Ext K)) (c t : Nat) (h : d.WF c t) (ht0 : 0 < t) (ls : List (List K)) (hls : d.labels = lift ls)
    (ha : d.TiesAgree c) (q₀ : Question (Ext K)) (hq : q₀.column < c) (hd : Decides q₀ d.examples) (cfg : TreeConfig)
    (hc : cfg.numberOfClasses = t) (hm : 1 ≤ cfg.maxLevels) (k : Nat) (lr : K) :
    ∃ m, regressionTrain d cfg k (.fin lr) = .ok m ∧
      d.featureRows.mapM (regressionPredict m) = .ok (lift (ls.map (between t ((1 - lr) ^ k) (meanVec t ls)))) ∧
      regressionScore m d = .ok (.fin ((1 - lr) ^ (2 * k) * mseOf ls (ls.map (fun _ => meanVec t ls)))) := by
  refine ensemble_fits_of h ht0 hls hc ?_ k lr
  intro φ hw e he
  obtain ⟨m, hm'⟩ : ∃ k, cfg.maxLevels = k + 1 := ⟨cfg.maxLevels - 1, by omega⟩
  have hal := rule_alone (leafOf := gradLeaf .regression t) hw rfl (((ties_lift hls ha).map φ).map liftV) hq
    (((decides_lift hls).mp hd).map φ) m e he
  rw [← hm'] at hal
  exact mean_of_alone he (lift_width (ls := ls.map φ) rfl hw.label_len _ (List.of_mem_zip he).2) hal

theorem rule_sorts {L : Type} {leafOf : DataSet (Ext K) → L} {d : DataSet (Ext K)} {c t : Nat} {ks : List Nat} (hk : ∀ k ∈ ks, k < t)
    (hl : d.labels = ks.map (oneHot t)) (ha : d.TiesAgree c) {q₀ : Question (Ext K)} (hq : q₀.column < c) (hd : Decides q₀ d.examples) {m : Nat}
    (hm : 1 ≤ m) : SortsRows leafOf c t m d ks := by
  obtain ⟨m, rfl⟩ : ∃ k, m = k + 1 := ⟨m - 1, by omega⟩
  have h1 : TiesOn c d.featureRows ks := TiesOn.of_map (f := oneHot t) (classes_inj (K := K) hk) (by rw [← hl]; exact ha)
  have h2 : Decides q₀ (d.featureRows.zip ks) := Decides.of_map (f := oneHot t) (classes_inj (K := K) hk) (by rw [← hl]; exact hd)
  intro φ hw
  exact rule_alone (leafOf := leafOf) hw rfl ((h1.map φ).map liftV) hq (h2.map φ) m

/-- **C119** (classification ensembles).  Multi-class and AMG boosting with stumps: the raw scores of the training rows depend on nothing but the class, the
number of classes, of iterations and the learning rate, as with trees of any depth; for a positive learning rate one iteration is enough
to classify all training rows correctly. -/
theorem C119_classification (d : DataSet (Ext K)) (c t : Nat) (h : d.WF c t) (h2 : 2 ≤ t) (ht : t ≤ 2 ^ 53) (ks : List Nat) (hk : ∀ k ∈ ks, k < t)
    (hl : d.labels = ks.map (oneHot t)) (ha : d.TiesAgree c) (q₀ : Question (Ext K)) (hq : q₀.column < c) (hd : Decides q₀ d.examples) 
    (cfg : TreeConfig) (hc : cfg.numberOfClasses = t) (hm : 1 ≤ cfg.maxLevels) (n : Nat) (lr : K) :
    (∃ m, multiClassTrain d cfg n (.fin lr) = .ok m ∧
      d.featureRows.mapM (fun row => predictInstance row m.trees m.initialGuess m.learningRate) =
        .ok (lift (ks.map (fun k => hitMiss t k (deepScores t lr n).1 (deepScores t lr n).2))) ∧
      (0 < lr → 0 < n → d.featureRows.mapM (multiClassPredict m) = .ok d.labels ∧
        (d.featureRows.length ≤ 2 ^ 53 → multiClassScore m d = .ok (.fin 1)))) ∧
    (∃ m, amgTrain d cfg n (.fin lr) = .ok m ∧
      d.featureRows.mapM (fun row => amgPredictInstance row m.trees m.initialGuess m.learningRate m.initialGuess.length) =
        .ok (lift (ks.map (fun k => hitMiss t k (deepAmgScores t lr n).1 (deepAmgScores t lr n).2))) ∧
      (0 < lr → 0 < n → d.featureRows.mapM (amgPredict m) = .ok d.labels ∧
        (d.featureRows.length ≤ 2 ^ 53 → amgScore m d = .ok (.fin 1)))) :=
  ⟨multi_fits_of h h2 ht hk hl (rule_sorts hk hl ha hq hd hm) hc n lr, amg_fits_of h h2 ht hk hl (rule_sorts hk hl ha hq hd hm) hc n lr⟩

namespace Sample

/-- six rows of two classes; the second feature tells the classes apart, the first does not -/
def ruled6 : DataSet E :=
  { featureRows := [[1, 5], [2, 3], [3, 9], [4, 1], [5, 8], [6, 2]]
    labels := [[1, 0], [0, 1], [1, 0], [0, 1], [1, 0], [0, 1]]
    featureColumns := [[1, 2, 3, 4, 5, 6], [5, 3, 9, 1, 8, 2]] }

theorem ruled6_wf : ruled6.WF 2 2 := by constructor <;> decide +kernel

/-- the rule: is the second feature at least four? -/
def rule6 : Question E := { column := 1, value := 4 }

/-- four rows; the second feature decides the labels, the first has a tie that does not agree -/
def tied4 : DataSet E :=
  { featureRows := [[0, 0], [1, 0], [1, 1], [1, 1]]
    labels := [[0], [0], [1], [1]]
    featureColumns := [[0, 1, 1, 1], [0, 0, 1, 1]] }

end Sample

example : Decides rule6 ruled6.examples := by
  rw [Decides]
  decide +kernel
example : ruled6.TiesAgree 2 := by
  rw [DataSet.TiesAgree]
  decide +kernel
-- the question found asks for the smallest value on the side of the yes
example : (findBestSplit ruled6 2).map (fun s => (s.question.column, s.question.value, s.gain)) = .ok (1, 5, .fin (1 / 2)) := by decide +kernel
example : ∃ tree, regressionTreeNew ruled6 { useMultiThreading := false, numberOfClasses := 2, maxLevels := 1 } = .ok tree ∧
    calculateAccuracy ruled6 tree = .ok (.fin 1) :=
  C119_accuracy ruled6 2 2 ruled6_wf (by decide +kernel) (by norm_num) (by decide +kernel) (by rw [DataSet.TiesAgree]; decide +kernel) rule6
    (by decide) (by rw [Decides]; decide +kernel) _ rfl (by decide)
example : (do
    let m ← amgTrain ruled6 { useMultiThreading := false, numberOfClasses := 2, maxLevels := 1 } 1 (.fin (1 / 10))
    amgScore m ruled6) = .ok (.fin 1) := by decide +kernel

-- the condition on ties is needed: the second feature of these rows decides the labels, but a cut inside the tie of the first seems to be as good and
-- comes first, so the question asked decides nothing
example : Decides (F := E) { column := 1, value := 1 } tied4.examples := by
  rw [Decides]
  decide +kernel
example : (findBestSplit tied4 1).map (fun s => (s.question.column, s.question.value, s.gain)) = .ok (0, 1, .fin (1 / 4)) := by decide +kernel
example : (do
    let tree ← regressionTreeNew tied4 { useMultiThreading := false, numberOfClasses := 1, maxLevels := 1 }
    calculateOverallMse tied4 tree) = .ok (.fin (1 / 6)) := by decide +kernel
-- and a level is needed
example : (do
    let tree ← regressionTreeNew ruled6 { useMultiThreading := false, numberOfClasses := 2, maxLevels := 0 }
    calculateAccuracy ruled6 tree) = .ok (.fin (1 / 2)) := by decide +kernel

end Verif
