import Verif.Props.SingleTree
import Verif.Props.Growth
/-!
# C66: with two classes AMG boosting is multi-class boosting

An AMG leaf keeps only the largest output and its class and spreads the opposite over the other classes.  With two classes nothing is
lost: in exact arithmetic the two ensembles grow the same trees and give the same scores.
-/

set_option linter.unusedSectionVars false

namespace Verif

variable {K : Type} [Field K] [LinearOrder K] [IsStrictOrderedRing K] [FloorSemiring K] [HasExp K]

open Sample

section
variable {d : DataSet (Ext K)} {c : Nat} {ls : List (List K)} {cfg : TreeConfig} {lr : K}

/-- the questions and ways do not depend on what is stored in the leaves -/
theorem treeOf_leaf_irrelevant {L L' : Type} {leafOf : DataSet (Ext K) → L} {leafOf' : DataSet (Ext K) → L'} {t : Nat} (m : Nat) (d : DataSet (Ext K)) :
    (∀ p, (treeOf leafOf' c t m d).questionAt p = (treeOf leafOf c t m d).questionAt p) ∧
      ∀ row, (treeOf leafOf' c t m d).route row = (treeOf leafOf c t m d).route row := by
  have h1 := treeOf_mapLeaves (c := c) (t := t) (leafOf := leafOf) (fun _ => ()) m d
  have h2 := treeOf_mapLeaves (c := c) (t := t) (leafOf := leafOf') (fun _ => ()) m d
  have h3 : (treeOf leafOf c t m d).mapLeaves (fun _ => ()) = (treeOf leafOf' c t m d).mapLeaves (fun _ => ()) := h1.trans h2.symm
  refine ⟨fun p => ?_, fun row => ?_⟩
  · rw [← TreeNode.questionAt_mapLeaves (fun _ => ()), ← h3, TreeNode.questionAt_mapLeaves]
  · rw [← TreeNode.route_mapLeaves (fun _ => ()), ← h3, TreeNode.route_mapLeaves]

/-- two entries that are opposite -/
def Opposite (v : List K) : Prop := v.length = 2 ∧ v.getD 1 0 = -v.getD 0 0

theorem opposite_of_sum {v : List K} (hv : v.length = 2) (hs : v.sum = 0) : Opposite v := by
  refine ⟨hv, ?_⟩
  match v, hv with
  | [a, b], _ =>
    simp at hs ⊢
    linarith

theorem keepTop_opposite {v : List K} (h : Opposite v) : keepTop 2 v = v := by
  obtain ⟨h1, h2⟩ := h
  match v, h1 with
  | [a, b], _ =>
    simp at h2
    subst h2
    have hk := (findMax_top (v := [a, -a]) (by simp)).1
    simp only [keepTop]
    generalize (findMaxValueAndIndex (liftV [a, -a])).2 = k at hk
    have : k = 0 ∨ k = 1 := by simp at hk; omega
    have h1 : (2 : K) - 1 = 1 := by norm_num
    rcases this with rfl | rfl
    · simp [amgField, h1]
    · simp [amgField, h1]

theorem classLeaf_opposite {rs : List (List K)} (h : ∀ r ∈ rs, Opposite r) : Opposite (classLeaf 2 rs) := by
  refine ⟨classLeaf_length _ _, ?_⟩
  have h1 : target rs 1 = (target rs 0).map (fun x => -x) := by
    simp only [target, List.map_map]
    exact List.map_congr_left (fun r hr => (h r hr).2)
  have h2 : ∀ l : List K, (l.map (fun x => -x)).sum = -l.sum := by
    intro l
    induction l with
    | nil => simp
    | cons x l ih => simp only [List.map_cons, List.sum_cons, ih]; ring
  have h3 : (((target rs 0).map (fun x => -x)).map (fun x => |x| * (1 - |x|))).sum = ((target rs 0).map (fun x => |x| * (1 - |x|))).sum := by
    simp only [List.map_map, Function.comp_def, abs_neg]
  rw [classLeaf, getD_range (by omega), getD_range (by omega), h1, h2, h3]
  ring

theorem probResid_opposite (hh : ∀ l ∈ ls, ∃ k < 2, l = hot 2 k) {ps : List (List K)} (hp : ∀ p ∈ ps, p.length = 2) :
    ∀ r ∈ probResid ls ps, Opposite r := by
  intro r hr
  obtain ⟨i, hi, rfl⟩ := List.getElem_of_mem hr
  simp only [probResid, List.getElem_zipWith]
  obtain ⟨k, hk, he⟩ := hh _ (List.getElem_mem (show i < ls.length by simp [probResid] at hi; omega))
  have hpi := hp _ (List.getElem_mem (show i < ps.length by simp [probResid] at hi; omega))
  rw [he]
  exact opposite_of_sum (by simp [hot_length, softmax_length, hpi]) (residual_sum hk hpi)

theorem amgOutAt_two (m : Nat) {rs : List (List K)} (h : ∀ r ∈ rs, Opposite r) (row : List (Ext K)) :
    amgOutAt c 2 m d rs row = classOut c 2 m d rs row := by
  have hr := (treeOf_leaf_irrelevant (c := c) (t := 2) (leafOf := gradLeaf .multiClassClassification 2)
    (leafOf' := amgLeaf .multiClassClassification 2) m (withLabels d rs)).2
  have hm := mates_relabel hr d.featureRows rs id row
  rw [List.map_id, List.map_id] at hm
  rw [amgOutAt, hm, keepTop_opposite]
  exact classLeaf_opposite (fun r hr => h r (mates_mem r hr))

/-- two runs of the loop side by side -/
theorem loop_two (h : d.WF c 2) (hls : d.labels = lift ls) (hh : ∀ l ∈ ls, ∃ k < 2, l = hot 2 k) (hc : cfg.numberOfClasses = 2) (n : Nat) :
    ∃ s s' ps, boostLoop multiClassResiduals (fun d => gradBoostTreeNew d cfg .multiClassClassification)
        (fun t tree => updateDatasetLabels t tree (.fin lr)) n (startState d (liftV (List.replicate 2 (1 / ((2 : Nat) : K))))) = .ok s ∧
      boostLoop multiClassResiduals (fun d => amgTreeNew d cfg .multiClassClassification)
        (fun t tree => amgUpdateDatasetLabels t tree (.fin lr)) n (startState d (liftV (List.replicate 2 (1 / ((2 : Nat) : K))))) = .ok s' ∧
      Finite gradOut d (liftV (List.replicate 2 (1 / ((2 : Nat) : K)))) lr 2 s ps ∧
      Finite (amgOut 2) d (liftV (List.replicate 2 (1 / ((2 : Nat) : K)))) lr 2 s' ps ∧
      List.Forall₂ (fun tree tree' => ∃ rs : List (List K), (withLabels d rs).WF c 2 ∧ (∀ r ∈ rs, Good r) ∧ (∀ r ∈ rs, Opposite r) ∧
        tree = classTree c 2 cfg.maxLevels d rs ∧ tree' = amgTreeAt c 2 cfg.maxLevels d rs) s.2 s'.2 := by
  have hg : (liftV (List.replicate 2 (1 / ((2 : Nat) : K))) : List (Ext K)).length = 2 := by simp [liftV]
  induction n with
  | zero =>
    exact ⟨_, _, _, rfl, rfl, (class_start (t := 2) (m := 0) (ls := ls) (leafOf := fun _ => (⟨none⟩ : GradBoostLeaf (Ext K))) (c := c)
      (out := gradOut) _ (by simp)).finite, (class_start (t := 2) (m := 0) (ls := ls)
      (leafOf := fun _ => (⟨none, none⟩ : AMGBoostLeaf (Ext K))) (c := c) (out := amgOut 2) _ (by simp)).finite, .nil⟩
  | succ n ih =>
    obtain ⟨s, s', ps, h1, h2, h3, h4, h5⟩ := ih
    obtain ⟨s1, e1, f1, g1⟩ := class_step_explicit h le_rfl hls hh hc hg h3
    obtain ⟨s1', e1', f1', g1'⟩ := amg_step_explicit h le_rfl hls hh hc hg h4
    have hop := probResid_opposite hh h3.width
    refine ⟨s1, s1', _, by rw [boostLoop_succ, h1]; exact e1, by rw [boostLoop_succ, h2]; exact e1', f1, ?_, ?_⟩
    · have : amgOutAt c 2 cfg.maxLevels d (probResid ls ps) = classOut c 2 cfg.maxLevels d (probResid ls ps) :=
        funext (amgOutAt_two _ hop)
      rw [this] at f1'
      exact f1'
    · rw [g1, g1']
      exact List.rel_append h5 (.cons ⟨_, probResid_wf h hls h3.len h3.width, probResid_good le_rfl hh h3.width, hop, rfl, rfl⟩ .nil)

end

/-- **C66**.  One-hot labels of two classes, any number of iterations and any learning rate: the trees of the two ensembles ask the same
questions, and the scores and the predicted class of every row are the same. -/
theorem C66_two_classes (d : DataSet (Ext K)) (c : Nat) (h : d.WF c 2) (hot : ∀ l ∈ d.labels, ∃ k < 2, l = oneHot 2 k) (cfg : TreeConfig)
    (hc : cfg.numberOfClasses = 2) (n : Nat) (lr : K) :
    ∃ m m', multiClassTrain d cfg n (.fin lr) = .ok m ∧ amgTrain d cfg n (.fin lr) = .ok m' ∧
      List.Forall₂ (fun tree tree' => ∀ p, TreeNode.questionAt tree' p = TreeNode.questionAt tree p) m.trees m'.trees ∧
      ∀ row : List (Ext K), c ≤ row.length →
        (∃ v : List K, v.length = 2 ∧ predictInstance row m.trees m.initialGuess m.learningRate = .ok (liftV v) ∧
          amgPredictInstance row m'.trees m'.initialGuess m'.learningRate m'.initialGuess.length = .ok (liftV v)) ∧
        multiClassPredict m row = amgPredict m' row := by
  obtain ⟨ls, hls, hh⟩ := labels_hot hot
  obtain ⟨s, s', ps, h1, h2, h3, h4, h5⟩ := loop_two (lr := lr) h hls hh hc n
  have hg : (liftV (List.replicate 2 (1 / ((2 : Nat) : K))) : List (Ext K)).length = 2 := by simp [liftV]
  refine ⟨_, _, multi_train h le_rfl (by norm_num) h1, amg_train h le_rfl (by norm_num) h2, ?_, ?_⟩
  · refine h5.imp ?_
    rintro tree tree' ⟨rs, _, _, _, rfl, rfl⟩
    exact (treeOf_leaf_irrelevant _ _).1
  · intro row hrow
    have : ∃ outs : List (List K), List.Forall₂ (fun tree o => gradOut row tree = .ok (liftV o) ∧ o.length = 2) s.2 outs ∧
        List.Forall₂ (fun tree o => amgOut 2 row tree = .ok (liftV o) ∧ o.length = 2) s'.2 outs := by
      revert h5
      generalize s.2 = ts, s'.2 = ts'
      intro h5
      induction h5 with
      | nil => exact ⟨[], .nil, .nil⟩
      | @cons tree tree' ts ts' hx _ ih =>
        obtain ⟨outs, k1, k2⟩ := ih
        obtain ⟨rs, hr, hgood, hop, rfl, rfl⟩ := hx
        refine ⟨classOut c 2 cfg.maxLevels d rs row :: outs, .cons ⟨?_, classLeaf_length _ _⟩ k1, .cons ⟨?_, classLeaf_length _ _⟩ k2⟩
        · exact gradOut_class_exact cfg.maxLevels hr (rs := rs) rfl hgood hrow
        · rw [← amgOutAt_two _ hop]
          exact amgOut_class_exact le_rfl cfg.maxLevels hr hgood hrow
    obtain ⟨outs, k1, k2⟩ := this
    have p1 := rawScore_exact (lr := lr) (g := List.replicate 2 (1 / ((2 : Nat) : K))) (by simp) k1
    have p2 := rawScore_exact (lr := lr) (g := List.replicate 2 (1 / ((2 : Nat) : K))) (by simp) k2
    rw [← predictInstance_eq] at p1
    rw [← amgPredictInstance_eq] at p2
    refine ⟨⟨_, by simp, p1, by rw [hg]; exact p2⟩, ?_⟩
    rw [multiClassPredict, amgPredict]
    simp only [hg, p1, p2, R.ok_bind]

/-- **C66** (accuracy).  Hence the same accuracy on every test set. -/
theorem C66_accuracy (d : DataSet (Ext K)) (c : Nat) (h : d.WF c 2) (hot : ∀ l ∈ d.labels, ∃ k < 2, l = oneHot 2 k) (cfg : TreeConfig)
    (hc : cfg.numberOfClasses = 2) (n : Nat) (lr : K) (test : DataSet (Ext K)) (hrows : ∀ row ∈ test.featureRows, c ≤ row.length) :
    ∃ m m', multiClassTrain d cfg n (.fin lr) = .ok m ∧ amgTrain d cfg n (.fin lr) = .ok m' ∧
      multiClassPredictAll m test = amgPredictAll m' test ∧ multiClassScore m test = amgScore m' test := by
  obtain ⟨m, m', h1, h2, _, h3⟩ := C66_two_classes d c h hot cfg hc n lr
  have hall : multiClassPredictAll m test = amgPredictAll m' test := by
    simp only [multiClassPredictAll, amgPredictAll, range_mapM]
    exact mapM_congr (fun row hr => (h3 row (hrows row hr)).2)
  refine ⟨m, m', h1, h2, hall, ?_⟩
  rw [multiClassScore, amgScore, hall]

/-- four rows of two classes; the second feature does not separate them -/
def Sample.binary : DataSet E :=
  { featureRows := [[3, 1], [1, 4], [4, 1], [2, 5]], labels := [[1, 0], [0, 1], [0, 1], [1, 0]], featureColumns := [[3, 1, 4, 2], [1, 4, 1, 5]] }

theorem Sample.binary_wf : binary.WF 2 2 := by constructor <;> decide +kernel
theorem Sample.binary_hot : ∀ l ∈ binary.labels, ∃ k < 2, l = oneHot 2 k := by decide +kernel

-- the scores after two iterations, for both ensembles
example : (do
    let cfg : TreeConfig := { useMultiThreading := true, numberOfClasses := 2, maxLevels := 1 }
    let m ← multiClassTrain binary cfg 2 (.fin (1 / 2))
    let m' ← amgTrain binary cfg 2 (.fin (1 / 2))
    pure (← predictInstance [2, 5] m.trees m.initialGuess m.learningRate, ← amgPredictInstance [2, 5] m'.trees m'.initialGuess m'.learningRate 2,
      ← multiClassPredictAll m binary)) =
    (.ok ([.fin (34843 / 40776), .fin (5933 / 40776)], [.fin (34843 / 40776), .fin (5933 / 40776)], [[1, 0], [0, 1], [0, 1], [1, 0]]) : R (List E × List E × List (List E))) := by decide +kernel
-- with three classes the ensembles differ
example : (do
    let cfg : TreeConfig := { useMultiThreading := true, numberOfClasses := 3, maxLevels := 1 }
    let m ← multiClassTrain d5 cfg 1 (.fin (1 / 2))
    let m' ← amgTrain d5 cfg 1 (.fin (1 / 2))
    pure (← predictInstance [3, 1] m.trees m.initialGuess m.learningRate, ← amgPredictInstance [3, 1] m'.trees m'.initialGuess m'.learningRate 3)) =
    (.ok ([.fin (5 / 6), .fin (-1 / 6), .fin (1 / 3)], [.fin (5 / 6), .fin (1 / 12), .fin (1 / 12)]) : R (List E × List E)) := by decide +kernel

end Verif
