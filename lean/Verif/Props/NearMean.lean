import Verif.Lemmas.NearMean
import Verif.Props.NearPerm
/-!
# C123: averages of integer labels are rounded once
-/

set_option linter.unusedSectionVars false

namespace Verif

open B64 Sample

section
variable [B64Env]

/-- **C123** (averages).  The averages computed from integer labels whose sums are exact, by either of the two functions, are the exact means, rounded
once: no binary64 number is nearer, and each lies between the entries of two of the labels. -/
theorem C123_average (labels : List (List B64)) (t b : ℕ) (hne : labels ≠ []) (hw : ∀ l ∈ labels, l.length = t) (hI : IntLabels b labels)
    (hf : ExactSums labels.length b) :
    ∃ a, calculateAverageVector labels = .ok a ∧ calculateAverageLabelVector labels = .ok a ∧ RoundedMeans t labels a ∧ NearestMeans t labels a ∧ BetweenLabels t labels a := by
  have h := avgVec_rounded hI hf hw hne
  exact ⟨_, calculateAverageVector_ok hne hw, calculateAverageVector_ok hne hw, h, h.nearest hI hf hne, h.between hI hne⟩

/-- **C123** (predictions).  So are the averages a regression tree predicts, of the training labels that end in the same leaf. -/
theorem C123_predictions (d : DataSet B64) (c t b : ℕ) (h : d.WF c t) (hI : IntLabels b d.labels) (hf : ExactSums d.labels.length b)
    (cfg : TreeConfig) (ht : cfg.numberOfClasses = t) (tree : TreeNode B64 (RegressionLeaf B64)) (hb : regressionTreeNew d cfg = .ok tree)
    (row : List B64) (hrow : c ≤ row.length) :
    ∃ dd a, findLeafNodeForData row tree = .ok { data := some dd } ∧ calculateAverageLabelVector dd.labels = .ok a ∧
      RoundedMeans t (companions d tree row) a ∧ NearestMeans t (companions d tree row) a ∧ BetweenLabels t (companions d tree row) a := by
  obtain ⟨hI2, hf2⟩ := companions_int h hI hf tree row
  obtain ⟨dd, hfd, hwd, hl⟩ := lookup_companions d c t h cfg ht tree hb row hrow
  rw [← hl] at hI2 hf2 ⊢
  obtain ⟨a, _, ha, h3⟩ := C123_average dd.labels t b hwd.labels_ne hwd.label_len hI2 hf2
  exact ⟨dd, a, hfd, ha, h3⟩

/-- the labels of the examples that take the path -/
private theorem filter_int {d : DataSet B64} {c t b : ℕ} (h : d.WF c t) (hI : IntLabels b d.labels) (hf : ExactSums d.labels.length b)
    (p : List B64 × List B64 → Bool) : IntLabels b ((d.examples.filter p).map Prod.snd) ∧ ExactSums ((d.examples.filter p).map Prod.snd).length b := by
  constructor
  · intro l hl
    obtain ⟨e, he, rfl⟩ := List.mem_map.mp hl
    exact hI _ (examples_snd_mem (List.mem_filter.mp he).1)
  · refine hf.fewer ?_
    rw [List.length_map]
    refine (List.length_filter_le _ _).trans ?_
    simp [DataSet.examples, h.label_count]

/-- **C123** (leaf outputs).  So are the averages stored in the leaves of a regression boosting tree, of the residuals it was trained on. -/
theorem C123_boost_leaf (d : DataSet B64) (c t b : ℕ) (h : d.WF c t) (hI : IntLabels b d.labels) (hf : ExactSums d.labels.length b)
    (cfg : TreeConfig) (ht : cfg.numberOfClasses = t) (tree : TreeNode B64 (GradBoostLeaf B64))
    (hb : gradBoostTreeNew d cfg .regression = .ok tree) (p : List Bool) (leaf : GradBoostLeaf B64) (hl : tree.leafAt p = some leaf) :
    ∃ a, leaf.leafOutput = some a ∧ RoundedMeans t ((d.examples.filter (fun e => decide (tree.route e.1 = p))).map Prod.snd) a ∧
      NearestMeans t ((d.examples.filter (fun e => decide (tree.route e.1 = p))).map Prod.snd) a ∧
      BetweenLabels t ((d.examples.filter (fun e => decide (tree.route e.1 = p))).map Prod.snd) a := by
  obtain ⟨hI2, hf2⟩ := filter_int h hI hf (fun e => decide (tree.route e.1 = p))
  rw [gradBoostTreeNew_ok h ht] at hb
  cases hb
  obtain ⟨dd, rfl, hw, hex⟩ := treeOf_leafAt _ d h p leaf hl
  rw [← hex, examples_snd hw] at hI2 hf2 ⊢
  obtain ⟨a, ha, _, h3⟩ := C123_average dd.labels t b hw.labels_ne hw.label_len hI2 hf2
  rw [calculateAverageVector_ok hw.labels_ne hw.label_len] at ha
  cases ha
  exact ⟨_, rfl, h3⟩

/-- **C123** (shares of classes).  With up to `2^51` one-hot labels the computed averages order the classes exactly as their numbers of examples do; an
average is 0 exactly for a class without examples and 1 exactly for a class that has them all. -/
theorem C123_shares (labels : List (List B64)) (t : ℕ) (hne : labels ≠ []) (hot : ∀ l ∈ labels, ∃ k < t, l = oneHot t k)
    (hn : labels.length ≤ 2 ^ 51) : ∃ a, calculateAverageVector labels = .ok a ∧ Shares t labels a := by
  have hw : ∀ l ∈ labels, l.length = t := by
    intro l hl
    obtain ⟨k, _, rfl⟩ := hot l hl
    simp [oneHot]
  have h := avgVec_rounded (intLabels_hot hot) ⟨le_rfl, by omega⟩ hw hne
  exact ⟨_, calculateAverageVector_ok hne hw, h.shares hne hot hn⟩

/-- **C123** (classes of averaging trees).  A boosting tree that stores a class and is trained on one-hot labels with averaging leaves stores, in every
leaf, the first of the most frequent classes among its examples. -/
theorem C123_amg_class (d : DataSet B64) (c t : ℕ) (h : d.WF c t) (ht0 : 0 < t) (hot : ∀ l ∈ d.labels, ∃ k < t, l = oneHot t k)
    (hn : d.labels.length ≤ 2 ^ 51) (cfg : TreeConfig) (ht : cfg.numberOfClasses = t) (tree : TreeNode B64 (AMGBoostLeaf B64))
    (hb : amgTreeNew d cfg .regression = .ok tree) (p : List Bool) (leaf : AMGBoostLeaf B64) (hl : tree.leafAt p = some leaf) :
    ∃ k, leaf.cls = some k ∧ FirstMajority ((d.examples.filter (fun e => decide (tree.route e.1 = p))).map Prod.snd) t k := by
  obtain ⟨out, cls, mv, rfl, rfl, hcls, hmax, _⟩ := C40_amg_leaf d c t h ht0 cfg ht .regression tree hb p leaf hl
  refine ⟨cls, rfl, ?_⟩
  set labels := (d.examples.filter (fun e => decide (tree.route e.1 = p))).map Prod.snd with hlab
  have hmem : ∀ l ∈ labels, l ∈ d.labels := by
    intro l hl
    obtain ⟨e, he, rfl⟩ := List.mem_map.mp hl
    exact examples_snd_mem (List.mem_filter.mp he).1
  have hne : labels ≠ [] := by
    have hb' := hb
    rw [amgTreeNew_ok h ht] at hb'
    have hb' := Except.ok.inj hb'
    rw [← hb'] at hl hlab
    obtain ⟨dd, _, hw, hex⟩ := treeOf_leafAt _ d h p _ hl
    rw [hlab, ← hex, examples_snd hw]
    exact hw.labels_ne
  have hot' : ∀ l ∈ labels, ∃ k < t, l = oneHot t k := fun l hl => hot l (hmem l hl)
  have hw : ∀ l ∈ labels, l.length = t := fun l hl => h.label_len l (hmem l hl)
  have hle : labels.length ≤ 2 ^ 51 := by
    refine le_trans ?_ hn
    rw [hlab, List.length_map]
    refine (List.length_filter_le _ _).trans ?_
    simp [DataSet.examples, h.label_count]
  have hR := avgVec_rounded (intLabels_hot hot') ⟨le_rfl, by omega⟩ hw hne
  rw [avgVec_range hw] at hR
  change RoundedMeans t labels (leafValue .regression t labels) at hR
  have hS := hR.shares hne hot' hle
  have hget : ∀ j < t, (leafValue .regression t labels)[j]? = some ((leafValue .regression t labels).getD j F64.zero) := by
    intro j hj
    have : j < (leafValue .regression t labels).length := by rw [hR.length]; exact hj
    rw [List.getD, List.getElem?_eq_getElem this, Option.getD_some]
  obtain ⟨_, hf2⟩ := filter_int h (intLabels_hot hot) ⟨le_rfl, by omega⟩ (fun e => decide (tree.route e.1 = p))
  have hfin := (hR.nearest (intLabels_hot hot') hf2 hne).2
  rcases hmax with ⟨m, hm, _, hup, hlow⟩ | ⟨_, hno⟩
  · rw [hget cls hcls] at hm
    have hm := Option.some.inj hm
    refine ⟨hcls, fun j hj => ?_, fun j hj => ?_⟩
    · by_contra hc
      have := (hS.order cls hcls j hj).mpr (by omega)
      rw [hm, hup _ (List.mem_of_getElem? (hget j hj))] at this
      cases this
    · have hjt : j < t := by omega
      refine (hS.order j hjt cls hcls).mp ?_
      have h1 := hlow j _ hj (hget j hjt)
      obtain ⟨x, hx, _⟩ := hfin j hjt
      obtain ⟨y, hy, _⟩ := hfin cls hcls
      rw [← hm, le_val, hx, hy] at h1
      rw [lt_val, hx, hy]
      simpa using h1
  · exfalso
    have h1 := hno _ (List.mem_of_getElem? (hget cls hcls))
    obtain ⟨y, hy, _⟩ := hfin cls hcls
    rw [lt_val, hy, negInfinity_val] at h1
    have h2 : ((Ext.negInf : Ext ℚ) <. .fin y) = true := rfl
    rw [h2] at h1
    cases h1

end

/-! ## cases that meet the hypotheses, and a case outside -/

/-- three integer labels -/
def ints3 : List (List B64) := [[b64 1, b64 (-8)], [b64 1, b64 0], [b64 0, b64 1]]

-- the hypotheses of C123 are met by `ints3` (and by the data set `ints5` of C122); the averages are 2/3 and -7/3, rounded
example : ∀ negZero : Bool, let _ := env negZero
    IntLabels 8 ints3 ∧ ExactSums ints3.length 8 ∧
      (calculateAverageVector ints3).map (List.map B64.val) = .ok [(b64 (2 / 3)).val, (b64 (-7 / 3)).val] := by
  intro negZero
  refine ⟨?_, ⟨by decide, by decide⟩, by revert negZero; decide +kernel⟩
  have : ∀ l ∈ ints3, l.map B64.val = ofInts [1, -8] ∨ l.map B64.val = ofInts [1, 0] ∨ l.map B64.val = ofInts [0, 1] := by decide +kernel
  intro l hl
  rcases this l hl with h | h | h
  · exact ⟨_, h, by decide⟩
  · exact ⟨_, h, by decide⟩
  · exact ⟨_, h, by decide⟩

-- two of three one-hot labels are of class 0
example : ∀ negZero : Bool, let _ := env negZero
    (∀ l ∈ [[b64 1, b64 0, b64 0], [b64 0, b64 0, b64 1], [b64 1, b64 0, b64 0]], ∃ k < 3, l = oneHot 3 k) ∧
      (calculateAverageVector [[b64 1, b64 0, b64 0], [b64 0, b64 0, b64 1], [b64 1, b64 0, b64 0]]).map (List.map B64.val) =
        .ok [(b64 (2 / 3)).val, (b64 0).val, (b64 (1 / 3)).val] := by decide +kernel

/-- **C123**, finding.  With labels that are no integers the average can lie outside the labels: that of three labels 0.1 is larger than 0.1. -/
theorem C123_violated_without_integers : ∀ negZero : Bool, let _ := env negZero
    (calculateAverageVector [[b64 (1 / 10)], [b64 (1 / 10)], [b64 (1 / 10)]]).map (List.map (fun x => b64 (1 / 10) <. x)) = .ok [true] := by
  decide +kernel

end Verif
