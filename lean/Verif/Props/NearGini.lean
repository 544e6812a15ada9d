import Verif.Spec.NearGini
import Verif.Props.FixedBest
import Verif.Props.Gini
/-!
# C129: few classified rows are split by the exact Gini impurity
-/

set_option linter.unusedSectionVars false

namespace Verif

open B64 Sample

section
variable [B64Env]

theorem intLabels_classes {labels : List (List B64)} {t : ℕ} {cs : List ℕ} (hl : labels = cs.map (oneHot t)) : IntLabels 1 labels := by
  intro l hm
  rw [hl] at hm
  obtain ⟨k, _, rfl⟩ := List.mem_map.mp hm
  refine ⟨(List.range t).map (fun j => if j = k then 1 else 0), ?_, ?_⟩
  · rw [oneHot_val, oneHot, ofInts, liftV, List.map_map, List.map_map]
    apply List.map_congr_left
    intro j _
    simp only [Function.comp]
    split <;> simp [Ext.one_def, Ext.zero_def]
  · intro x hx
    obtain ⟨j, _, rfl⟩ := List.mem_map.mp hx
    split <;> simp

theorem exact_classes {labels : List (List B64)} {t : ℕ} {cs : List ℕ} (hl : labels = cs.map (oneHot t)) :
    labels.map (List.map B64.val) = lift (cs.map (hot t)) := by
  rw [hl, lift, List.map_map, List.map_map]
  apply List.map_congr_left
  intro k _
  simp only [Function.comp, oneHot_val, oneHot_lift]

variable (d : DataSet B64) (c t : ℕ) (h : d.WF c t) (cs : List ℕ) (hcs : ∀ k ∈ cs, k < t) (hl : d.labels = cs.map (oneHot t))
  (hf : GapInts cs.length t 1)
include h hcs hl hf

/-- **C129** (split search).  In binary64, let `n` rows be labelled with classes `cs` out of `t`, one-hot encoded, where `n^5 * t * (n + t) < 2^45`.  If
the split search reports the gain zero, no question lowers the exact Gini impurity of the classes; if it reports a question whose threshold occurs
only once in its column, no question lowers it by more. -/
theorem C129_search :
    ∃ s, findBestSplit d t = .ok s ∧
      ((s.gain ==. F64.zero) = true → ∀ q : Question (Ext ℚ), q.column < c → giniDecrease d.exact.featureRows cs q ≤ (0 : ℚ)) ∧
      ((s.gain ==. F64.zero) = false → ((column d.featureRows s.question.column).filter (fun x => x ==. s.question.value)).length = 1 →
        ∀ q : Question (Ext ℚ), q.column < c →
          giniDecrease d.exact.featureRows cs q ≤ (giniDecrease d.exact.featureRows cs s.question.exact : ℚ)) := by
  obtain ⟨s, ls, h1, h2, h3, h4⟩ := C127_search d c t 1 h (intLabels_classes hl) (by rw [hl, List.length_map]; exact hf)
  have e : ls = cs.map (hot t) := by
    apply lift_inj
    rw [← h2]
    exact exact_classes hl
  have hlen : cs.length = d.exact.featureRows.length := by
    rw [DataSet.exact, List.length_map, ← h.label_count, hl, List.length_map]
  subst e
  simp only [reduction_gini hlen hcs] at h3 h4
  exact ⟨s, h1, h3, h4⟩

theorem giniGreedy_of {L : Type} {m : ℕ} {tree : TreeNode B64 L} (hg : ExactlyGreedy d c t m tree) : GiniGreedy d cs c m tree := by
  intro p hp
  obtain ⟨ls, h1, -, h3, h4⟩ := hg p hp
  set R := (d.featureRows.zip cs).filter (fun e => p.isPrefixOf (tree.route e.1)) with hR
  have hre : reaching d tree p = R.map (fun e => (e.1, oneHot t e.2)) := by
    rw [reaching, DataSet.examples, hl, List.zip_map_right, List.filter_map]
    rfl
  have hlen0 : cs.length = d.featureRows.length := by rw [← h.label_count, hl, List.length_map]
  have hrow0 : R.map Prod.fst = d.featureRows.filter (fun row => p.isPrefixOf (tree.route row)) := by
    have : d.featureRows = (d.featureRows.zip cs).map Prod.fst := (List.map_fst_zip (by omega)).symm
    conv_rhs => rw [this]
    rw [List.filter_map]
    rfl
  have hrows : (reaching d tree p).map (fun e => e.1.map B64.val) = featuresAt d tree p := by
    rw [featuresAt, ← hrow0, hre, List.map_map, List.map_map]
    rfl
  have hcl : classesAt d cs tree p = R.map Prod.snd := rfl
  have e : ls = (classesAt d cs tree p).map (hot t) := by
    apply lift_inj
    rw [← h1, hre, List.map_map, hcl, lift, List.map_map, List.map_map]
    apply List.map_congr_left
    intro x _
    simp only [Function.comp, oneHot_val, oneHot_lift]
  have hlen : (classesAt d cs tree p).length = (featuresAt d tree p).length := by
    rw [← hrows, hre, hcl]
    simp
  have hcl2 : ∀ k ∈ classesAt d cs tree p, k < t := by
    intro k hk
    obtain ⟨x, hx, rfl⟩ := List.mem_map.mp hk
    exact hcs _ (List.of_mem_zip (List.mem_filter.mp hx).1).2
  subst e
  rw [hrows] at h3 h4
  simp only [reduction_gini hlen hcl2] at h3 h4
  refine ⟨h3, fun q hq hu => h4 q hq ?_⟩
  have hcol : column (featuresAt d tree p) q.column = (column ((reaching d tree p).map Prod.fst) q.column).map B64.val := by
    rw [← hrows, column, column, List.map_map, List.map_map, List.map_map]
    apply List.map_congr_left
    intro e _
    simp only [Function.comp, List.getD, List.getElem?_map]
    cases e.1[q.column]? <;> simp [Ext.zero_def]
  rw [← hu, hcol, List.filter_map, List.length_map]
  rfl

/-- **C129** (trees).  All trees follow this rule at every node. -/
theorem C129_trees (cfg : TreeConfig) (hc : cfg.numberOfClasses = t) (k : LeafOutputType) :
    (∃ tree, regressionTreeNew d cfg = .ok tree ∧ GiniGreedy d cs c cfg.maxLevels tree) ∧
    (∃ tree, gradBoostTreeNew d cfg k = .ok tree ∧ GiniGreedy d cs c cfg.maxLevels tree) ∧
    (∃ tree, amgTreeNew d cfg k = .ok tree ∧ GiniGreedy d cs c cfg.maxLevels tree) := by
  obtain ⟨⟨x, x1, x2⟩, ⟨y, y1, y2⟩, ⟨z, z1, z2⟩⟩ := C127_trees d c t 1 h (intLabels_classes hl) (by rw [hl, List.length_map]; exact hf) cfg hc k
  exact ⟨⟨x, x1, giniGreedy_of d c t h cs hcs hl hf x2⟩, ⟨y, y1, giniGreedy_of d c t h cs hcs hl hf y2⟩,
    ⟨z, z1, giniGreedy_of d c t h cs hcs hl hf z2⟩⟩

/-- **C129** (sorted columns).  So does the tree built from sorted columns. -/
theorem C129_tree_sorted (cfg : TreeConfig) (s : SortedDataSet B64) (hs : createDatasetWithSortedFeatures d = .ok s)
    (tree : TreeNode B64 (RegressionLeafNewPartition B64)) (hb : regressionTreeNewPartitionNew s cfg = .ok tree) :
    GiniGreedy d cs c cfg.maxLevels tree :=
  giniGreedy_of d c t h cs hcs hl hf
    (C127_tree_sorted d c t 1 h (intLabels_classes hl) (by rw [hl, List.length_map]; exact hf) cfg s hs tree hb)

end

-- `classes4` meets the hypotheses
example : ∀ negZero : Bool, let _ := env negZero
    (∀ k ∈ [0, 0, 0, 1], k < 2) ∧ classes4.labels = [0, 0, 0, 1].map (oneHot 2) ∧ GapInts [0, 0, 0, 1].length 2 1 := by
  intro negZero
  refine ⟨by decide, ?_, by decide, by decide, by decide⟩
  revert negZero
  decide +kernel

-- the question found, and how much it lowers the impurity
example : ∀ negZero : Bool, let _ := env negZero
    (findBestSplit classes4 2).map (fun s => s.question.exact) = .ok { column := 0, value := .fin 3 } ∧
    giniDecrease classes4.exact.featureRows [0, 0, 0, 1] { column := 0, value := .fin 3 } = (3 / 8 : ℚ) ∧
    giniDecrease classes4.exact.featureRows [0, 0, 0, 1] { column := 0, value := .fin 2 } = (1 / 8 : ℚ) := by decide +kernel

-- 150 rows of three classes are few enough
example : GapInts 150 3 1 := ⟨by decide, by decide, by decide⟩

end Verif
