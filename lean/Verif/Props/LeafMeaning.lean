import Verif.Spec.LeafMeaning
import Verif.Lemmas.NearStop
import Verif.Props.NearGini
import Verif.Props.FixedBest
/-!
# C130: at an early leaf no question is informative
-/

set_option linter.unusedSectionVars false

namespace Verif

open B64 Sample

section algebra
variable {K : Type} [Field K] [LinearOrder K] [IsStrictOrderedRing K] [FloorSemiring K] [HasExp K]

/-- a question that does not reduce the variance separates groups with equal means -/
theorem even_of_no_reduction {t : ℕ} {rows : List (List (Ext K))} {ls : List (List K)} (hlen : ls.length = rows.length) {q : Question (Ext K)}
    (hr : varianceReduction t rows ls q ≤ 0) (hy : yesLabels rows ls q ≠ []) (hn : noLabels rows ls q ≠ []) :
    ∀ j < t, meanOf (target (yesLabels rows ls q) j) = meanOf (target (noLabels rows ls q) j) := by
  have hp := sides_perm hlen q
  have e1 : totalVar t (noLabels rows ls q ++ yesLabels rows ls q) ≤ splitVar t (noLabels rows ls q) (yesLabels rows ls q) := by
    rw [totalVar_perm hp, splitVar]
    rw [varianceReduction] at hr
    linarith
  have e2 : totalVar t (yesLabels rows ls q ++ noLabels rows ls q) ≤ splitVar t (yesLabels rows ls q) (noLabels rows ls q) := by
    rw [totalVar_perm (List.perm_append_comm.trans hp), splitVar, add_comm, add_comm ((yesLabels rows ls q).length : K)]
    rw [varianceReduction] at hr
    linarith
  intro j hj
  rw [mean_of_no_gain hn hy e1 j hj, mean_of_no_gain hy hn e2 j hj, meanOf, meanOf,
    (target_perm (List.perm_append_comm (l₁ := yesLabels rows ls q)) j).sum_eq,
    (target_perm (List.perm_append_comm (l₁ := yesLabels rows ls q)) j).length_eq]

theorem hot_count {t : ℕ} {cs : List ℕ} {k : ℕ} (hk : k < t) : (target (cs.map (hot t : ℕ → List K)) k).sum = (cs.count k : K) := by
  induction cs with
  | nil => simp [target]
  | cons a cs ih =>
    simp only [target, List.map_cons, List.sum_cons, List.count_cons] at ih ⊢
    rw [ih, hot, getD_range hk]
    by_cases h : k = a
    · simp [h, add_comm]
    · simp [h, Ne.symm h]

/-- if the mean of one-hot vectors is one of them, all are that one -/
theorem one_class {t : ℕ} {cs : List ℕ} {k : ℕ} (hk : k < t) (hne : cs ≠ []) (h : (hot t k : List K) = meanVec t (cs.map (hot t))) :
    ∀ a ∈ cs, a = k := by
  have h1 := congrArg (fun v : List K => v.getD k 0) h
  simp only [hot, meanVec, getD_range hk] at h1
  have h2 := hot_count (K := K) (cs := cs) hk
  rw [meanOf, target_length, List.length_map, h2, if_pos trivial, eq_div_iff (length_cast_ne hne), one_mul] at h1
  have h3 : cs.count k = cs.length := by exact_mod_cast h1.symm
  intro a ha
  exact (List.count_eq_length.mp h3 a ha).symm

end algebra

section
variable [B64Env]

theorem early_even {L : Type} {d : DataSet B64} {c t m : ℕ} {tree : TreeNode B64 L} (hg : ExactlyGreedy d c t m tree) :
    EarlyLeavesEven d c t m tree := by
  intro p hp hq hm
  obtain ⟨ls, h1, -, h3, -⟩ := hg p hp
  refine ⟨ls, h1, fun q hc hy hn => even_of_no_reduction ?_ (h3 hq hm q hc) hy hn⟩
  have := congrArg List.length h1
  simpa [lift] using this.symm

theorem early_settled {L : Type} {d : DataSet B64} {c t b m : ℕ} (h : d.WF c t) (hI : IntLabels b d.labels)
    (hf : GapInts d.labels.length t b) {tree : TreeNode B64 L} (hgr : GrownGreedily d c t m tree) : EarlyLeavesSettled d t m tree := by
  intro p hp hnone hdepth
  obtain ⟨ls, hls, hS, hB, ht2⟩ := exact_setting d c t b h hI hf
  obtain ⟨dd, s, hw, hex, hs, hq⟩ := hgr p hp
  obtain ⟨ls', hl'⟩ := exact_labels_exist hls (fun e => p.isPrefixOf (tree.route e.1))
  obtain ⟨h1, h2, h3⟩ := exact_labels_sub h hls hB hl'
  have hrows : (reaching d tree p).map (fun e => e.1.map B64.val) = dd.exact.featureRows := by
    rw [← hex, DataSet.exact]
    conv_rhs => rw [show dd.featureRows = dd.examples.map Prod.fst by rw [DataSet.examples, List.map_fst_zip (by rw [hw.label_count])]]
    rw [List.map_map]; rfl
  have hlab : dd.exact.labels = lift ls' := by
    rw [← hl']
    change _ = (reaching d tree p).map _
    rw [← hex, DataSet.exact, ← examples_snd hw, List.map_map]; rfl
  refine ⟨ls', hl', ?_⟩
  have hl : ls.length = d.labels.length := by
    have := congrArg List.length hls
    simpa [DataSet.exact, lift] using this.symm
  have hwh : Whole ls' := (whole_of_ints (reaching_ints hI tree p) (by rw [List.map_map]; exact hl')).2
  rw [findBestSplit_ok hw] at hs
  rw [hrows]
  refine settled_of_gain_zero hw hlab (hS.fewer h3) h1 hwh ht2 (hf.fewer (by omega)) ?_
  rw [hnone, ← Except.ok.inj hs] at hq
  by_contra hz
  rw [if_pos ⟨hdepth, by simpa using hz⟩] at hq
  simp at hq

theorem early_pure {L : Type} {d : DataSet B64} {cs : List ℕ} {c t m : ℕ} (h : d.WF c t) (hcs : ∀ k ∈ cs, k < t)
    (hl : d.labels = cs.map (oneHot t)) {tree : TreeNode B64 L} (hg : EarlyLeavesSettled d t m tree) : EarlyLeavesPure d cs m tree := by
  intro p hp hq hm
  obtain ⟨ls, h1, h2⟩ := hg p hp hq hm
  set R := (d.featureRows.zip cs).filter (fun e => p.isPrefixOf (tree.route e.1)) with hR
  have hre : reaching d tree p = R.map (fun e => (e.1, oneHot t e.2)) := by
    rw [reaching, DataSet.examples, hl, List.zip_map_right, List.filter_map]
    rfl
  have hlen0 : cs.length = d.featureRows.length := by rw [← h.label_count, hl, List.length_map]
  have hrow0 : R.map Prod.fst = d.featureRows.filter (fun row => p.isPrefixOf (tree.route row)) := by
    have : d.featureRows = (d.featureRows.zip cs).map Prod.fst := (List.map_fst_zip (by omega)).symm
    conv_rhs => rw [this]
    rw [List.filter_map]
    rfl
  have hrows : (reaching d tree p).map (fun e => e.1.map B64.val) = featuresAt d tree p := by
    rw [featuresAt, ← hrow0, hre, List.map_map, List.map_map]
    rfl
  have hcl : classesAt d cs tree p = R.map Prod.snd := rfl
  have e : ls = (classesAt d cs tree p).map (hot t) := by
    apply lift_inj
    rw [← h1, hre, List.map_map, hcl, lift, List.map_map, List.map_map]
    apply List.map_congr_left
    intro x _
    simp only [Function.comp, oneHot_val, oneHot_lift]
  have hlen : (classesAt d cs tree p).length = (featuresAt d tree p).length := by
    rw [← hrows, hre, hcl]
    simp
  have hcl2 : ∀ k ∈ classesAt d cs tree p, k < t := by
    intro k hk
    obtain ⟨x, hx, rfl⟩ := List.mem_map.mp hk
    exact hcs _ (List.of_mem_zip (List.mem_filter.mp hx).1).2
  rw [hrows, e, NothingLeft, zip_fst (by rw [List.length_map]; exact hlen), zip_snd (by rw [List.length_map]; exact hlen)] at h2
  by_cases hless : ∃ r ∈ featuresAt d tree p, HasLess (featuresAt d tree p) r
  · left
    obtain ⟨r, hr, hless⟩ := hless
    obtain ⟨i, hi, rfl⟩ := List.getElem_of_mem hr
    have hi' : i < (classesAt d cs tree p).length := by omega
    have := h2 ((featuresAt d tree p)[i], hot t (classesAt d cs tree p)[i])
      (List.mem_of_getElem? (i := i) (by rw [List.getElem?_zip_eq_some]; simp [hi, hi'])) hless
    have hall := one_class (hcl2 _ (List.getElem_mem hi')) (List.ne_nil_of_length_pos (by omega)) this
    intro a ha b hb
    rw [hall a ha, hall b hb]
  · right
    have hnan : ∀ r ∈ featuresAt d tree p, ∀ x ∈ r, isNaN x = false := by
      intro r hr x hx
      obtain ⟨r0, hr0, rfl⟩ := List.mem_map.mp hr
      exact h.exact.no_nan _ (List.mem_map_of_mem (List.mem_filter.mp hr0).1) x hx
    intro r hr r' hr'
    exact sameFeatures_of_least hr hr' (hnan r hr) (hnan r' hr') (fun hc => hless ⟨r, hr, hc⟩) (fun hc => hless ⟨r', hr', hc⟩)

/-- **C130** (values).  In binary64, let the labels be multiples, up to `b`, of one power of two, few enough.  If a tree has a leaf above the depth
limit, every question that separates the examples there leaves two groups with exactly the same mean of every target. -/
theorem C130_values (k : ℤ) (hk : |k| ≤ 100) (d : DataSet B64) (c t b : ℕ) (h : d.WF c t) (hF : FixedLabels k b d.labels)
    (hf : GapInts d.labels.length t b) (cfg : TreeConfig) (hc : cfg.numberOfClasses = t) (o : LeafOutputType) :
    (∃ tree, regressionTreeNew d cfg = .ok tree ∧ EarlyLeavesEven d c t cfg.maxLevels tree) ∧
    (∃ tree, gradBoostTreeNew d cfg o = .ok tree ∧ EarlyLeavesEven d c t cfg.maxLevels tree) ∧
    (∃ tree, amgTreeNew d cfg o = .ok tree ∧ EarlyLeavesEven d c t cfg.maxLevels tree) := by
  obtain ⟨⟨x, x1, x2⟩, ⟨y, y1, y2⟩, ⟨z, z1, z2⟩⟩ := C127_fixed_point k hk d c t b h hF hf cfg hc o
  exact ⟨⟨x, x1, early_even x2⟩, ⟨y, y1, early_even y2⟩, ⟨z, z1, early_even z2⟩⟩

/-- **C130** (values, sorted columns).  The same holds for integer labels and the tree built from sorted columns. -/
theorem C130_values_sorted (d : DataSet B64) (c t b : ℕ) (h : d.WF c t) (hI : IntLabels b d.labels) (hf : GapInts d.labels.length t b)
    (cfg : TreeConfig) (s : SortedDataSet B64) (hs : createDatasetWithSortedFeatures d = .ok s)
    (tree : TreeNode B64 (RegressionLeafNewPartition B64)) (hb : regressionTreeNewPartitionNew s cfg = .ok tree) :
    EarlyLeavesEven d c t cfg.maxLevels tree :=
  early_even (C127_tree_sorted d c t b h hI hf cfg s hs tree hb)

variable (d : DataSet B64) (c t : ℕ) (h : d.WF c t)
include h

/-- **C130** (split search).  If the labels are few integers and the split search reports the gain zero, every example whose row is not the smallest
in all features has exactly the mean label. -/
theorem C130_search (b : ℕ) (hI : IntLabels b d.labels) (hf : GapInts d.labels.length t b) :
    ∃ s ls, findBestSplit d t = .ok s ∧ d.exact.labels = lift ls ∧
      ((s.gain ==. F64.zero) = true → NothingLeft t (d.exact.featureRows.zip ls)) := by
  obtain ⟨ls, hls, hS, hB, ht2⟩ := exact_setting d c t b h hI hf
  have hl : ls.length = d.labels.length := by
    have := congrArg List.length hls
    simpa [DataSet.exact, lift] using this.symm
  exact ⟨_, ls, findBestSplit_ok h, hls, settled_of_gain_zero h hls hS hB (whole_of_ints hI hls).2 ht2 (by rw [hl]; exact hf)⟩

/-- **C130** (trees).  The same holds, in all trees, for the examples at every leaf above the depth limit. -/
theorem C130_trees (b : ℕ) (hI : IntLabels b d.labels) (hf : GapInts d.labels.length t b) (cfg : TreeConfig) (hc : cfg.numberOfClasses = t)
    (k : LeafOutputType) :
    (∃ tree, regressionTreeNew d cfg = .ok tree ∧ EarlyLeavesSettled d t cfg.maxLevels tree) ∧
    (∃ tree, gradBoostTreeNew d cfg k = .ok tree ∧ EarlyLeavesSettled d t cfg.maxLevels tree) ∧
    (∃ tree, amgTreeNew d cfg k = .ok tree ∧ EarlyLeavesSettled d t cfg.maxLevels tree) := by
  obtain ⟨h1, h2, h3⟩ := C48_grown_greedily d c t h cfg hc k
  exact ⟨⟨_, regressionTreeNew_ok h hc, early_settled h hI hf (h1 _ (regressionTreeNew_ok h hc))⟩,
    ⟨_, gradBoostTreeNew_ok h hc k, early_settled h hI hf (h2 _ (gradBoostTreeNew_ok h hc k))⟩,
    ⟨_, amgTreeNew_ok h hc k, early_settled h hI hf (h3 _ (amgTreeNew_ok h hc k))⟩⟩

/-- **C130** (sorted columns).  So in the tree built from sorted columns. -/
theorem C130_tree_sorted (b : ℕ) (hI : IntLabels b d.labels) (hf : GapInts d.labels.length t b) (cfg : TreeConfig) (s : SortedDataSet B64)
    (hs : createDatasetWithSortedFeatures d = .ok s) (tree : TreeNode B64 (RegressionLeafNewPartition B64))
    (hb : regressionTreeNewPartitionNew s cfg = .ok tree) : EarlyLeavesSettled d t cfg.maxLevels tree := by
  obtain ⟨_, _, _, _, ht2⟩ := exact_setting d c t b h hI hf
  exact early_settled h hI hf (C48_grown_greedily_sorted d c t h (by omega) cfg s hs tree hb)

/-- **C130** (classes).  If the labels are few one-hot classes, the examples at a leaf above the depth limit are all of one class, or all have the
same features. -/
theorem C130_classes (cs : List ℕ) (hcs : ∀ k ∈ cs, k < t) (hl : d.labels = cs.map (oneHot t)) (hf : GapInts cs.length t 1) (cfg : TreeConfig)
    (hc : cfg.numberOfClasses = t) (k : LeafOutputType) :
    (∃ tree, regressionTreeNew d cfg = .ok tree ∧ EarlyLeavesPure d cs cfg.maxLevels tree) ∧
    (∃ tree, gradBoostTreeNew d cfg k = .ok tree ∧ EarlyLeavesPure d cs cfg.maxLevels tree) ∧
    (∃ tree, amgTreeNew d cfg k = .ok tree ∧ EarlyLeavesPure d cs cfg.maxLevels tree) := by
  obtain ⟨⟨x, x1, x2⟩, ⟨y, y1, y2⟩, ⟨z, z1, z2⟩⟩ :=
    C130_trees d c t h 1 (intLabels_classes hl) (by rw [hl, List.length_map]; exact hf) cfg hc k
  exact ⟨⟨x, x1, early_pure h hcs hl x2⟩, ⟨y, y1, early_pure h hcs hl y2⟩, ⟨z, z1, early_pure h hcs hl z2⟩⟩

/-- **C130** (classes, sorted columns). -/
theorem C130_classes_sorted (cs : List ℕ) (hcs : ∀ k ∈ cs, k < t) (hl : d.labels = cs.map (oneHot t)) (hf : GapInts cs.length t 1)
    (cfg : TreeConfig) (s : SortedDataSet B64) (hs : createDatasetWithSortedFeatures d = .ok s)
    (tree : TreeNode B64 (RegressionLeafNewPartition B64)) (hb : regressionTreeNewPartitionNew s cfg = .ok tree) :
    EarlyLeavesPure d cs cfg.maxLevels tree :=
  early_pure h hcs hl (C130_tree_sorted d c t h 1 (intLabels_classes hl) (by rw [hl, List.length_map]; exact hf) cfg s hs tree hb)

end

namespace Sample

/-- two rows with the feature 0 and different labels, and one with the feature 1 and their mean label -/
def settled3 : DataSet B64 :=
  { featureRows := [[b64 0], [b64 0], [b64 1]]
    labels := [[b64 0], [b64 2], [b64 1]]
    featureColumns := [[b64 0, b64 0, b64 1]] }

end Sample

-- `settled3` meets the hypotheses of `C130_search` and `C130_trees`
example : ∀ negZero : Bool, let _ := env negZero
    settled3.WF 1 1 := by
  intro negZero
  dsimp only
  refine @DataSet.WF.mk _ (@instF64B64OfB64Env (env negZero)) _ _ _ ?_ ?_ ?_ ?_ ?_ ?_ ?_ <;> revert negZero <;> decide +kernel

example : IntLabels 2 settled3.labels ∧ GapInts settled3.labels.length 1 2 := by
  refine ⟨?_, ⟨by decide, by decide, by decide⟩⟩
  have : ∀ l ∈ settled3.labels, l.map B64.val = [.fin 0] ∨ l.map B64.val = [.fin 2] ∨ l.map B64.val = [.fin 1] := by decide +kernel
  intro l hl
  rcases this l hl with h | h | h
  · exact ⟨[0], by rw [h]; rfl, by decide⟩
  · exact ⟨[2], by rw [h]; rfl, by decide⟩
  · exact ⟨[1], by rw [h]; rfl, by decide⟩

-- its labels differ, but the gain is zero: the tree is one leaf, above the depth limit
example : ∀ negZero : Bool, let _ := env negZero
    (findBestSplit settled3 1).map (fun s => s.gain.val) = .ok (.fin 0) ∧
    (regressionTreeNew settled3 (exCfg 1)).map (fun tree => (tree.questionCount, (tree.questionAt []).isNone)) = .ok (0, true) ∧
    (exCfg 1).maxLevels ≠ 0 := by decide +kernel

-- the tree of `classes4` has two leaves above the depth limit; there the classes are 0, 0, 0 and 1
example : ∀ negZero : Bool, let _ := env negZero
    (regressionTreeNew classes4 { useMultiThreading := false, numberOfClasses := 2, maxLevels := 3 }).map (fun tree =>
      ([[true], [false]].map (fun p => (tree.subtreeAt p).isSome && (tree.questionAt p).isNone),
        [[true], [false]].map (classesAt classes4 [0, 0, 0, 1] tree))) = .ok ([true, true], [[1], [0, 0, 0]]) := by decide +kernel

end Verif
